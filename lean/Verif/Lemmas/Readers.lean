import Mathlib.Data.List.TakeWhile
import Verif.Lemmas.Csv
import Verif.Lemmas.Util
import Verif.Model.Readers
import Verif.Spec.Readers
/-!
# Lemmas on the `.data`, `.txt` and `.arff` readers
-/
namespace MLTK.Text
open MLTK.Spec
open MLTK.Data (Res_bind_ok Res_bind_error Res_pure)

/-- A text that begins and ends with a visible character is not changed by `trim`. -/
theorem trim_ends (s : List Char) (h1 : ∀ c, s.head? = some c → isSpace c = false)
    (h2 : ∀ c, s.getLast? = some c → isSpace c = false) : trim s = s := by
  have hdw : ∀ s : List Char, (∀ c, s.head? = some c → isSpace c = false) → s.dropWhile isSpace = s := by
    intro s hs
    cases s with
    | nil => rfl
    | cons c s => simp [hs c rfl]
  rw [trim, hdw s h1, hdw s.reverse (by simpa using h2), List.reverse_reverse]

theorem intercalate_head? (d : Char) (t : List Char) (ts : List (List Char)) (ht : t ≠ []) :
    (List.intercalate [d] (t :: ts)).head? = t.head? := by
  cases ts with
  | nil => simp [List.intercalate, List.intersperse]
  | cons u ts =>
    rw [intercalate_cons₂]
    cases t with
    | nil => exact absurd rfl ht
    | cons c t => rfl

theorem intercalate_last? (d : Char) : ∀ (ts : List (List Char)), ts ≠ [] → (∀ t ∈ ts, t ≠ []) →
    ∃ t ∈ ts, (List.intercalate [d] ts).getLast? = t.getLast?
  | [], h, _ => absurd rfl h
  | [t], _, _ => ⟨t, by simp, by simp [List.intercalate, List.intersperse]⟩
  | t :: u :: ts, _, hne => by
    obtain ⟨w, hw, h⟩ := intercalate_last? d (u :: ts) (by simp) (fun x hx => hne x (by simp [hx]))
    refine ⟨w, by simp [hw], ?_⟩
    rw [intercalate_cons₂, List.getLast?_append, List.getLast?_cons, h]
    cases hl : w.getLast? with
    | none => exact absurd (List.getLast?_eq_none_iff.1 hl) (hne w (by simp [hw]))
    | some c => simp

/-- A line of visible words separated by single blanks (or another character): trimmed and cut into its words. -/
theorem line_words (d : Char) (ts : List (List Char)) (hne : ts ≠ [])
    (h : ∀ t ∈ ts, t ≠ [] ∧ d ∉ t ∧ ∀ c ∈ t, isSpace c = false) :
    (getlines d (trim (List.intercalate [d] ts)) []).map Prod.fst = ts := by
  rw [trim_ends, getlines_intercalate d ts (fun t ht => ⟨(h t ht).1, (h t ht).2.1⟩)]
  · intro c hc
    cases ts with
    | nil => exact absurd rfl hne
    | cons t ts =>
      rw [intercalate_head? d t ts (h t (by simp)).1] at hc
      exact (h t (by simp)).2.2 c (List.mem_of_head? hc)
  · intro c hc
    obtain ⟨t, ht, e⟩ := intercalate_last? d ts hne (fun t ht => (h t ht).1)
    rw [e] at hc
    exact (h t ht).2.2 c (List.mem_of_getLast? hc)

theorem getlines_length (d : Char) (s : List Char) : (getlines d s []).length = ((getlines d s []).map Prod.fst).length := by
  simp

theorem not_blank {c : Char} (h : ¬ IsBlank c) : isSpace c = false := by
  cases hs : isSpace c with
  | false => rfl
  | true => exact absurd ((isSpace_iff c).1 hs) h

/-- The characters of a decimal. -/
theorem decimal_chars {s : List Char} {v : ℚ} (h : Decimal s v) :
    s ≠ [] ∧ ∀ c ∈ s, c = '-' ∨ c = '+' ∨ c = '.' ∨ isDigit c = true := by
  obtain ⟨sg, sv, is, fs, point, h0, h1, h2, h3, h4, rfl, rfl⟩ := h
  constructor
  · intro he
    apply h3
    simp only [List.append_eq_nil_iff, List.map_eq_nil_iff] at he
    simp [he.1.1.2, he.2]
  · intro c hc
    simp only [List.mem_append, List.mem_map] at hc
    rcases hc with ((hc | ⟨k, hk, rfl⟩) | hc) | ⟨k, hk, rfl⟩
    · cases h0 with
      | none => simp at hc
      | plus => simp at hc; exact .inr (.inl hc)
      | minus => simp at hc; exact .inl hc
    · exact .inr (.inr (.inr (isDigit_digitChar (h1 k hk))))
    · rcases h4 with rfl | ⟨rfl, -⟩
      · simp at hc; exact .inr (.inr (.inl hc))
      · simp at hc
    · exact .inr (.inr (.inr (isDigit_digitChar (h2 k hk))))

theorem decimal_isNumber {s : List Char} {v : ℚ} (h : Decimal s v) : isNumber s = true := by
  obtain ⟨h1, h2⟩ := decimal_chars h
  simp only [isNumber, Bool.and_eq_true, decide_eq_true_eq, List.all_eq_true, Bool.or_eq_true]
  refine ⟨h1, fun c hc => ?_⟩
  rcases h2 c hc with h | h | h | h <;> simp [h]

theorem decimal_atod {s : List Char} {v : ℚ} (h : Decimal s v) : atod s = v := by
  have := atod_decimal [] s [] v (by simp) h (by intro c hc; simp at hc)
  simpa using this

/-- Decimals contain no separators. -/
theorem decimal_clean {s : List Char} {v : ℚ} (h : Decimal s v) :
    s ≠ [] ∧ ':' ∉ s ∧ ' ' ∉ s ∧ ',' ∉ s ∧ ∀ c ∈ s, isSpace c = false := by
  obtain ⟨h1, h2⟩ := decimal_chars h
  have key : ∀ d : Char, d ≠ '-' → d ≠ '+' → d ≠ '.' → isDigit d = false → d ∉ s := by
    intro d e1 e2 e3 e4 hc
    rcases h2 d hc with h | h | h | h
    · exact e1 h
    · exact e2 h
    · exact e3 h
    · rw [e4] at h; cases h
  refine ⟨h1, key _ (by decide) (by decide) (by decide) (by decide), key _ (by decide) (by decide) (by decide) (by decide),
    key _ (by decide) (by decide) (by decide) (by decide), fun c hc => ?_⟩
  rcases h2 c hc with rfl | rfl | rfl | h
  · decide
  · decide
  · decide
  · exact (isDigit_props c h).2.2.2.1

/-! ### `.data` lines -/

/-- The text of a cell. -/
def IsCell (cell : Int × ℚ) (t : List Char) : Prop := ∃ f v, IsNumeral cell.1 f ∧ Decimal v cell.2 ∧ t = f ++ ':' :: v

theorem cell_clean {cell : Int × ℚ} {t : List Char} (h : IsCell cell t) :
    t ≠ [] ∧ ' ' ∉ t ∧ ∀ c ∈ t, isSpace c = false := by
  obtain ⟨f, v, hf, hv, rfl⟩ := h
  have hs : ∀ c ∈ f ++ ':' :: v, isSpace c = false := by
    intro c hc
    rcases List.mem_append.1 hc with hc | hc
    · exact numeral_noSpace hf c hc
    · rcases List.mem_cons.1 hc with rfl | hc
      · decide
      · exact (decimal_clean hv).2.2.2.2 c hc
  refine ⟨by simp, fun hc => ?_, hs⟩
  have := hs _ hc
  exact absurd this (by decide)

theorem numeral_noColon {n : Int} {s : List Char} (h : IsNumeral n s) : ':' ∉ s ∧ '.' ∉ s := by
  constructor <;> intro hc <;> rcases (numeral_chars h).2 _ hc with h | h <;> exact absurd h (by decide)

theorem cell_pieces {cell : Int × ℚ} {t : List Char} (h : IsCell cell t) :
    ∃ f v, IsNumeral cell.1 f ∧ Decimal v cell.2 ∧ ':' ∈ t ∧ (getlines ':' t []).map Prod.fst = [f, v] := by
  obtain ⟨f, v, hf, hv, rfl⟩ := h
  refine ⟨f, v, hf, hv, by simp, ?_⟩
  rw [getlines_piece ':' f v (numeral_noColon hf).1, getlines_last ':' v (decimal_clean hv).2.1 (decimal_clean hv).1]
  rfl

theorem trim_clean {t : List Char} (h : ∀ c ∈ t, isSpace c = false) : trim t = t := trim_noSpace t h

/-- Int range of feature names that `stoin` reads. -/
def InRange (n : Int) : Prop := -2 ^ 31 < n ∧ n < 2 ^ 31

theorem filter_noCR {t : List Char} (h : ∀ c ∈ t, isSpace c = false) : t.filter (fun c => decide (c ≠ '\r')) = t := by
  rw [List.filter_eq_self]
  intro c hc
  have := h c hc
  simp only [decide_eq_true_eq]
  rintro rfl
  exact absurd this (by decide)

theorem vset_ok {α : Type} (l : List α) (i : Nat) (a : α) (h : i < l.length) : vset l i a = .ok (l.set i a) := by
  simp [vset, h]

theorem readDataItem_cell (cls : Bool) (cell : Int × ℚ) (t : List Char) (h : IsCell cell t) (hr : InRange cell.1)
    (s : RowSt) (hx : s.j < s.x.length) (hf : s.j < s.fnames.length) :
    readDataItem cls s t = .ok { s with x := s.x.set s.j cell.2, fnames := s.fnames.set s.j cell.1, j := s.j + 1 } := by
  obtain ⟨f, v, h1, h2, h3, h4⟩ := cell_pieces h
  rw [readDataItem, trim_clean (cell_clean h).2.2]
  simp only [h3, not_true_eq_false, if_false, h4]
  simp only [readPieces, filter_noCR (numeral_noSpace h1), filter_noCR (decimal_clean h2).2.2.2.2, if_true,
    stoin_numeral _ hr.1 hr.2 _ h1, Res_bind_ok, vset_ok _ _ _ hf, decimal_isNumber h2, decimal_atod h2, vset_ok _ _ _ hx,
    Bool.true_eq_false, if_false, Res_pure]

theorem readDataItems_cells (cls : Bool) : ∀ (cells : List (Int × ℚ)) (ts : List (List Char)) (px : List ℚ) (pf : List Int)
    (x : List ℚ) (fn : List Int) (y : ℚ) (cl : Classes),
    List.Forall₂ IsCell cells ts → (∀ c ∈ cells, InRange c.1) → px.length = pf.length → x.length = cells.length →
    fn.length = cells.length →
    ts.foldlM (readDataItem cls) ⟨px ++ x, y, cl, pf ++ fn, px.length⟩ =
      .ok ⟨px ++ cells.map Prod.snd, y, cl, pf ++ cells.map Prod.fst, px.length + cells.length⟩
  | [], ts, px, pf, x, fn, y, cl, h, _, _, hx, hf => by
    cases h
    have : x = [] := by simpa using hx
    have : fn = [] := by simpa using hf
    subst_vars
    simp [Res_pure]
  | cell :: cells, [], _, _, _, _, _, _, h, _, _, _, _ => by cases h
  | cell :: cells, t :: ts, px, pf, x, fn, y, cl, h, hr, hp, hx, hf => by
    obtain ⟨h1, h2⟩ := List.forall₂_cons.1 h
    cases x with
    | nil => simp at hx
    | cons x0 x =>
    cases fn with
    | nil => simp at hf
    | cons f0 fn =>
    rw [List.foldlM_cons, readDataItem_cell cls cell t h1 (hr cell (by simp)) _ (by simp) (by simp [hp]), Res_bind_ok]
    have ih := readDataItems_cells cls cells ts (px ++ [cell.2]) (pf ++ [cell.1]) x fn y cl h2
      (fun c hc => hr c (by simp [hc])) (by simp [hp]) (by simpa using hx) (by simpa using hf)
    have e1 : (px ++ x0 :: x).set px.length cell.2 = px ++ [cell.2] ++ x := by
      rw [List.set_append_right _ _ (le_refl _)]; simp
    have e2 : (pf ++ f0 :: fn).set px.length cell.1 = pf ++ [cell.1] ++ fn := by
      rw [hp, List.set_append_right _ _ (le_refl _)]; simp
    simp only [e1, e2]
    have e3 : (px ++ [cell.2]).length = px.length + 1 := by simp
    rw [e3] at ih
    rw [ih]
    simp only [List.map_cons, List.append_assoc, List.singleton_append, List.length_cons]
    congr 2
    omega

/-- A row and its line, with everything in range. -/
def GoodLine (dim : Nat) (r : DataRow) (line : List Char) : Prop :=
  IsDataLine r line ∧ Word r.label ∧ r.cells.length = dim ∧ ∀ c ∈ r.cells, InRange c.1

theorem dataLine_words {dim : Nat} {r : DataRow} {line : List Char} (h : GoodLine dim r line) :
    ∃ ts, List.Forall₂ IsCell r.cells ts ∧ (getlines ' ' (trim line) []).map Prod.fst = r.label :: ts ∧
      ∀ t ∈ r.label :: ts, t ≠ [] := by
  obtain ⟨⟨ts, h1, rfl⟩, h2, h3, h4⟩ := h
  have hc : List.Forall₂ IsCell r.cells ts := h1
  have hall : ∀ t ∈ r.label :: ts, t ≠ [] ∧ ' ' ∉ t ∧ ∀ c ∈ t, isSpace c = false := by
    intro t ht
    rcases List.mem_cons.1 ht with rfl | ht
    · refine ⟨h2.1, fun hc => (h2.2 _ hc).1 (.inl rfl), fun c hc => not_blank (h2.2 c hc).1⟩
    · obtain ⟨i, hi, rfl⟩ := List.mem_iff_getElem.1 ht
      exact cell_clean (hc.get (by rw [hc.length_eq]; exact hi) hi)
  exact ⟨ts, hc, line_words ' ' _ (by simp) hall, fun t ht => (hall t ht).1⟩

theorem readDataLine_ok (dim : Nat) (r : DataRow) (line : List Char) (h : GoodLine dim r line) (cl cl' : Classes) (c : Int)
    (fn : List Int) (hfn : fn.length = dim) (hp : processClass cl r.label = .ok (cl', c)) :
    ((getlines ' ' (trim line) []).map Prod.fst).foldlM (readDataItem true) ⟨List.replicate dim 0, 0, cl, fn, 0⟩ =
      .ok ⟨r.cells.map Prod.snd, (c : ℚ), cl', r.cells.map Prod.fst, dim⟩ := by
  obtain ⟨ts, h1, h2, h3⟩ := dataLine_words h
  obtain ⟨-, hw, hd, hr⟩ := h
  rw [h2, List.foldlM_cons, readDataItem, trim_clean (fun c hc => not_blank (hw.2 c hc).1)]
  have hcol : ':' ∉ r.label := fun hc => (hw.2 ':' hc).2 rfl
  simp only [hcol, not_false_eq_true, if_true, hp, Res_bind_ok, Res_pure]
  have := readDataItems_cells true r.cells ts [] [] (List.replicate dim 0) fn (c : ℚ) cl' h1 hr rfl (by simp [hd])
    (by simp [hd, hfn])
  simpa [hd] using this

/-- The points read from the rows. -/
def dataPoints : Nat → List DataRow → List Int → List LPt
  | n, r :: rs, c :: cs => ⟨r.cells.map Prod.snd, (c : ℚ), n + 1⟩ :: dataPoints (n + 1) rs cs
  | _, _, _ => []

theorem readDataLines_ok (dim : Nat) : ∀ (rows : List DataRow) (lines : List (List Char)) (n : Nat) (cl cl' : Classes)
    (labels : List Int) (fn : List Int), List.Forall₂ (GoodLine dim) rows lines → fn.length = dim →
    processAll cl (rows.map DataRow.label) = .ok (cl', labels) →
    readDataLines true dim lines n cl fn =
      .ok (dataPoints n rows labels, cl', ((rows.getLast?).map (fun r => r.cells.map Prod.fst)).getD fn)
  | [], _, n, cl, cl', labels, fn, h, _, hp => by
    cases h
    simp only [List.map_nil, processAll, Res_pure, Except.ok.injEq, Prod.mk.injEq] at hp
    obtain ⟨rfl, rfl⟩ := hp
    rfl
  | r :: rows, [], _, _, _, _, _, h, _, _ => by cases h
  | r :: rows, l :: lines, n, cl, cl', labels, fn, h, hfn, hp => by
    obtain ⟨h1, h2⟩ := List.forall₂_cons.1 h
    simp only [List.map_cons, processAll] at hp
    cases hp1 : processClass cl r.label with
    | error e => rw [hp1] at hp; cases hp
    | ok q =>
      obtain ⟨cl1, c⟩ := q
      rw [hp1, Res_bind_ok] at hp
      simp only at hp
      cases hp2 : processAll cl1 (rows.map DataRow.label) with
      | error e => rw [hp2] at hp; cases hp
      | ok q =>
        obtain ⟨cl2, cs⟩ := q
        rw [hp2, Res_bind_ok] at hp
        simp only [Res_pure, Except.ok.injEq, Prod.mk.injEq] at hp
        obtain ⟨rfl, rfl⟩ := hp
        have hl := readDataLine_ok dim r l h1 cl cl1 c fn hfn hp1
        have ih := readDataLines_ok dim rows lines (n + 1) cl1 cl2 cs (r.cells.map Prod.fst) h2 (by simp [h1.2.2.1]) hp2
        simp only [readDataLines, hl, Res_bind_ok, ih, Res_pure, dataPoints]
        cases hg : rows.getLast? with
        | none =>
          have := List.getLast?_eq_none_iff.1 hg
          subst this
          simp
        | some q => simp [List.getLast?_cons, hg]

theorem detect_noop (ldim : Int) (L : List (Nat × List Char)) (st : DType × Bool) (h : ∀ p ∈ L, (p.1 : Int) ≠ ldim) :
    L.foldl (detectItem ldim) st = st := by
  induction L with
  | nil => rfl
  | cons p L ih =>
    rw [List.foldl_cons, detectItem, if_neg (fun hh => h p (by simp) hh.2), ih (fun q hq => h q (by simp [hq]))]

/-- The type after a line of the expected dimension: once fixed it stays, otherwise it becomes classification, because the first
piece of the last item is a feature name. -/
theorem detect_line {dim : Nat} (hdim : dim ≠ 0) {r : DataRow} {ts : List (List Char)} (h : List.Forall₂ IsCell r.cells ts)
    (hd : r.cells.length = dim) (st : DType × Bool) :
    (List.zip (List.range (r.label :: ts).length) (r.label :: ts)).foldl (detectItem dim) st =
      if st.2 then st else (.classification, true) := by
  have hts : ts.length = dim := by rw [← h.length_eq, hd]
  obtain ⟨pre, t, hpt⟩ : ∃ pre t, ts = pre ++ [t] := by
    rcases List.eq_nil_or_concat ts with e | ⟨pre, t, e⟩
    · subst e; simp at hts; exact absurd hts.symm hdim
    · exact ⟨pre, t, by simpa using e⟩
  subst hpt
  have hl : (r.label :: pre).length = dim := by simpa using hts
  have e1 : r.label :: (pre ++ [t]) = (r.label :: pre) ++ [t] := rfl
  rw [e1, List.length_append, hl, List.length_singleton, List.range_succ, List.zip_append (by simp [hl]), List.foldl_append,
    detect_noop _ (List.zip (List.range dim) (r.label :: pre))]
  · have hcell : ∃ cell ∈ r.cells, IsCell cell t := by
      have hi : pre.length < (pre ++ [t]).length := by simp
      have := h.get (i := pre.length) (by rw [h.length_eq]; exact hi) hi
      simp only [List.get_eq_getElem, List.getElem_append_right (le_refl _), Nat.sub_self, List.getElem_cons_zero] at this
      exact ⟨_, List.getElem_mem _, this⟩
    obtain ⟨cell, -, hc⟩ := hcell
    obtain ⟨f, v, hf, -, -, hp⟩ := cell_pieces hc
    simp only [List.zip_cons_cons, List.zip_nil_right, List.foldl_cons, List.foldl_nil, detectItem,
      trim_clean (cell_clean hc).2.2, hp, (numeral_noColon hf).2, if_false]
    cases st.2 <;> simp
  · intro p hp
    have := (List.of_mem_zip hp).1
    have : p.1 < dim := by simpa using this
    omega

theorem firstPassData_ok (dim : Nat) (hdim : dim ≠ 0) : ∀ (rows : List DataRow) (lines : List (List Char)) (n : Nat)
    (st : DType × Bool), List.Forall₂ (GoodLine dim) rows lines → n ≠ 0 →
    firstPassData lines dim n st =
      some ((dim : Int), n + rows.length, if rows = [] ∨ st.2 = true then st.1 else .classification)
  | [], _, n, st, h, _ => by cases h; simp [firstPassData]
  | r :: rows, [], _, _, h, _ => by cases h
  | r :: rows, l :: lines, n, st, h, hn => by
    obtain ⟨h1, h2⟩ := List.forall₂_cons.1 h
    obtain ⟨ts, k1, k2, k3⟩ := dataLine_words h1
    have hf : ((getlines ' ' (trim l) []).map Prod.fst).filter (fun x => decide (x ≠ [])) = r.label :: ts := by
      rw [k2, List.filter_eq_self]
      intro t ht
      simpa using k3 t ht
    have hlen : (((r.label :: ts).length : Nat) : Int) - 1 = dim := by
      have := k1.length_eq
      have := h1.2.2.1
      simp only [List.length_cons]
      omega
    simp only [firstPassData, hf, hlen, Nat.pos_of_ne_zero hn, if_true, ne_eq, not_true_eq_false, false_and, if_false]
    rw [detect_line hdim k1 h1.2.2.1, firstPassData_ok dim hdim rows lines (n + 1) _ h2 (by omega)]
    cases hs : st.2 <;> simp [hs] <;> omega

theorem loadData_ok (ty : DType) (dim : Nat) (hdim : dim ≠ 0) (rows : List DataRow) (lines : List (List Char))
    (h : List.Forall₂ (GoodLine dim) rows lines) (hl : ∀ l ∈ lines, '\n' ∉ l)
    (hty : 2 ≤ rows.length ∨ (rows ≠ [] ∧ ty.isClass = true))
    (cl : Classes) (labels : List Int) (hp : processAll Classes.none (rows.map DataRow.label) = .ok (cl, labels)) :
    loadData ty (fileOf lines) = .ok (some ⟨dataPoints 0 rows labels, dim,
      ((rows.getLast?).map (fun r => r.cells.map Prod.fst)).getD [], cl,
      if cl.labels.length = 2 then .binClassification else .multiClassification⟩) := by
  have hlines : (getlines '\n' (fileOf lines) []).map Prod.fst = lines := getlines_lines _ _ hl
  have hne : rows ≠ [] := by
    rcases hty with h | h
    · rintro rfl; simp at h
    · exact h.1
  have hfp : ∃ n t, firstPassData lines 0 0 (ty, false) = some ((dim : Int), n, t) ∧ t.isClass = true := by
    cases rows with
    | nil => exact absurd rfl hne
    | cons r rows =>
      cases lines with
      | nil => cases h
      | cons l lines =>
        obtain ⟨h1, h2⟩ := List.forall₂_cons.1 h
        obtain ⟨ts, k1, k2, k3⟩ := dataLine_words h1
        have hf : ((getlines ' ' (trim l) []).map Prod.fst).filter (fun x => decide (x ≠ [])) = r.label :: ts := by
          rw [k2, List.filter_eq_self]
          intro t ht
          simpa using k3 t ht
        have hlen : (((r.label :: ts).length : Nat) : Int) - 1 = dim := by
          have := k1.length_eq
          have := h1.2.2.1
          simp only [List.length_cons]
          omega
        simp only [firstPassData, hf, hlen, lt_irrefl, if_false, ne_eq, not_true_eq_false, and_false]
        rw [firstPassData_ok dim hdim rows lines (0 + 1) _ h2 (by omega)]
        refine ⟨_, _, rfl, ?_⟩
        cases rows with
        | nil =>
          rcases hty with h | h
          · simp at h
          · simpa using h.2
        | cons q rows => rfl
  obtain ⟨n, t, h1, h2⟩ := hfp
  have hr := readDataLines_ok dim rows lines 0 Classes.none cl labels
    ((List.range dim).map (fun (i : Nat) => (i : Int) + 1)) h (by simp) hp
  simp only [loadData, hlines, h1]
  rw [if_neg (by omega), h2, Int.toNat_natCast, hr, Res_bind_ok]
  simp only [Res_pure]
  cases hg : rows.getLast? with
  | none => exact absurd (List.getLast?_eq_none_iff.1 hg) hne
  | some r => simp

/-! ### `.txt` files -/

theorem plainText_clean {s : List Char} (h : PlainText s) : s ≠ [] ∧ ' ' ∉ s ∧ ',' ∉ s ∧ ∀ c ∈ s, isSpace c = false :=
  ⟨h.1, fun hc => (h.2 _ hc).1 (.inl rfl), fun hc => (h.2 _ hc).2 rfl, fun c hc => not_blank (h.2 c hc).1⟩

theorem decimals_clean {vs : List ℚ} {ts : List (List Char)} (h : List.Forall₂ (fun v t => Decimal t v) vs ts) :
    ∀ t ∈ ts, t ≠ [] ∧ ' ' ∉ t ∧ ',' ∉ t ∧ isNumber t = true ∧ ∀ c ∈ t, isSpace c = false := by
  intro t ht
  obtain ⟨i, hi, rfl⟩ := List.mem_iff_getElem.1 ht
  have := h.get (i := i) (by rw [h.length_eq]; exact hi) hi
  have hc := decimal_clean this
  exact ⟨hc.1, hc.2.2.1, hc.2.2.2.1, decimal_isNumber this, hc.2.2.2.2⟩

theorem txtLine_words {first id line : List Char} {vs : List ℚ} (h : IsTxtLine first id vs line) :
    ∃ ts, List.Forall₂ (fun v t => Decimal t v) vs ts ∧
      (getlines ' ' (trim line) []).map Prod.fst = first :: id :: ts := by
  obtain ⟨ts, h1, h2, h3, rfl⟩ := h
  refine ⟨ts, h1, line_words ' ' _ (by simp) ?_⟩
  intro t ht
  simp only [List.mem_cons] at ht
  rcases ht with rfl | rfl | ht
  · have := plainText_clean h2; exact ⟨this.1, this.2.1, this.2.2.2⟩
  · have := plainText_clean h3; exact ⟨this.1, this.2.1, this.2.2.2⟩
  · have := decimals_clean h1 t ht; exact ⟨this.1, this.2.1, this.2.2.2.2⟩

theorem readTxtItems_ok : ∀ (vs : List ℚ) (ts : List (List Char)) (px x : List ℚ),
    List.Forall₂ (fun v t => Decimal t v) vs ts → x.length = vs.length →
    readTxtItems ts (px.length + 2) (px ++ x) = .ok (px ++ vs)
  | [], ts, px, x, h, hx => by
    cases h
    have : x = [] := by simpa using hx
    subst this; rfl
  | v :: vs, [], _, _, h, _ => by cases h
  | v :: vs, t :: ts, px, x, h, hx => by
    obtain ⟨h1, h2⟩ := List.forall₂_cons.1 h
    cases x with
    | nil => simp at hx
    | cons x0 x =>
    have ih := readTxtItems_ok vs ts (px ++ [v]) x h2 (by simpa using hx)
    have e1 : (px ++ x0 :: x).set px.length v = px ++ [v] ++ x := by
      rw [List.set_append_right _ _ (le_refl _)]; simp
    simp only [readTxtItems, Nat.le_add_left, if_true, decimal_isNumber h1, decimal_atod h1, Nat.add_sub_cancel,
      vset_ok (px ++ x0 :: x) px.length v (by simp), Res_bind_ok, e1]
    have e3 : (px ++ [v]).length + 2 = px.length + 2 + 1 := by simp
    rw [e3] at ih
    rw [ih]; simp

theorem firstPassTxt_ok (dim : Nat) : ∀ (ls : List (List Char)) (d n : Nat), (n = 0 ∨ d = dim) →
    (∀ l ∈ ls, (getlines ' ' (trim l) []).length = dim + 2) → 
    firstPassTxt ls d n = some (if ls = [] then d else dim, n + ls.length)
  | [], d, n, _, _ => by simp [firstPassTxt]
  | l :: ls, d, n, h, hl => by
    have h1 := hl l (by simp)
    simp only [firstPassTxt, h1, Nat.add_sub_cancel]
    rw [if_neg (by rintro ⟨ha, hb⟩; rcases h with h | h; exact ha h; exact hb h.symm),
      firstPassTxt_ok dim ls dim (n + 1) (.inr rfl) (fun x hx => hl x (by simp [hx]))]
    simp only [reduceCtorEq, if_false, ite_self, List.length_cons]
    congr 2
    omega

/-- The points read from a `.txt` file. -/
def txtPoints (n : Nat) : List (List ℚ) → List LPt
  | [] => []
  | x :: xs => ⟨x, 0, n + 1⟩ :: txtPoints (n + 1) xs

theorem readTxtLines_ok (dim : Nat) : ∀ (xs : List (List ℚ)) (lines : List (List Char)) (n : Nat),
    List.Forall₂ (fun x l => ∃ a b, IsTxtLine a b x l) xs lines → (∀ x ∈ xs, x.length = dim) →
    readTxtLines dim lines n = .ok (txtPoints n xs)
  | [], _, n, h, _ => by cases h; rfl
  | x :: xs, [], _, h, _ => by cases h
  | x :: xs, l :: lines, n, h, hd => by
    obtain ⟨⟨a, b, h1⟩, h2⟩ := List.forall₂_cons.1 h
    obtain ⟨ts, k1, k2⟩ := txtLine_words h1
    have := readTxtItems_ok x ts [] (List.replicate dim 0) k1 (by simp [hd x (by simp)])
    have hi : readTxtItems (a :: b :: ts) 0 (List.replicate dim 0) = .ok x := by
      simpa [readTxtItems] using this
    simp only [readTxtLines, k2, hi, Res_bind_ok,
      readTxtLines_ok dim xs lines (n + 1) h2 (fun y hy => hd y (by simp [hy])), Res_pure, txtPoints]

theorem loadTxt_ok (ty : DType) (dim : Nat) (xs : List (List ℚ)) (lines : List (List Char)) (hne : xs ≠ [])
    (h : List.Forall₂ (fun x l => ∃ a b, IsTxtLine a b x l) xs lines) (hd : ∀ x ∈ xs, x.length = dim)
    (hl : ∀ l ∈ lines, '\n' ∉ l) :
    loadTxt ty (fileOf lines) = .ok (some ⟨txtPoints 0 xs, dim, (List.range dim).map (fun (i : Nat) => (i : Int) + 1),
      Classes.none, ty⟩) := by
  have hlines : (getlines '\n' (fileOf lines) []).map Prod.fst = lines := getlines_lines _ _ hl
  have hw : ∀ l ∈ lines, (getlines ' ' (trim l) []).length = dim + 2 := by
    intro l hlm
    obtain ⟨i, hi, rfl⟩ := List.mem_iff_getElem.1 hlm
    have hi' : i < xs.length := by rw [h.length_eq]; exact hi
    obtain ⟨a, b, h1⟩ := h.get hi' hi
    obtain ⟨ts, k1, k2⟩ := txtLine_words h1
    have := congrArg List.length k2
    rw [List.length_map] at this
    simp only [List.get_eq_getElem] at this k1
    rw [this]
    have := k1.length_eq
    have := hd _ (List.getElem_mem hi')
    simp only [List.length_cons]
    omega
  have hlne : lines ≠ [] := by
    rintro rfl
    cases h
    exact hne rfl
  simp only [loadTxt, hlines, firstPassTxt_ok dim lines 0 0 (.inl rfl) hw, if_neg hlne]
  rw [readTxtLines_ok dim xs lines 0 h hd, Res_bind_ok, Res_pure]

/-! ### `.arff` files -/

theorem getlines_eof (d : Char) : ∀ (ts : List (List Char)) (t : List Char), (∀ u ∈ ts, d ∉ u) → d ∉ t → t ≠ [] →
    getlines d (List.intercalate [d] (ts ++ [t])) [] = ts.map (fun u => (u, false)) ++ [(t, true)]
  | [], t, _, h1, h2 => by
    have : List.intercalate [d] [t] = t := by simp [List.intercalate, List.intersperse]
    simp only [List.nil_append, this, getlines_last d t h1 h2, List.map_nil]
  | u :: ts, t, h, h1, h2 => by
    have ih := getlines_eof d ts t (fun x hx => h x (by simp [hx])) h1 h2
    obtain ⟨w, ws, hw⟩ : ∃ w ws, ts ++ [t] = w :: ws := by
      cases ts with
      | nil => exact ⟨t, [], rfl⟩
      | cons w ws => exact ⟨w, ws ++ [t], rfl⟩
    rw [List.cons_append, hw, intercalate_cons₂, getlines_piece d u _ (h u (by simp)), ← hw, ih]
    rfl

theorem arffRow_items {vs : List ℚ} {cls line : List Char} (h : IsArffRow vs cls line) :
    ∃ ts, List.Forall₂ (fun v t => Decimal t v) vs ts ∧
      getlines ',' (trim line) [] = ts.map (fun u => (u, false)) ++ [(cls, true)] := by
  obtain ⟨ts, h1, h2, rfl⟩ := h
  have hp := plainText_clean h2
  have hd := decimals_clean h1
  refine ⟨ts, h1, ?_⟩
  rw [trim_ends, getlines_eof ',' ts cls (fun t ht => (hd t ht).2.2.1) hp.2.2.1 hp.1]
  · intro c hc
    cases ts with
    | nil =>
      have : List.intercalate [','] ([] ++ [cls]) = cls := by simp [List.intercalate, List.intersperse]
      rw [this] at hc
      exact hp.2.2.2 c (List.mem_of_head? hc)
    | cons t ts =>
      rw [List.cons_append, intercalate_head? _ t _ (hd t (by simp)).1] at hc
      exact (hd t (by simp)).2.2.2.2 c (List.mem_of_head? hc)
  · intro c hc
    obtain ⟨t, ht, e⟩ := intercalate_last? ',' (ts ++ [cls]) (by simp) (by
      intro t ht
      rcases List.mem_append.1 ht with ht | ht
      · exact (hd t ht).1
      · simp at ht; subst ht; exact hp.1)
    rw [e] at hc
    rcases List.mem_append.1 ht with ht | ht
    · exact (hd t ht).2.2.2.2 c (List.mem_of_getLast? hc)
    · simp at ht; subst ht; exact hp.2.2.2 c (List.mem_of_getLast? hc)

theorem readArffItems_ok (cls : Bool) (last : List (List Char × Bool)) : ∀ (vs : List ℚ) (ts : List (List Char))
    (px x : List ℚ) (y : ℚ) (cl : Classes),
    List.Forall₂ (fun v t => Decimal t v) vs ts → x.length = vs.length →
    readArffItems true cls (ts.map (fun u => (u, false)) ++ last) px.length (px ++ x) y cl =
      readArffItems true cls last (px.length + vs.length) (px ++ vs) y cl
  | [], ts, px, x, y, cl, h, hx => by
    cases h
    have : x = [] := by simpa using hx
    subst this; rfl
  | v :: vs, [], _, _, _, _, h, _ => by cases h
  | v :: vs, t :: ts, px, x, y, cl, h, hx => by
    obtain ⟨h1, h2⟩ := List.forall₂_cons.1 h
    cases x with
    | nil => simp at hx
    | cons x0 x =>
    have ih := readArffItems_ok cls last vs ts (px ++ [v]) x y cl h2 (by simpa using hx)
    have e1 : (px ++ x0 :: x).set px.length v = px ++ [v] ++ x := by
      rw [List.set_append_right _ _ (le_refl _)]; simp
    simp only [List.map_cons, List.cons_append, readArffItems, if_true, Bool.not_false, decimal_isNumber h1, decimal_atod h1,
      vset_ok (px ++ x0 :: x) px.length v (by simp), Res_bind_ok, e1]
    have e3 : (px ++ [v]).length = px.length + 1 := by simp
    rw [e3] at ih
    rw [ih]
    simp only [List.append_assoc, List.singleton_append, List.length_cons]
    congr 1
    omega

/-- The points read from labelled rows. -/
def rowPoints : Nat → List (List ℚ) → List ℚ → List LPt
  | n, x :: xs, y :: ys => ⟨x, y, n + 1⟩ :: rowPoints (n + 1) xs ys
  | _, _, _ => []

theorem readArffLines_ok (dim : Nat) : ∀ (rows : List (List ℚ × List Char)) (lines : List (List Char)) (n : Nat)
    (cl cl' : Classes) (labels : List Int),
    List.Forall₂ (fun r l => IsArffRow r.1 r.2 l) rows lines → (∀ r ∈ rows, r.1.length = dim) →
    processAll cl (rows.map Prod.snd) = .ok (cl', labels) →
    readArffLines true true dim lines n cl =
      .ok (rowPoints n (rows.map Prod.fst) (labels.map (fun c : Int => (c : ℚ))), cl')
  | [], _, n, cl, cl', labels, h, _, hp => by
    cases h
    simp only [List.map_nil, processAll, Res_pure, Except.ok.injEq, Prod.mk.injEq] at hp
    obtain ⟨rfl, rfl⟩ := hp
    rfl
  | r :: rows, [], _, _, _, _, h, _, _ => by cases h
  | r :: rows, l :: lines, n, cl, cl', labels, h, hd, hp => by
    obtain ⟨h1, h2⟩ := List.forall₂_cons.1 h
    simp only [List.map_cons, processAll] at hp
    cases hp1 : processClass cl r.2 with
    | error e => rw [hp1] at hp; cases hp
    | ok q =>
      obtain ⟨cl1, c⟩ := q
      rw [hp1, Res_bind_ok] at hp
      simp only at hp
      cases hp2 : processAll cl1 (rows.map Prod.snd) with
      | error e => rw [hp2] at hp; cases hp
      | ok q =>
        obtain ⟨cl2, cs⟩ := q
        rw [hp2, Res_bind_ok] at hp
        simp only [Res_pure, Except.ok.injEq, Prod.mk.injEq] at hp
        obtain ⟨rfl, rfl⟩ := hp
        obtain ⟨ts, k1, k2⟩ := arffRow_items h1
        have hi := readArffItems_ok true [(r.2, true)] r.1 ts [] (List.replicate dim 0) 0 cl k1 (by simp [hd r (by simp)])
        have hi' : readArffItems true true (getlines ',' (trim l) []) 0 (List.replicate dim 0) 0 cl =
            .ok (r.1, (c : ℚ), cl1) := by
          rw [k2]
          simp only [List.nil_append, List.length_nil, Nat.zero_add] at hi
          rw [hi]
          simp [readArffItems, hp1, Res_bind_ok, Res_pure]
        have ih := readArffLines_ok dim rows lines (n + 1) cl1 cl2 cs h2 (fun q hq => hd q (by simp [hq])) hp2
        simp only [readArffLines, hi', Res_bind_ok, ih, Res_pure, List.map_cons, rowPoints]

theorem firstPassArff_ok (m : Nat) : ∀ (ls : List (List Char)) (d n : Nat), (d = 0 ∨ d = m) →
    (∀ l ∈ ls, (getlines ',' (trim l) []).length = m) →
    firstPassArff ls d n = some (if ls = [] then d else m, n + ls.length)
  | [], d, n, _, _ => by simp [firstPassArff]
  | l :: ls, d, n, h, hl => by
    have h1 := hl l (by simp)
    simp only [firstPassArff, h1]
    rw [if_neg (by rintro ⟨ha, hb⟩; rcases h with h | h; exact hb h; exact ha h),
      firstPassArff_ok m ls m (n + 1) (.inr rfl) (fun x hx => hl x (by simp [hx]))]
    simp only [reduceCtorEq, if_false, ite_self, List.length_cons]
    congr 2
    omega

theorem firstPassArff_none (m : Nat) (hm : m ≠ 0) : ∀ (ls : List (List Char)) (n : Nat) (l : List Char), l ∈ ls →
    (getlines ',' (trim l) []).length ≠ m → firstPassArff ls m n = none
  | [], _, l, h, _ => by cases h
  | k :: ls, n, l, h, hl => by
    simp only [firstPassArff]
    by_cases hk : (getlines ',' (trim k) []).length = m
    · rw [if_neg (by rw [hk]; simp), hk]
      rcases List.mem_cons.1 h with rfl | h
      · exact absurd hk hl
      · exact firstPassArff_none m hm ls (n + 1) l h hl
    · rw [if_pos ⟨fun e => hk e.symm, hm⟩]

/-- A line with a visible character is not trimmed away, and trimming adds nothing. -/
theorem trim_visible (s : List Char) (h : ∃ c ∈ s, isSpace c = false) : trim s ≠ [] ∧ ∀ c ∈ trim s, c ∈ s := by
  constructor
  · intro he
    rw [trim, List.reverse_eq_nil_iff, List.dropWhile_eq_nil_iff] at he
    obtain ⟨c, hc, hn⟩ := h
    cases hd : s.dropWhile isSpace with
    | nil =>
      rw [List.dropWhile_eq_nil_iff] at hd
      rw [hd c hc] at hn; cases hn
    | cons a t =>
      have h1 := List.head?_dropWhile_not isSpace s
      rw [hd] at h1 he
      have := he a (by simp)
      simp [this] at h1
  · intro c hc
    rw [trim, List.mem_reverse] at hc
    have := (List.dropWhile_suffix _).subset hc
    rw [List.mem_reverse] at this
    exact (List.dropWhile_suffix _).subset this

theorem header_length (l : List Char) (h1 : ∃ c ∈ l, ¬ IsBlank c) (h2 : ',' ∉ l) :
    (getlines ',' (trim l) []).length = 1 := by
  obtain ⟨c, hc, hn⟩ := h1
  obtain ⟨k1, k2⟩ := trim_visible l ⟨c, hc, not_blank hn⟩
  rw [getlines_last ',' _ (fun h => h2 (k2 _ h)) k1]
  rfl

theorem readArffItems_regression (atEnd : Bool) : ∀ (items : List (List Char × Bool)) (j : Nat) (x : List ℚ) (cl : Classes)
    (r : List ℚ × ℚ × Classes), readArffItems atEnd false items j x 0 cl = .ok r → r.2.1 = 0
  | [], _, _, _, r, h => by cases h; rfl
  | (item, eof) :: rest, j, x, cl, r, h => by
    simp only [readArffItems, Bool.false_eq_true, if_false] at h
    generalize (if atEnd = true then !eof else decide (j ≠ 1)) = cond at h
    cases cond with
    | true =>
      simp only [if_true] at h
      split at h
      · cases hv : vset x j (atod item) with
        | error e => rw [hv] at h; cases h
        | ok x' => rw [hv] at h; exact readArffItems_regression atEnd rest _ _ _ r h
      · exact readArffItems_regression atEnd rest _ _ _ r h
    | false => exact readArffItems_regression atEnd rest _ _ _ r h

theorem readArffLines_regression (atEnd : Bool) (dim : Nat) : ∀ (lines : List (List Char)) (n : Nat) (cl : Classes)
    (r : List LPt × Classes), readArffLines atEnd false dim lines n cl = .ok r → ∀ p ∈ r.1, p.y = 0
  | [], _, _, r, h => by cases h; simp
  | l :: lines, n, cl, r, h => by
    rw [readArffLines] at h
    cases h1 : readArffItems atEnd false (getlines ',' (trim l) []) 0 (List.replicate dim 0) 0 cl with
    | error e => rw [h1] at h; cases h
    | ok q =>
      obtain ⟨x, y, cl1⟩ := q
      rw [h1, Res_bind_ok] at h
      simp only at h
      cases h2 : readArffLines atEnd false dim lines (n + 1) cl1 with
      | error e => rw [h2] at h; cases h
      | ok q2 =>
        rw [h2] at h
        cases h
        intro p hp
        rcases List.mem_cons.1 hp with rfl | hp
        · exact readArffItems_regression atEnd _ _ _ _ _ h1
        · exact readArffLines_regression atEnd dim lines (n + 1) cl1 q2 h2 p hp

theorem readArffItems_bounds (cls : Bool) : ∀ (items : List (List Char × Bool)) (j : Nat) (x : List ℚ) (y : ℚ) (cl : Classes),
    (∀ it ∈ items, isNumber it.1 = true) → 2 ≤ j → j ≤ x.length → x.length < j + items.length →
    readArffItems false cls items j x y cl = .error .outOfBounds
  | [], j, x, _, _, _, _, h1, h2 => by simp at h2; omega
  | (item, eof) :: rest, j, x, y, cl, h, hj, h1, h2 => by
    have hn := h (item, eof) (by simp)
    simp only at hn
    simp only [readArffItems, Bool.false_eq_true, if_false, show j ≠ 1 by omega, ne_eq, not_false_eq_true, decide_true, if_true, hn]
    by_cases hlt : j < x.length
    · rw [vset_ok _ _ _ hlt, Res_bind_ok]
      exact readArffItems_bounds cls rest (j + 1) _ y cl (fun it hit => h it (by simp [hit])) (by omega) (by simp only [List.length_set]; omega)
        (by simp only [List.length_set, List.length_cons] at h2 ⊢; omega)
    · rw [vset, if_neg hlt, Res_bind_error]

end MLTK.Text
