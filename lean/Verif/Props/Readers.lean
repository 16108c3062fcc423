import Verif.Lemmas.Readers
import Verif.Props.Csv
/-!
# C109-C114: the `.data`, `.txt` and `.arff` readers, file types and dataset names
-/
namespace MLTK.Props
open MLTK.Text MLTK.Spec
open MLTK.Data (Res_bind_ok Res_bind_error Res_pure)

/-! ## C109: `.data` files -/

theorem dataPoints_x : ∀ (n : Nat) (rows : List DataRow) (labels : List Int), labels.length = rows.length →
    (dataPoints n rows labels).map LPt.x = rows.map (fun r => r.cells.map Prod.snd) ∧
    (dataPoints n rows labels).map LPt.y = labels.map (fun c : Int => (c : ℚ)) ∧
    (dataPoints n rows labels).map LPt.id = List.range' (n + 1) rows.length
  | _, [], [], _ => ⟨rfl, rfl, rfl⟩
  | _, [], _ :: _, h => by simp at h
  | _, _ :: _, [], h => by simp at h
  | n, r :: rows, c :: labels, h => by
    obtain ⟨h1, h2, h3⟩ := dataPoints_x (n + 1) rows labels (by simpa using h)
    refine ⟨by simp [dataPoints, h1], by simp [dataPoints, h2], ?_⟩
    simp only [dataPoints, List.map_cons, h3, List.length_cons]
    rw [List.range'_succ]

theorem processAll_length : ∀ (names : List (List Char)) (st st' : Classes) (labels : List Int),
    processAll st names = .ok (st', labels) → labels.length = names.length
  | [], _, _, _, h => by cases h; rfl
  | s :: ss, st, st', labels, h => by
    rw [processAll] at h
    cases h1 : processClass st s with
    | error e => rw [h1] at h; cases h
    | ok q =>
      rw [h1, Res_bind_ok] at h
      obtain ⟨st1, c⟩ := q
      simp only at h
      cases h2 : processAll st1 ss with
      | error e => rw [h2] at h; cases h
      | ok q =>
        rw [h2] at h
        cases h
        have := processAll_length ss st1 q.1 q.2 h2
        simp [this]

theorem dataLine_noNewline {dim : Nat} {r : DataRow} {line : List Char} (h : GoodLine dim r line) : '\n' ∉ line := by
  obtain ⟨⟨ts, h1, rfl⟩, h2, h3, h4⟩ := h
  have hc : List.Forall₂ IsCell r.cells ts := h1
  intro hn
  rcases mem_intercalate _ _ _ hn with h | ⟨t, ht, h⟩
  · exact absurd h (by decide)
  · rcases List.mem_cons.1 ht with rfl | ht
    · exact (h2.2 _ h).1 (by unfold IsBlank; decide)
    · obtain ⟨i, hi, rfl⟩ := List.mem_iff_getElem.1 ht
      have := (cell_clean (hc.get (i := i) (by rw [hc.length_eq]; exact hi) hi)).2.2 _ h
      exact absurd this (by decide)

/-- **C109 (partial).**  A `.data` file of rows with `dim ≥ 1` features each, written with single blanks, is loaded row by row:
features, labels (those of `process_class`, see C16 and C74), ids 1, 2, ….  The values are taken by position; the names kept are
those of the last row.  Required: two rows, or a dataset declared for classification. -/
theorem C109_rows_partial (ty : DType) (dim : Nat) (hdim : dim ≠ 0) (rows : List DataRow) (lines : List (List Char))
    (h : List.Forall₂ IsDataLine rows lines) (hw : ∀ r ∈ rows, Word r.label) (hd : ∀ r ∈ rows, r.cells.length = dim)
    (hr : ∀ r ∈ rows, ∀ c ∈ r.cells, -2 ^ 31 < c.1 ∧ c.1 < 2 ^ 31)
    (hty : 2 ≤ rows.length ∨ (rows ≠ [] ∧ ty ≠ .regression))
    (cl : Classes) (labels : List Int) (hp : processAll Classes.none (rows.map DataRow.label) = .ok (cl, labels)) :
    ∃ r, loadData ty (fileOf lines) = .ok (some r) ∧ r.dim = dim ∧
      r.points.map LPt.x = rows.map (fun r => r.cells.map Prod.snd) ∧
      r.points.map LPt.y = labels.map (fun c : Int => (c : ℚ)) ∧
      r.points.map LPt.id = List.range' 1 rows.length ∧
      (∀ last, rows.getLast? = some last → r.fnames = last.cells.map Prod.fst) ∧ r.classes = cl ∧
      r.ty = if cl.labels.length = 2 then .binClassification else .multiClassification := by
  have hg : List.Forall₂ (GoodLine dim) rows lines := by
    rw [List.forall₂_iff_get] at h ⊢
    refine ⟨h.1, fun i h1 h2 => ⟨h.2 i h1 h2, ?_⟩⟩
    have hm : rows.get ⟨i, h1⟩ ∈ rows := List.getElem_mem _
    exact ⟨hw _ hm, hd _ hm, hr _ hm⟩
  have hl : ∀ l ∈ lines, '\n' ∉ l := by
    intro l hlm
    obtain ⟨i, hi, rfl⟩ := List.mem_iff_getElem.1 hlm
    exact dataLine_noNewline (hg.get (i := i) (by rw [hg.length_eq]; exact hi) hi)
  have hlen : labels.length = rows.length := by simpa using processAll_length _ _ _ _ hp
  obtain ⟨h1, h2, h3⟩ := dataPoints_x 0 rows labels hlen
  refine ⟨_, loadData_ok ty dim hdim rows lines hg hl ?_ cl labels hp, rfl, h1, h2, h3, ?_, rfl, rfl⟩
  · rcases hty with h | ⟨h, h'⟩
    · exact .inl h
    · refine .inr ⟨h, ?_⟩
      cases ty <;> simp_all [DType.isClass]
  · intro last hlast
    simp [hlast]

theorem dec_int {n : Int} {s : List Char} (h : IsNumeral n s) : Decimal s n := numeral_decimal h

/-- A numeral of one digit. -/
theorem num1 (k : Nat) (h : k < 10) : IsNumeral k [digitChar k] :=
  ⟨[k], by simp, by simpa using h, by simp, by simp [digitsValue], by simp⟩

/-- Two rows, "1 1:5 2:6" and "2 1:7 2:8". -/
example : ∃ r, loadData .regression "1 1:5 2:6\n2 1:7 2:8\n".toList = .ok (some r) ∧ r.dim = 2 ∧
    r.points.map LPt.x = [[5, 6], [7, 8]] ∧ r.points.map LPt.y = [1, 2] ∧ r.fnames = [1, 2] := by
  have hcell : ∀ a b : Nat, a < 10 → b < 10 → ∃ f v, IsNumeral a f ∧ Decimal v (b : ℚ) ∧
      [digitChar a, ':', digitChar b] = f ++ ':' :: v := by
    intro a b ha hb
    refine ⟨[digitChar a], [digitChar b], num1 a ha, ?_, rfl⟩
    have := dec_int (num1 b hb)
    exact_mod_cast this
  have dg : digitChar 1 = '1' ∧ digitChar 2 = '2' ∧ digitChar 5 = '5' ∧ digitChar 6 = '6' ∧ digitChar 7 = '7' ∧
      digitChar 8 = '8' := by decide
  obtain ⟨r, h1, h2, h3, h4, h5, h6, -, -⟩ := C109_rows_partial .regression 2 (by simp)
    [⟨['1'], [(1, 5), (2, 6)]⟩, ⟨['2'], [(1, 7), (2, 8)]⟩] ["1 1:5 2:6".toList, "2 1:7 2:8".toList]
    (by
      refine .cons ⟨["1:5".toList, "2:6".toList], ?_, by decide⟩ (.cons ⟨["1:7".toList, "2:8".toList], ?_, by decide⟩ .nil)
      · exact .cons (by simpa [dg] using hcell 1 5 (by simp) (by simp)) (.cons (by simpa [dg] using hcell 2 6 (by simp) (by simp)) .nil)
      · exact .cons (by simpa [dg] using hcell 1 7 (by simp) (by simp)) (.cons (by simpa [dg] using hcell 2 8 (by simp) (by simp)) .nil))
    (by
      intro r hr
      simp only [List.mem_cons, List.not_mem_nil, or_false] at hr
      rcases hr with rfl | rfl <;> exact ⟨by simp, by simp [IsBlank]⟩)
    (by simp) (by simp; constructor <;> rintro a b (⟨rfl, -⟩ | ⟨rfl, -⟩) <;> simp) (by simp) ⟨[['1'], ['2']], [1, 2], [1, 1]⟩ [1, 2] (by decide)
  refine ⟨r, ?_, h2, by simpa using h3, by simpa using h4, by simpa using h6 _ rfl⟩
  have : fileOf ["1 1:5 2:6".toList, "2 1:7 2:8".toList] = "1 1:5 2:6\n2 1:7 2:8\n".toList := by decide
  rw [← this]; exact h1

/-- **C109 refuted** for rows that list different features (the usual sparse form of the format): the value 7 of feature 3 is
stored in the column of feature 2, whose name is lost. -/
theorem C109_sparse_refuted : ∃ r, loadData .classification "1 1:5 2:6\n2 1:4 3:7\n".toList = .ok (some r) ∧
    r.points.map LPt.x = [[5, 6], [4, 7]] ∧ r.fnames = [1, 3] := by
  refine ⟨⟨[⟨[5, 6], 1, 1⟩, ⟨[4, 7], 2, 2⟩], 2, [1, 3], ⟨[['1'], ['2']], [1, 2], [1, 1]⟩, .binClassification⟩, ?_, rfl, rfl⟩
  decide +kernel

/-- **C109 refuted** for rows with a double blank, which the first reading accepts: the empty item is taken for the class,
and the label becomes 0. -/
theorem C109_double_blank_refuted : ∃ r, loadData .classification "1 1:5  2:6\n2 1:4 2:7\n".toList = .ok (some r) ∧
    r.points.map LPt.x = [[5, 6], [4, 7]] ∧ r.points.map LPt.y = [0, 2] ∧ r.classes.dist = [1, 1] := by
  refine ⟨⟨[⟨[5, 6], 0, 1⟩, ⟨[4, 7], 2, 2⟩], 2, [1, 2], ⟨[['1'], ['2']], [1, 2], [1, 1]⟩, .binClassification⟩, ?_, rfl, rfl, rfl⟩
  decide +kernel

/-- **C109 refuted** for regression data: the declared type is overruled by the file (the last feature's name has no point),
and the labels 1.5 and 2.5 are loaded as the classes 1 and 2. -/
theorem C109_regression_refuted : ∃ r, loadData .regression "1.5 1:5\n2.5 1:4\n".toList = .ok (some r) ∧
    r.points.map LPt.y = [1, 2] ∧ r.ty = .binClassification := by
  refine ⟨⟨[⟨[5], 1, 1⟩, ⟨[4], 2, 2⟩], 1, [1], ⟨["1.5".toList, "2.5".toList], [1, 2], [1, 1]⟩, .binClassification⟩, ?_, rfl, rfl⟩
  decide +kernel

/-! ## C110: writing and loading `.data` files -/

theorem showInt_numeral (n : Int) : IsNumeral n (showInt n) := by
  obtain ⟨ks, h1, h2, h3, h4, h5⟩ := natChars_spec n.natAbs
  refine ⟨ks, h2, h3, h4, h5, ?_⟩
  by_cases h : n < 0 <;> simp [showInt, h, h1]

/-- The row of a sample. -/
def dataRowOf (fnames : List Int) (p : Int × List Int) : DataRow :=
  ⟨showDouble p.1, List.zipWith (fun f v => (f, ((v : Int) : ℚ))) fnames p.2⟩

theorem writeDataLine_row (fnames : List Int) (p : Int × List Int) (hp : Small p) (hne : p.2 ≠ [])
    (hl : p.2.length = fnames.length) :
    ∃ line, writeDataLine fnames p = line ++ ['\n'] ∧ IsDataLine (dataRowOf fnames p) line := by
  refine ⟨List.intercalate [' '] (showDouble p.1 :: List.zipWith (fun f v => showInt f ++ ':' :: showDouble v) fnames p.2),
    ?_, _, ?_, rfl⟩
  · obtain ⟨y, x⟩ := p
    cases x with
    | nil => exact absurd rfl hne
    | cons a x =>
      cases fnames with
      | nil => simp at hl
      | cons f fnames => simp only [writeDataLine, List.zipWith_cons_cons, intercalate_cons₂]
  · have : ∀ (fn : List Int) (vs : List Int), (∀ v ∈ vs, v.natAbs < 10 ^ 6) →
        List.Forall₂ (fun (cell : Int × ℚ) t => ∃ f v, IsNumeral cell.1 f ∧ Decimal v cell.2 ∧ t = f ++ ':' :: v)
          (List.zipWith (fun f v => (f, ((v : Int) : ℚ))) fn vs)
          (List.zipWith (fun f v => showInt f ++ ':' :: showDouble v) fn vs) := by
      intro fn
      induction fn with
      | nil => intro vs _; simp
      | cons f fn ih =>
        intro vs hvs
        cases vs with
        | nil => simp
        | cons v vs =>
          simp only [List.zipWith_cons_cons]
          exact .cons ⟨showInt f, showDouble v, showInt_numeral f, dec_int (showDouble_numeral v (hvs v (by simp))), rfl⟩
            (ih vs (fun x hx => hvs x (by simp [hx])))
    exact this fnames p.2 hp.2

/-- **C110 (partial).**  Writing a dataset of integer values below a million as a `.data` file and loading the file into a
dataset of any declared type (classification, if there is only one sample) gives the same features, feature names, dimension
and ids 1, 2, …; the labels are the same exactly when no label other than 1 and -1 occurs for the first time after a -1. -/
theorem C110_round_trip_partial (ty : DType) (ps : List (Int × List Int)) (dim : Nat) (h : SmallData ps dim)
    (fnames : List Int) (hf : fnames.length = dim) (hr : ∀ f ∈ fnames, -2 ^ 31 < f ∧ f < 2 ^ 31)
    (hty : 2 ≤ ps.length ∨ ty ≠ .regression) :
    ∃ r, loadData ty (writeData fnames ps) = .ok (some r) ∧ r.dim = dim ∧ r.fnames = fnames ∧
      r.points.map LPt.x = ps.map (fun p => p.2.map (fun k : Int => (k : ℚ))) ∧
      r.points.map LPt.id = List.range' 1 ps.length ∧
      (r.points.map LPt.y = ps.map (fun p => (p.1 : ℚ)) ↔ NoLateNames (ps.map Prod.fst)) ∧
      (r.ty = .binClassification ∨ r.ty = .multiClassification) := by
  obtain ⟨h1, h2, h3⟩ := h
  have hp : ∀ p ∈ ps, Small p ∧ p.2.length = dim := fun p hp => ⟨(h3 p hp).2, (h3 p hp).1⟩
  have hfa : List.Forall₂ IsNumeral (ps.map Prod.fst) (ps.map (fun p => showDouble p.1)) := by
    rw [List.forall₂_map_left_iff, List.forall₂_map_right_iff, List.forall₂_same]
    exact fun p hp' => showDouble_numeral _ (hp p hp').1.1
  have hrange : ∀ k ∈ ps.map Prod.fst, -2 ^ 31 ≤ k ∧ k < 2 ^ 31 := by
    intro k hk
    obtain ⟨p, hp', rfl⟩ := List.mem_map.1 hk
    have := (hp p hp').1.1
    constructor <;> omega
  obtain ⟨cl, labels, e1, e2, e3⟩ := processAll_ints _ _ Classes.none [] hfa hrange (by simp [Classes.none])
  have hline : ∀ p ∈ ps, ∃ line, writeDataLine fnames p = line ++ ['\n'] ∧ IsDataLine (dataRowOf fnames p) line := fun p hp' =>
    writeDataLine_row fnames p (hp p hp').1 (fun e => h2 (by rw [← (hp p hp').2, e]; rfl)) (by rw [(hp p hp').2, hf])
  choose! L hL using hline
  have hfile : writeData fnames ps = fileOf (ps.map L) := by
    rw [writeData, fileOf, List.map_map]
    congr 1
    exact List.map_congr_left (fun p hp' => (hL p hp').1)
  have hz : ∀ p ∈ ps, (dataRowOf fnames p).cells.map Prod.fst = fnames ∧
      (dataRowOf fnames p).cells.map Prod.snd = p.2.map (fun k : Int => (k : ℚ)) ∧ (dataRowOf fnames p).cells.length = dim := by
    intro p hp'
    have hl : p.2.length = fnames.length := by rw [(hp p hp').2, hf]
    refine ⟨?_, ?_, ?_⟩
    · simp only [dataRowOf, List.map_zipWith]
      apply List.ext_getElem (by simp [hl])
      intro i h1 h2
      simp
    · simp only [dataRowOf, List.map_zipWith]
      apply List.ext_getElem (by simp [hl])
      intro i h1 h2
      simp
    · simp [dataRowOf, hl, hf]
  obtain ⟨r, k1, k2, k3, k4, k5, k6, k7, k8⟩ := C109_rows_partial ty dim h2 (ps.map (dataRowOf fnames)) (ps.map L)
    (by
      rw [List.forall₂_map_left_iff, List.forall₂_map_right_iff, List.forall₂_same]
      exact fun p hp' => (hL p hp').2)
    (by
      intro q hq
      obtain ⟨p, hp', rfl⟩ := List.mem_map.1 hq
      have hn := showDouble_numeral _ (hp p hp').1.1
      refine ⟨(numeral_chars hn).1, fun c hc => ⟨fun hb => ?_, ?_⟩⟩
      · have := numeral_noSpace hn c hc
        rw [(isSpace_iff c).2 hb] at this; cases this
      · rintro rfl; exact (numeral_noColon hn).1 hc)
    (by
      intro q hq
      obtain ⟨p, hp', rfl⟩ := List.mem_map.1 hq
      exact (hz p hp').2.2)
    (by
      intro q hq c hc
      obtain ⟨p, hp', rfl⟩ := List.mem_map.1 hq
      apply hr
      rw [← (hz p hp').1]
      exact List.mem_map_of_mem hc)
    (by
      rcases hty with h | h
      · exact .inl (by simpa using h)
      · exact .inr ⟨by simpa using h1, h⟩)
    cl labels (by rw [List.map_map]; exact e1)
  refine ⟨r, by rw [hfile]; exact k1, k2, ?_, ?_, by simpa using k5, ?_, ?_⟩
  · cases hg : ps.getLast? with
    | none => exact absurd (List.getLast?_eq_none_iff.1 hg) h1
    | some p =>
      rw [k6 (dataRowOf fnames p) (by simp [hg]), (hz p (List.mem_of_getLast? hg)).1]
  · rw [k3, List.map_map]
    exact List.map_congr_left (fun p hp' => (hz p hp').2.1)
  · rw [k4]
    have hinj : labels.map (fun c : Int => (c : ℚ)) = ps.map (fun p => (p.1 : ℚ)) ↔ labels = ps.map Prod.fst := by
      have : ps.map (fun p => (p.1 : ℚ)) = (ps.map Prod.fst).map (fun c : Int => (c : ℚ)) := by
        rw [List.map_map]; rfl
      rw [this]
      exact ⟨fun h => List.map_injective_iff.2 Int.cast_injective h, fun h => by rw [h]⟩
    rw [hinj, e3, lateFree_iff]
    simp only [List.nil_append, List.length_nil, Nat.zero_le, true_imp_iff, NoLateNames]
  · rw [k8]
    split
    · exact .inl rfl
    · exact .inr rfl

example : SmallData [(2, [10, -3]), (1, [0, 999999])] 2 ∧ writeData [1, 7] [(2, [10, -3]), (1, [0, 999999])] =
    "2 1:10 7:-3\n1 1:0 7:999999\n".toList := by
  refine ⟨⟨by simp, by simp, by decide⟩, by decide +kernel⟩

/-- **C110 refuted**: regression labels -1, 2, … come back changed, and the type of the dataset with them. -/
theorem C110_regression_refuted : ∃ r, loadData .regression (writeData [1] [(-1, [3]), (2, [4])]) = .ok (some r) ∧
    r.points.map LPt.y = [-1, 1] ∧ r.ty = .binClassification := by
  refine ⟨⟨[⟨[3], -1, 1⟩, ⟨[4], 1, 2⟩], 1, [1], ⟨["-1".toList, "2".toList], [-1, 1], [1, 1]⟩, .binClassification⟩, ?_, rfl, rfl⟩
  decide +kernel

/-! ## C111: `.txt` files -/

theorem txtPoints_spec : ∀ (n : Nat) (xs : List (List ℚ)), (txtPoints n xs).map LPt.x = xs ∧
    (txtPoints n xs).map LPt.id = List.range' (n + 1) xs.length ∧ ∀ p ∈ txtPoints n xs, p.y = 0
  | _, [] => ⟨rfl, rfl, by simp [txtPoints]⟩
  | n, x :: xs => by
    obtain ⟨h1, h2, h3⟩ := txtPoints_spec (n + 1) xs
    refine ⟨by simp [txtPoints, h1], ?_, ?_⟩
    · simp only [txtPoints, List.map_cons, h2, List.length_cons]; rw [List.range'_succ]
    · intro p hp
      rcases List.mem_cons.1 hp with rfl | hp
      · rfl
      · exact h3 p hp

theorem txtLine_noNewline {a b l : List Char} {vs : List ℚ} (h : IsTxtLine a b vs l) : '\n' ∉ l := by
  obtain ⟨ts, h1, h2, h3, rfl⟩ := h
  intro hn
  have hall : ∀ t ∈ a :: b :: ts, ∀ c ∈ t, isSpace c = false := by
    intro t ht
    simp only [List.mem_cons] at ht
    rcases ht with rfl | rfl | ht
    · exact (plainText_clean h2).2.2.2
    · exact (plainText_clean h3).2.2.2
    · exact (decimals_clean h1 t ht).2.2.2.2
  rcases mem_intercalate _ _ _ hn with h | ⟨t, ht, h⟩
  · exact absurd h (by decide)
  · exact absurd (hall t ht _ h) (by decide)

/-- **C111 (partial).**  A `.txt` file whose lines hold a word, an id and `dim` decimals gives exactly these features, label 0 and
feature names 1 … dim.  The points are numbered by line, whatever ids the file states. -/
theorem C111_features_partial (ty : DType) (dim : Nat) (xs : List (List ℚ)) (lines : List (List Char)) (hne : xs ≠ [])
    (h : List.Forall₂ (fun x l => ∃ first id, IsTxtLine first id x l) xs lines) (hd : ∀ x ∈ xs, x.length = dim) :
    ∃ r, loadTxt ty (fileOf lines) = .ok (some r) ∧ r.dim = dim ∧ r.points.map LPt.x = xs ∧
      (∀ p ∈ r.points, p.y = 0) ∧ r.points.map LPt.id = List.range' 1 xs.length ∧
      r.fnames = (List.range' 1 dim).map (fun i : Nat => (i : Int)) := by
  have hl : ∀ l ∈ lines, '\n' ∉ l := by
    intro l hlm
    obtain ⟨i, hi, rfl⟩ := List.mem_iff_getElem.1 hlm
    obtain ⟨a, b, h1⟩ := h.get (i := i) (by rw [h.length_eq]; exact hi) hi
    exact txtLine_noNewline h1
  obtain ⟨h1, h2, h3⟩ := txtPoints_spec 0 xs
  refine ⟨_, loadTxt_ok ty dim xs lines hne h hd hl, rfl, h1, h3, h2, ?_⟩
  simp [List.range'_eq_map_range, Function.comp_def, Int.add_comm]

/-- **C111 refuted**: the ids of the file are lost. -/
theorem C111_ids_refuted : ∃ r, loadTxt .classification "a 7 1.5 2\nb 3 4 -5\n".toList = .ok (some r) ∧
    r.points.map LPt.x = [[3/2, 2], [4, -5]] ∧ r.points.map LPt.id = [1, 2] := by
  refine ⟨⟨[⟨[3/2, 2], 0, 1⟩, ⟨[4, -5], 0, 2⟩], 2, [1, 2], Classes.none, .classification⟩, ?_, rfl, rfl⟩
  decide +kernel

/-- A line of the format. -/
example : IsTxtLine ['a'] ['7'] [4] "a 7 4".toList := by
  refine ⟨[['4']], .cons ?_ .nil, ⟨by simp, by simp [IsBlank]⟩, ⟨by simp, by simp [IsBlank]⟩, by decide⟩
  have := dec_int (num1 4 (by simp))
  exact_mod_cast this

/-! ## C112: `.arff` files -/

/-- **C112 refuted** for every file in the actual format: if the first line is a declaration (a visible text without comma, such
as "@relation iris") and some later line is a row of at least two columns, the file is rejected. -/
theorem C112_header_refuted (atEnd : Bool) (ty : DType) (header : List Char) (lines : List (List Char))
    (hn : ∀ l ∈ header :: lines, '\n' ∉ l) (h1 : ∃ c ∈ header, ¬ IsBlank c) (h2 : ',' ∉ header)
    (vs : List ℚ) (cls row : List Char) (hrow : row ∈ lines) (hr : IsArffRow vs cls row) (hv : vs ≠ []) :
    loadArff atEnd ty (fileOf (header :: lines)) = .ok none := by
  have hlines : (getlines '\n' (fileOf (header :: lines)) []).map Prod.fst = header :: lines := getlines_lines _ _ hn
  have hlen : (getlines ',' (trim row) []).length ≠ 1 := by
    obtain ⟨ts, k1, k2⟩ := arffRow_items hr
    rw [k2]
    have := k1.length_eq
    have : 0 < vs.length := List.length_pos_of_ne_nil hv
    simp only [List.length_append, List.length_map, List.length_singleton]
    omega
  simp only [loadArff, hlines, firstPassArff, header_length header h1 h2, ne_eq, not_true_eq_false, and_false, if_false]
  rw [firstPassArff_none 1 (by simp) lines _ row hrow hlen]
  rfl

example : IsArffRow [5, 3] "setosa".toList "5,3,setosa".toList := by
  refine ⟨[['5'], ['3']], .cons ?_ (.cons ?_ .nil), ⟨by simp, by simp [IsBlank]⟩, by decide⟩
  · have := dec_int (num1 5 (by simp)); exact_mod_cast this
  · have := dec_int (num1 3 (by simp)); exact_mod_cast this

theorem rowPoints_spec : ∀ (n : Nat) (xs : List (List ℚ)) (ys : List ℚ), ys.length = xs.length →
    (rowPoints n xs ys).map LPt.x = xs ∧ (rowPoints n xs ys).map LPt.y = ys ∧
    (rowPoints n xs ys).map LPt.id = List.range' (n + 1) xs.length
  | _, [], [], _ => ⟨rfl, rfl, rfl⟩
  | _, [], _ :: _, h => by simp at h
  | _, _ :: _, [], h => by simp at h
  | n, x :: xs, y :: ys, h => by
    obtain ⟨h1, h2, h3⟩ := rowPoints_spec (n + 1) xs ys (by simpa using h)
    refine ⟨by simp [rowPoints, h1], by simp [rowPoints, h2], ?_⟩
    simp only [rowPoints, List.map_cons, h3, List.length_cons]; rw [List.range'_succ]

theorem arffRow_noNewline {vs : List ℚ} {cls l : List Char} (h : IsArffRow vs cls l) : '\n' ∉ l := by
  obtain ⟨ts, h1, h2, rfl⟩ := h
  intro hn
  rcases mem_intercalate _ _ _ hn with h | ⟨t, ht, h⟩
  · exact absurd h (by decide)
  · rcases List.mem_append.1 ht with ht | ht
    · exact absurd ((decimals_clean h1 t ht).2.2.2.2 _ h) (by decide)
    · simp at ht; subst ht
      exact absurd ((plainText_clean h2).2.2.2 _ h) (by decide)

/-- **C112 (partial).**  A file of data rows only (no declarations), class last, is loaded into a classification dataset row by
row: features, labels (those of `process_class`, see C16 and C74), ids 1, 2, …. -/
theorem C112_rows_partial (ty : DType) (hty : ty ≠ .regression) (dim : Nat) (rows : List (List ℚ × List Char))
    (lines : List (List Char)) (hne : rows ≠ []) (h : List.Forall₂ (fun r l => IsArffRow r.1 r.2 l) rows lines)
    (hd : ∀ r ∈ rows, r.1.length = dim) (cl : Classes) (labels : List Int)
    (hp : processAll Classes.none (rows.map Prod.snd) = .ok (cl, labels)) :
    ∃ r, loadArff true ty (fileOf lines) = .ok (some r) ∧ r.dim = dim ∧ r.points.map LPt.x = rows.map Prod.fst ∧
      r.points.map LPt.y = labels.map (fun c : Int => (c : ℚ)) ∧ r.points.map LPt.id = List.range' 1 rows.length ∧
      r.classes = cl := by
  have hl : ∀ l ∈ lines, '\n' ∉ l := by
    intro l hlm
    obtain ⟨i, hi, rfl⟩ := List.mem_iff_getElem.1 hlm
    exact arffRow_noNewline (h.get (i := i) (by rw [h.length_eq]; exact hi) hi)
  have hlines : (getlines '\n' (fileOf lines) []).map Prod.fst = lines := getlines_lines _ _ hl
  have hw : ∀ l ∈ lines, (getlines ',' (trim l) []).length = dim + 1 := by
    intro l hlm
    obtain ⟨i, hi, rfl⟩ := List.mem_iff_getElem.1 hlm
    have hi' : i < rows.length := by rw [h.length_eq]; exact hi
    obtain ⟨ts, k1, k2⟩ := arffRow_items (h.get hi' hi)
    simp only [List.get_eq_getElem] at k1 k2
    rw [k2]
    have := k1.length_eq
    have := hd _ (List.getElem_mem hi')
    simp only [List.length_append, List.length_map, List.length_singleton]
    omega
  have hlne : lines ≠ [] := by
    rintro rfl
    cases h
    exact hne rfl
  have hcls : ty.isClass = true := by cases ty <;> simp_all [DType.isClass]
  have hlen : (labels.map (fun c : Int => (c : ℚ))).length = (rows.map Prod.fst).length := by
    simpa using processAll_length _ _ _ _ hp
  obtain ⟨h1, h2, h3⟩ := rowPoints_spec 0 (rows.map Prod.fst) _ hlen
  have hload : loadArff true ty (fileOf lines) = .ok (some ⟨rowPoints 0 (rows.map Prod.fst)
      (labels.map (fun c : Int => (c : ℚ))), dim, (List.range dim).map (fun (i : Nat) => (i : Int) + 1), cl, ty⟩) := by
    simp only [loadArff, hlines, firstPassArff_ok (dim + 1) lines 0 0 (.inl rfl) hw, if_neg hlne, hcls]
    rw [readArffLines_ok dim rows lines 0 Classes.none cl labels h hd hp, Res_bind_ok, Res_pure]
  exact ⟨_, hload, rfl, h1, h2, by simpa using h3, rfl⟩

/-- **C112 refuted** for regression: whatever the file says, every label is 0. -/
theorem C112_regression_refuted (atEnd : Bool) (file : List Char) (r : DLoaded)
    (h : loadArff atEnd .regression file = .ok (some r)) : ∀ p ∈ r.points, p.y = 0 := by
  simp only [loadArff] at h
  generalize (getlines '\n' file []).map Prod.fst = ls at h
  cases hf : firstPassArff ls 0 0 with
  | none => rw [hf] at h; cases h
  | some q =>
    obtain ⟨d, m⟩ := q
    rw [hf] at h
    cases d with
    | zero => cases h
    | succ d =>
      simp only [DType.isClass] at h
      cases h1 : readArffLines atEnd false d ls 0 Classes.none with
      | error e => rw [h1] at h; cases h
      | ok q2 =>
        rw [h1] at h
        cases h
        exact readArffLines_regression atEnd d ls 0 _ _ h1

example : loadArff true .regression "1,2,5\n3,4,6\n".toList =
    .ok (some ⟨[⟨[1, 2], 0, 1⟩, ⟨[3, 4], 0, 2⟩], 2, [1, 2], Classes.none, .regression⟩) := by decide +kernel

/-- **C112 refuted** for `load(file, false)` (class first): no file of numeric rows with at least three columns is loaded; the
second column is taken for the class and the last is written past the end of the point. -/
theorem C112_class_first_refuted (ty : DType) (d : Nat) (hd : 2 ≤ d) (rows : List (List ℚ)) (lines : List (List Char))
    (hne : rows ≠ []) (h : List.Forall₂ (fun x l => ∃ ts, List.Forall₂ (fun v t => Decimal t v) x ts ∧
      l = List.intercalate [','] ts) rows lines) (hl : ∀ x ∈ rows, x.length = d + 1) (r : Option DLoaded) :
    loadArff false ty (fileOf lines) ≠ .ok r := by
  have key : ∀ i (hi : i < rows.length) (hi' : i < lines.length), ∃ ts, List.Forall₂ (fun v t => Decimal t v) rows[i] ts ∧
      '\n' ∉ lines[i] ∧ (getlines ',' (trim lines[i]) []).map Prod.fst = ts ∧ ts.length = d + 1 := by
    intro i hi hi'
    obtain ⟨ts, h1, h2⟩ := h.get hi hi'
    simp only [List.get_eq_getElem] at h1 h2
    have hc := decimals_clean h1
    have hlen : ts.length = d + 1 := by rw [← h1.length_eq]; exact hl _ (List.getElem_mem hi)
    refine ⟨ts, h1, ?_, ?_, hlen⟩
    · rw [h2]
      intro hn
      rcases mem_intercalate _ _ _ hn with h | ⟨t, ht, h⟩
      · exact absurd h (by decide)
      · exact absurd ((hc t ht).2.2.2.2 _ h) (by decide)
    · rw [h2]
      exact line_words ',' ts (by rintro rfl; simp at hlen) (fun t ht => ⟨(hc t ht).1, (hc t ht).2.2.1, (hc t ht).2.2.2.2⟩)
  have hnl : ∀ l ∈ lines, '\n' ∉ l := by
    intro l hlm
    obtain ⟨i, hi, rfl⟩ := List.mem_iff_getElem.1 hlm
    obtain ⟨ts, -, h2, -, -⟩ := key i (by rw [h.length_eq]; exact hi) hi
    exact h2
  have hlines : (getlines '\n' (fileOf lines) []).map Prod.fst = lines := getlines_lines _ _ hnl
  have hw : ∀ l ∈ lines, (getlines ',' (trim l) []).length = d + 1 := by
    intro l hlm
    obtain ⟨i, hi, rfl⟩ := List.mem_iff_getElem.1 hlm
    obtain ⟨ts, -, -, h3, h4⟩ := key i (by rw [h.length_eq]; exact hi) hi
    have := congrArg List.length h3
    rw [List.length_map] at this
    omega
  cases lines with
  | nil => cases h; exact absurd rfl hne
  | cons l lines =>
    obtain ⟨x, rows, rfl⟩ : ∃ x rows', rows = x :: rows' := by
      cases rows with
      | nil => exact absurd rfl hne
      | cons x rows => exact ⟨x, rows, rfl⟩
    obtain ⟨ts, h1, -, h3, h4⟩ := key 0 (by simp) (by simp)
    simp only [List.getElem_cons_zero] at h1 h3
    simp only [loadArff, hlines, firstPassArff_ok (d + 1) (l :: lines) 0 0 (.inl rfl) hw, reduceCtorEq, if_false]
    have hbad : ∀ cl q, readArffItems false ty.isClass (getlines ',' (trim l) []) 0 (List.replicate d 0) 0 cl ≠ .ok q := by
      intro cl q
      have hnum : ∀ it ∈ getlines ',' (trim l) [], isNumber it.1 = true := by
        intro it hit
        refine (decimals_clean h1 it.1 ?_).2.2.2.1
        rw [← h3]; exact List.mem_map_of_mem hit
      have hln := hw l (by simp)
      generalize getlines ',' (trim l) [] = items at hnum hln
      match items, hln, hnum with
      | [], hln, _ => simp at hln
      | [_], hln, _ => simp at hln; omega
      | (a, ea) :: (b, eb) :: items, hln, hnum =>
        have ha := hnum (a, ea) (by simp)
        simp only at ha
        have hrest : ∀ x y cl, x.length = d → readArffItems false ty.isClass items 2 x y cl = .error .outOfBounds := by
          intro x y cl hx
          exact readArffItems_bounds _ items 2 x y cl (fun it hit => hnum it (by simp [hit])) (le_refl _) (by omega)
            (by simp only [List.length_cons] at hln; omega)
        simp only [readArffItems, Bool.false_eq_true, if_false, ne_eq, zero_ne_one, not_false_eq_true, decide_true, if_true, ha,
          vset_ok (List.replicate d (0 : ℚ)) 0 (atod a) (by simp; omega), Res_bind_ok, Nat.zero_add, not_true_eq_false,
          decide_false]
        split
        · cases hpc : processClass cl b with
          | error e => rw [Res_bind_error]; simp
          | ok q' => rw [Res_bind_ok, hrest _ _ _ (by simp)]; simp
        · rw [hrest _ _ _ (by simp)]; simp
    intro hc
    rw [readArffLines] at hc
    cases hi : readArffItems false ty.isClass (getlines ',' (trim l) []) 0 (List.replicate d 0) 0 Classes.none with
    | error e => rw [hi] at hc; cases hc
    | ok q => exact hbad _ _ hi

/-- The hypotheses of the last theorem are met. -/
example : List.Forall₂ (fun v t => Decimal t v) [(1 : ℚ), 2, 3] ["1".toList, "2".toList, "3".toList] := by
  refine .cons ?_ (.cons ?_ (.cons ?_ .nil))
  · have := dec_int (num1 1 (by simp)); exact_mod_cast this
  · have := dec_int (num1 2 (by simp)); exact_mod_cast this
  · have := dec_int (num1 3 (by simp)); exact_mod_cast this

/-! ## C113: the type of a file -/

/-- Matching backwards from a position whose text up to the last dot is `e` (reversed). -/
theorem matchBack_dot : ∀ (n e s : List Char), '.' ∉ n → '.' ∉ e →
    matchBack n (e ++ '.' :: s) = .ok (decide (n <+: e))
  | [], _, _, _, _ => by simp [matchBack]
  | _ :: _, [], _, _, _ => by simp [matchBack]
  | t :: ts, c :: cs, s, h1, h2 => by
    have hc : c ≠ '.' := fun h => h2 (by simp [h])
    simp only [List.cons_append, matchBack, if_neg hc]
    by_cases htc : t = c
    · rw [if_pos htc, matchBack_dot ts cs s (fun h => h1 (by simp [h])) (fun h => h2 (by simp [h]))]
      simp [htc, List.cons_prefix_cons]
    · rw [if_neg htc]
      simp [htc, List.cons_prefix_cons]

theorem matchTypes_none (e s : List Char) (he : '.' ∉ e) : ∀ (l : List (List Char × FType)),
    (∀ p ∈ l, '.' ∉ p.1 ∧ ¬ p.1.reverse <+: e) → matchTypes (e ++ '.' :: s) l = .ok none
  | [], _ => rfl
  | (t, r) :: l, h => by
    have h1 := h (t, r) (by simp)
    simp only at h1
    rw [matchTypes, matchBack_dot _ _ _ (by simpa using h1.1) he, Res_bind_ok, decide_eq_false h1.2]
    exact matchTypes_none e s he l (fun p hp => h p (by simp [hp]))

theorem matchTypes_some (e s : List Char) (he : '.' ∉ e) (t : List Char) (r : FType) : ∀ (l : List (List Char × FType)),
    (∀ p ∈ l, '.' ∉ p.1 ∧ (p.1.reverse <+: e → p = (t, r))) → (t, r) ∈ l → t.reverse <+: e →
    matchTypes (e ++ '.' :: s) l = .ok (some r)
  | [], _, h, _ => by simp at h
  | (t', r') :: l, h, hm, hp => by
    have h1 := h (t', r') (by simp)
    simp only at h1
    rw [matchTypes, matchBack_dot _ _ _ (by simpa using h1.1) he, Res_bind_ok]
    by_cases hq : t'.reverse <+: e
    · rw [decide_eq_true hq]
      have := h1.2 hq
      cases this
      rfl
    · rw [decide_eq_false hq]
      refine matchTypes_some e s he t r l (fun p hp => h p (by simp [hp])) ?_ hp
      rcases List.mem_cons.1 hm with hm | hm
      · cases hm; exact absurd hp hq
      · exact hm

theorem fileTypes_noDot : ∀ p ∈ fileTypes, '.' ∉ p.1 := by decide

theorem fileTypes_ne : ∀ p ∈ fileTypes, p.1 ≠ [] := by decide

/-- No type name ends another. -/
theorem fileTypes_suffix : ∀ p ∈ fileTypes, ∀ q ∈ fileTypes, p.1.length ≤ q.1.length → p.1.reverse <+: q.1.reverse → p = q := by
  decide

theorem identifyBack_skip : ∀ (b e s : List Char), '.' ∉ b → '.' ∉ e →
    (∀ p ∈ fileTypes, ∀ a' b' : List Char, b ++ e = a' ++ p.1.reverse ++ b' → b.length ≤ a'.length) →
    identifyBack (b ++ e ++ '.' :: s) = identifyBack (e ++ '.' :: s)
  | [], _, _, _, _, _ => rfl
  | c :: b, e, s, h1, h2, h3 => by
    have hc : c ≠ '.' := fun h => h1 (by simp [h])
    have hm : matchTypes (c :: (b ++ e) ++ '.' :: s) fileTypes = .ok none := by
      refine matchTypes_none _ _ (by simp at h1 ⊢; exact ⟨h1.1, h1.2, h2⟩) _ (fun p hp => ⟨fileTypes_noDot p hp, ?_⟩)
      rintro ⟨t, ht⟩
      have := h3 p hp [] t (by simpa using ht.symm)
      simp at this
    simp only [List.cons_append] at hm ⊢
    rw [identifyBack, if_neg hc, hm, Res_bind_ok]
    refine identifyBack_skip b e s (fun h => h1 (by simp [h])) h2 ?_
    intro p hp a' b' he
    have := h3 p hp (c :: a') b' (by simp [he])
    simpa using this

/-- **C113 (partial).**  If the last type name occurring after the last dot is `name`, the file is of that type. -/
theorem C113_type_partial (stem a name b : List Char) (t : FType) (ht : (name, t) ∈ fileTypes) (hd : '.' ∉ a ++ name ++ b)
    (hlast : ∀ p ∈ fileTypes, ∀ a' b', a ++ name ++ b = a' ++ p.1 ++ b' → b.length ≤ b'.length) :
    identifyFileType (stem ++ '.' :: (a ++ name ++ b)) = .ok t := by
  have hn := fileTypes_ne _ ht
  simp only at hn
  have e1 : (stem ++ '.' :: (a ++ name ++ b)).reverse = b.reverse ++ (name.reverse ++ a.reverse) ++ '.' :: stem.reverse := by
    simp
  rw [identifyFileType, e1, identifyBack_skip]
  · have hd' : '.' ∉ name.reverse ++ a.reverse := by
      simp at hd ⊢; exact ⟨hd.2.1, hd.1⟩
    have hm : matchTypes (name.reverse ++ a.reverse ++ '.' :: stem.reverse) fileTypes = .ok (some t) := by
      refine matchTypes_some _ _ hd' name t _ (fun p hp => ⟨fileTypes_noDot p hp, fun hpre => ?_⟩) ht (List.prefix_append _ _)
      rcases le_total p.1.length name.length with h | h
      · exact fileTypes_suffix p hp _ ht h (List.prefix_of_prefix_length_le hpre (List.prefix_append _ _) (by simpa using h))
      · exact (fileTypes_suffix _ ht p hp h
          (List.prefix_of_prefix_length_le (List.prefix_append _ _) hpre (by simpa using h))).symm
    cases hr : name.reverse ++ a.reverse with
    | nil => simp at hr; exact absurd hr.1 hn
    | cons c cs =>
      rw [hr] at hm hd'
      simp only [List.cons_append] at hm ⊢
      rw [identifyBack, if_neg (fun h => hd' (by simp [h])), hm, Res_bind_ok]
      rfl
  · simp at hd ⊢; exact hd.2.2
  · simp at hd ⊢; exact ⟨hd.2.1, hd.1⟩
  · intro p hp a' b' he
    have := hlast p hp b'.reverse a'.reverse (by
      have := congrArg List.reverse he
      simpa using this)
    simpa using this

/-- **C113 (partial).**  If no type name occurs after the last dot, the type is invalid (and the file is not loaded). -/
theorem C113_unknown_partial (stem ext : List Char) (hd : '.' ∉ ext) (h : ∀ p ∈ fileTypes, ¬ p.1 <:+: ext) :
    identifyFileType (stem ++ '.' :: ext) = .ok .invalid := by
  have e1 : (stem ++ '.' :: ext).reverse = ext.reverse ++ [] ++ '.' :: stem.reverse := by simp
  rw [identifyFileType, e1, identifyBack_skip _ _ _ (by simpa using hd) (by simp)]
  · rfl
  · intro p hp a' b' he
    refine absurd ⟨b'.reverse, a'.reverse, ?_⟩ (h p hp)
    have := congrArg List.reverse he
    simpa using this.symm

/-- **C113 (partial).**  The five extensions themselves, after any stem. -/
theorem C113_extensions_partial (stem : List Char) : identifyFileType (stem ++ ".data".toList) = .ok .data ∧
    identifyFileType (stem ++ ".csv".toList) = .ok .csv ∧ identifyFileType (stem ++ ".arff".toList) = .ok .arff ∧
    identifyFileType (stem ++ ".txt".toList) = .ok .txt ∧ identifyFileType (stem ++ ".plt".toList) = .ok .invalid := by
  refine ⟨?_, ?_, ?_, ?_, ?_⟩
  · exact C113_type_partial stem [] "data".toList [] .data (by decide) (by decide) (by simp)
  · exact C113_type_partial stem [] "csv".toList [] .csv (by decide) (by decide) (by simp)
  · exact C113_type_partial stem [] "arff".toList [] .arff (by decide) (by decide) (by simp)
  · exact C113_type_partial stem [] "txt".toList [] .txt (by decide) (by decide) (by simp)
  · exact C113_type_partial stem [] "plt".toList [] .invalid (by decide) (by decide) (by simp)

/-- An extension without a type name. -/
example : ∀ p ∈ fileTypes, ¬ p.1 <:+: "json".toList := by decide

/-- **C113 refuted**: other extensions that contain a type name are taken for that type, and so is a path without extension
when a directory name does, the dot of ".." being the last. -/
theorem C113_contains_refuted : identifyFileType "iris.csvx".toList = .ok .csv ∧
    identifyFileType "iris.database".toList = .ok .data ∧ identifyFileType "../data/iris".toList = .ok .data := by decide +kernel

theorem matchBack_true : ∀ (n e : List Char), matchBack n e = .ok true → n <+: e
  | [], _, _ => by simp
  | _ :: _, [], h => by simp [matchBack] at h
  | t :: ts, c :: cs, h => by
    rw [matchBack] at h
    split at h
    · cases h
    · split at h
      · rename_i htc
        rw [htc, List.cons_prefix_cons]
        exact ⟨rfl, matchBack_true ts cs h⟩
      · cases h

theorem matchTypes_true (e : List Char) (r : FType) : ∀ (l : List (List Char × FType)), matchTypes e l = .ok (some r) →
    ∃ p ∈ l, p.1.reverse <+: e
  | [], h => by cases h
  | (t, r') :: l, h => by
    rw [matchTypes] at h
    cases hm : matchBack t.reverse e with
    | error x => rw [hm] at h; cases h
    | ok b =>
      rw [hm, Res_bind_ok] at h
      cases b with
      | true => exact ⟨(t, r'), by simp, matchBack_true _ _ hm⟩
      | false =>
        obtain ⟨p, hp, h2⟩ := matchTypes_true e r l (by simpa using h)
        exact ⟨p, by simp [hp], h2⟩

theorem matchBack_error : ∀ (n e : List Char) (x : Fault), matchBack n e = .error x → x = .outOfBounds
  | [], _, _, h => by cases h
  | _ :: _, [], _, h => by cases h; rfl
  | t :: ts, c :: cs, x, h => by
    rw [matchBack] at h
    split at h
    · cases h
    · split at h
      · exact matchBack_error ts cs x h
      · cases h

theorem matchTypes_error (e : List Char) (x : Fault) : ∀ (l : List (List Char × FType)), matchTypes e l = .error x →
    x = .outOfBounds
  | [], h => by cases h
  | (t, r') :: l, h => by
    rw [matchTypes] at h
    cases hm : matchBack t.reverse e with
    | error y => rw [hm] at h; cases h; exact matchBack_error _ _ _ hm
    | ok b =>
      rw [hm, Res_bind_ok] at h
      cases b with
      | true => cases h
      | false => exact matchTypes_error e x l (by simpa using h)

theorem identifyBack_noDot : ∀ (e : List Char), '.' ∉ e → (∀ p ∈ fileTypes, ¬ p.1.reverse <:+: e) →
    identifyBack e = .error .outOfBounds
  | [], _, _ => rfl
  | c :: cs, h1, h2 => by
    rw [identifyBack, if_neg (fun h => h1 (by simp [h]))]
    cases hm : matchTypes (c :: cs) fileTypes with
    | error e => rw [Res_bind_error, matchTypes_error _ _ _ hm]
    | ok q =>
      rw [Res_bind_ok]
      cases q with
      | none => exact identifyBack_noDot cs (fun h => h1 (by simp [h])) (fun p hp hi => h2 p hp (hi.trans (List.infix_cons (List.infix_refl _))))
      | some r =>
        obtain ⟨p, hp, h⟩ := matchTypes_true _ _ _ hm
        exact absurd h.isInfix (h2 p hp)

/-- **C113 refuted** for names without a dot: unless the name contains a type name, the search runs past the start of the
string. -/
theorem C113_no_dot_refuted (file : List Char) (hd : '.' ∉ file) (h : ∀ p ∈ fileTypes, ¬ p.1 <:+: file) :
    identifyFileType file = .error .outOfBounds := by
  refine identifyBack_noDot _ (by simpa using hd) (fun p hp => ?_)
  rintro ⟨a, b, hab⟩
  refine h p hp ⟨b.reverse, a.reverse, ?_⟩
  have := congrArg List.reverse hab
  simpa using this

example : '.' ∉ "iris".toList ∧ ∀ p ∈ fileTypes, ¬ p.1 <:+: "iris".toList := by decide

/-! ## C114: the name of a dataset -/

theorem pieces_snoc {d : Char} {a : List Char} {ts : List (List Char)} (h : Pieces d a ts) (base : List Char) (hne : base ≠ [])
    (hb : d ∉ base) : Pieces d (a ++ d :: base) (ts ++ [base]) := by
  induction h with
  | nil s hs =>
    have := Pieces.cons (d := d) (s ++ [d]) base [] [] (by
      intro c hc
      rcases List.mem_append.1 hc with h | h
      · exact hs c h
      · simpa using h) hne hb (Or.inl rfl) (Pieces.nil _ (by simp))
    simpa using this
  | cons lead tok rest ts h1 h2 h3 h4 h5 ih =>
    have := Pieces.cons (d := d) lead tok (rest ++ d :: base) (ts ++ [base]) h1 h2 h3 (by
      right
      rcases h4 with rfl | h4
      · rfl
      · cases rest with
        | nil => rfl
        | cons c r => simpa using h4) ih
    simpa using this

theorem pieces_single {d : Char} (base : List Char) (hne : base ≠ []) (hb : d ∉ base) : Pieces d base [base] := by
  have := Pieces.cons (d := d) [] base [] [] (by simp) hne hb (Or.inl rfl) (Pieces.nil _ (by simp))
  simpa using this

/-- The last component of a path. -/
theorem tokenize_last (dir base : List Char) (hdir : dir = [] ∨ ∃ d, dir = d ++ ['/']) (hne : base ≠ []) (hb : '/' ∉ base) :
    (tokenize (dir ++ base) '/').getLast? = some base := by
  rcases hdir with rfl | ⟨d, rfl⟩
  · rw [List.nil_append, pieces_inj (tokenize_pieces base '/') _ (pieces_single base hne hb)]; rfl
  · have := pieces_snoc (tokenize_pieces d '/') base hne hb
    rw [List.append_assoc, List.singleton_append, pieces_inj (tokenize_pieces (d ++ '/' :: base) '/') _ this]; simp

/-- **C114 (partial).**  The name of a dataset loaded from `dir/stem.ext` is `stem`, for a stem without dots. -/
theorem C114_name_partial (dir stem ext : List Char) (hdir : dir = [] ∨ ∃ d, dir = d ++ ['/']) (hne : stem ≠ [])
    (h1 : '/' ∉ stem) (h2 : '.' ∉ stem) (h3 : '/' ∉ ext) : datasetName (dir ++ (stem ++ '.' :: ext)) = .ok stem := by
  rw [datasetName, tokenize_last dir (stem ++ '.' :: ext) hdir (by simp) (by simp; exact ⟨h1, h3⟩)]
  have := Pieces.cons (d := '.') [] stem ('.' :: ext) _ (by simp) hne h2 (Or.inr rfl) (tokenize_pieces _ _)
  simp only [pieces_inj (tokenize_pieces (stem ++ '.' :: ext) '.') _ this]
  rfl

example : datasetName "data/sets/iris.csv".toList = .ok "iris".toList := by decide +kernel

/-- **C114 (partial).**  Without extension, the name is the last component. -/
theorem C114_no_extension_partial (dir stem : List Char) (hdir : dir = [] ∨ ∃ d, dir = d ++ ['/']) (hne : stem ≠ [])
    (h1 : '/' ∉ stem) (h2 : '.' ∉ stem) : datasetName (dir ++ stem) = .ok stem := by
  rw [datasetName, tokenize_last dir stem hdir hne h1]
  simp only [pieces_inj (tokenize_pieces stem '.') _ (pieces_single stem hne h2)]
  rfl

/-- **C114 refuted** for stems with dots. -/
theorem C114_dots_refuted : datasetName "data/my.iris.csv".toList = .ok "my".toList := by decide +kernel

/-- **C114 refuted**: an empty path, or one of slashes only, has no last component to read. -/
theorem C114_empty_refuted (path : List Char) (h : ∀ c ∈ path, c = '/') : datasetName path = .error .outOfBounds := by
  rw [datasetName, pieces_inj (tokenize_pieces path '/') _ (Pieces.nil path h)]; rfl

example : ∀ c ∈ "//".toList, c = '/' := by decide

end MLTK.Props
