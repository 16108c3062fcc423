import Verif.Lemmas.Crash
import Verif.Lemmas.Readers
/-!
# Lemmas about `.data` files that lost their end
-/
namespace MLTK.Text
open MLTK.Data (Res_bind_ok Res_bind_error Res_pure)
open MLTK.Spec

/-- A text of lines with its last characters missing: some whole lines, and the beginning of another. -/
theorem cut_lines : ∀ (ls : List (List Char)) (s : List Char), s <+: fileOf ls →
    s = fileOf ls ∨ ∃ pre l post t, ls = pre ++ l :: post ∧ t <+: l ∧ s = fileOf pre ++ t
  | [], s, hs => Or.inl (by simpa [fileOf] using hs)
  | l :: ls, s, hs => by
    have e : fileOf (l :: ls) = (l ++ ['\n']) ++ fileOf ls := by simp [fileOf]
    rw [e] at hs
    rcases prefix_append_iff hs with h1 | ⟨s', rfl, h1⟩
    · rcases prefix_append_iff h1 with h2 | ⟨r, rfl, h2⟩
      · exact Or.inr ⟨[], l, ls, s, rfl, h2, by simp [fileOf]⟩
      · rcases r with - | ⟨c, r⟩
        · exact Or.inr ⟨[], l, ls, l, rfl, List.prefix_refl _, by simp [fileOf]⟩
        · rw [List.cons_prefix_cons] at h2
          obtain ⟨rfl, h3⟩ := h2
          rw [List.prefix_nil] at h3
          subst h3
          cases ls with
          | nil => left; rw [e]; simp [fileOf]
          | cons q ls => exact Or.inr ⟨[l], q, ls, [], rfl, List.nil_prefix, by simp [fileOf]⟩
    · rcases cut_lines ls s' h1 with rfl | ⟨pre, q, post, t, rfl, h2, rfl⟩
      · left; rw [e]
      · exact Or.inr ⟨l :: pre, q, post, t, rfl, h2, by simp [fileOf]⟩

theorem trim_prefix {s : List Char} (h : ∀ c, s.head? = some c → isSpace c = false) : trim s <+: s := by
  have h1 : s.dropWhile isSpace = s := by
    cases s with
    | nil => rfl
    | cons c s => rw [List.dropWhile_cons_of_neg (by simp [h c rfl])]
  rw [trim, h1]
  have := List.reverse_prefix.2 (List.dropWhile_suffix isSpace (l := s.reverse))
  rwa [List.reverse_reverse] at this

/-- Reading some of the features of a line. -/
theorem cells_more (cls : Bool) : ∀ (cells : List (Int × ℚ)) (ts : List (List Char)) (px x' : List ℚ) (pf f' : List Int)
    (x : List ℚ) (fn : List Int) (y : ℚ) (cl : Classes),
    List.Forall₂ IsCell cells ts → (∀ c ∈ cells, InRange c.1) → px.length = pf.length → x.length = cells.length →
    fn.length = cells.length →
    ts.foldlM (readDataItem cls) ⟨px ++ x ++ x', y, cl, pf ++ fn ++ f', px.length⟩ =
      .ok ⟨px ++ cells.map Prod.snd ++ x', y, cl, pf ++ cells.map Prod.fst ++ f', px.length + cells.length⟩
  | [], ts, px, x', pf, f', x, fn, y, cl, h, _, _, hx, hf => by
    cases h
    have h1 : x = [] := by simpa using hx
    have h2 : fn = [] := by simpa using hf
    subst h1 h2; simp
  | cell :: cells, [], _, _, _, _, _, _, _, _, h, _, _, _, _ => by cases h
  | cell :: cells, t :: ts, px, x', pf, f', x, fn, y, cl, h, hr, hp, hx, hf => by
    obtain ⟨h1, h2⟩ := List.forall₂_cons.1 h
    cases x with
    | nil => simp at hx
    | cons x0 x =>
    cases fn with
    | nil => simp at hf
    | cons f0 fn =>
    rw [List.foldlM_cons, readDataItem_cell cls cell t h1 (hr cell (by simp)) _ (by simp) (by simp [hp]), Res_bind_ok]
    have ih := cells_more cls cells ts (px ++ [cell.2]) x' (pf ++ [cell.1]) f' x fn y cl h2
      (fun c hc => hr c (by simp [hc])) (by simp [hp]) (by simpa using hx) (by simpa using hf)
    have e1 : (px ++ x0 :: x ++ x').set px.length cell.2 = px ++ [cell.2] ++ x ++ x' := by
      rw [List.append_assoc, List.set_append_right _ _ (le_refl _)]; simp
    have e2 : (pf ++ f0 :: fn ++ f').set px.length cell.1 = pf ++ [cell.1] ++ fn ++ f' := by
      rw [hp, List.append_assoc, List.set_append_right _ _ (le_refl _)]; simp
    simp only [e1, e2]
    have e3 : (px ++ [cell.2]).length = px.length + 1 := by simp
    rw [e3] at ih
    rw [ih]
    simp only [List.map_cons, List.append_assoc, List.length_cons, List.cons_append]
    congr 2
    omega

/-- A number without sign with its last characters missing is a number. -/
theorem cut_name {f : Int} (hf : 0 ≤ f) {s u : List Char} (hs : IsNumeral f s) (hu : u <+: s) (hne : u ≠ []) :
    ∃ g : Int, IsNumeral g u ∧ 0 ≤ g ∧ g ≤ f := by
  obtain ⟨ks, h1, h2, h3, h4, rfl⟩ := hs
  rw [if_neg (by omega), List.nil_append] at hu
  obtain ⟨w, hw⟩ := hu
  obtain ⟨as, bs, rfl, rfl, -⟩ := List.append_eq_map_iff.1 hw
  have ha : as ≠ [] := by rintro rfl; exact hne rfl
  have hv := cut_digits as bs (fun k hk => h2 k (List.mem_append_right _ hk))
  refine ⟨digitsValue as, ⟨as, ha, fun k hk => h2 k (List.mem_append_left _ hk), fun h0 => ?_, by simp, ?_⟩, by omega, ?_⟩
  · cases as with
    | nil => exact absurd rfl ha
    | cons a as =>
      have := h3 (by simpa using h0)
      simp only [List.cons_append, List.cons.injEq, List.append_eq_nil_iff] at this
      rw [this.1, this.2.1]
  · rw [if_neg (by omega), List.nil_append]
  · have := Nat.div_le_self (digitsValue (as ++ bs)) (10 ^ bs.length)
    omega

/-- Reading a last item with characters missing: the other features, and all names, stay; the label stays unless the feature is lost. -/
theorem readDataItem_cut (f v : Int) (sf sv u : List Char) (hf0 : 0 ≤ f) (hf1 : f < 2 ^ 31) (hsf : IsNumeral f sf) (hsv : IsNumeral v sv)
    (hu : u <+: sf ++ ':' :: sv) (hne : u ≠ []) (px : List ℚ) (pf : List Int) (y : ℚ) (cl : Classes) (hp : px.length = pf.length) :
    ∃ v' y' cl' j, readDataItem true ⟨px ++ [0], y, cl, pf ++ [f], px.length⟩ u = .ok ⟨px ++ [v'], y', cl', pf ++ [f], j⟩ ∧
      (v' ≠ 0 → y' = y ∧ cl' = cl ∧ ∃ i : Nat, v' = ((v.tdiv (10 ^ i) : Int) : ℚ)) := by
  have hspace : ∀ c ∈ sf ++ ':' :: sv, isSpace c = false := by
    intro c hc
    rcases List.mem_append.1 hc with h | h
    · exact numeral_noSpace hsf c h
    · rcases List.mem_cons.1 h with rfl | h
      · decide
      · exact numeral_noSpace hsv c h
  have htrim : trim u = u := trim_noSpace u (fun c hc => hspace c (hu.subset hc))
  have hname : ':' ∉ sf := (numeral_noColon hsf).1
  rcases prefix_append_iff hu with h | ⟨r, rfl, hr⟩
  · have hcol : ':' ∉ u := fun hc => hname (h.subset hc)
    obtain ⟨g, hg, hg0, hg1⟩ := cut_name hf0 hsf h hne
    obtain ⟨cl2, c2, hpc⟩ : ∃ cl2 c2, processClass cl u = .ok (cl2, c2) := ⟨_, _, processClass_numeral cl u g hg (by omega) (by omega)⟩
    refine ⟨0, c2, cl2, px.length, ?_, fun hc => absurd rfl hc⟩
    rw [readDataItem, htrim]
    simp only [hcol, not_false_eq_true, if_true, hpc, Res_bind_ok, Res_pure]
  · rcases r with - | ⟨c, r⟩
    · rw [List.append_nil] at hne htrim ⊢
      obtain ⟨g, hg, hg0, hg1⟩ := cut_name hf0 hsf (List.prefix_refl _) hne
      obtain ⟨cl2, c2, hpc⟩ : ∃ cl2 c2, processClass cl sf = .ok (cl2, c2) := ⟨_, _, processClass_numeral cl sf g hg (by omega) (by omega)⟩
      refine ⟨0, c2, cl2, px.length, ?_, fun hc => absurd rfl hc⟩
      rw [readDataItem, htrim]
      simp only [hname, not_false_eq_true, if_true, hpc, Res_bind_ok, Res_pure]
    · rw [List.cons_prefix_cons] at hr
      obtain ⟨rfl, hr⟩ := hr
      have hst : stoin sf = .ok f := stoin_numeral f (by omega) hf1 sf hsf
      have hset : vset (pf ++ [f]) px.length f = .ok (pf ++ [f]) := by
        rw [vset_ok _ _ _ (by simp [hp]), hp, List.set_append_right _ _ (le_refl _)]
        simp
      have hcr := filter_noCR (numeral_noSpace hsf)
      by_cases hr0 : r = []
      · subst hr0
        refine ⟨0, y, cl, px.length, ?_, fun hc => absurd rfl hc⟩
        rw [readDataItem, htrim, getlines_piece ':' sf [] hname]
        simp only [List.mem_append, List.mem_cons, true_or, or_true, not_true_eq_false, if_false, getlines, List.map_cons, List.map_nil,
          readPieces, hcr, if_true, hst, Res_bind_ok, hset, Res_pure]
      · obtain ⟨hn, i, hi⟩ := cut_numeral hsv hr hr0
        have hcr' : r.filter (fun c => decide (c ≠ '\r')) = r := filter_noCR (fun c hc => numeral_noSpace hsv c (hr.subset hc))
        refine ⟨atod r, y, cl, px.length + 1, ?_, fun _ => ⟨rfl, rfl, i, hi⟩⟩
        rw [readDataItem, htrim, getlines_piece ':' sf r hname,
          getlines_last ':' r (fun hc => (numeral_noColon hsv).1 (hr.subset hc)) hr0]
        have hset2 : vset (px ++ [(0 : ℚ)]) px.length (atod r) = .ok (px ++ [atod r]) := by
          rw [vset_ok _ _ _ (by simp), List.set_append_right _ _ (le_refl _)]
          simp
        simp only [List.mem_append, List.mem_cons, true_or, or_true, not_true_eq_false, if_false, List.map_cons, List.map_nil,
          readPieces, hcr, hcr', if_true, hst, Res_bind_ok, hset, hset2, Res_pure, hn, Bool.true_eq_false]

theorem readDataLines_append (dim : Nat) (l : List Char) (s : RowSt) : ∀ (ls : List (List Char)) (n : Nat) (cl cl1 : Classes)
    (fn fn1 : List Int) (pts : List LPt), readDataLines true dim ls n cl fn = .ok (pts, cl1, fn1) →
    ((getlines ' ' (trim l) []).map Prod.fst).foldlM (readDataItem true) ⟨List.replicate dim 0, 0, cl1, fn1, 0⟩ = .ok s →
    readDataLines true dim (ls ++ [l]) n cl fn = .ok (pts ++ [⟨s.x, s.y, n + ls.length + 1⟩], s.cl, s.fnames)
  | [], n, cl, cl1, fn, fn1, pts, h, hl => by
    simp only [readDataLines, Res_pure, Except.ok.injEq, Prod.mk.injEq] at h
    obtain ⟨rfl, rfl, rfl⟩ := h
    simp only [List.nil_append, readDataLines, hl, Res_bind_ok, Res_pure, List.length_nil, Nat.add_zero]
  | a :: ls, n, cl, cl1, fn, fn1, pts, h, hl => by
    simp only [readDataLines, List.cons_append] at h ⊢
    cases ha : ((getlines ' ' (trim a) []).map Prod.fst).foldlM (readDataItem true) ⟨List.replicate dim 0, 0, cl, fn, 0⟩ with
    | error e => rw [ha] at h; cases h
    | ok q =>
      rw [ha, Res_bind_ok] at h
      rw [Res_bind_ok]
      cases hb : readDataLines true dim ls (n + 1) q.cl q.fnames with
      | error e => rw [hb] at h; cases h
      | ok w =>
        obtain ⟨p', cl', fn'⟩ := w
        rw [hb] at h
        simp only [Res_bind_ok, Res_pure, Except.ok.injEq, Prod.mk.injEq] at h
        obtain ⟨rfl, rfl, rfl⟩ := h
        have ih := readDataLines_append dim l s ls (n + 1) q.cl cl' q.fnames fn' p' hb hl
        rw [ih, show n + 1 + ls.length + 1 = n + (a :: ls).length + 1 by simp only [List.length_cons]; omega]
        simp only [Res_bind_ok, Res_pure, List.cons_append]

/-- The first reading passes over whole lines. -/
theorem firstPassData_skip (dim : Nat) (hdim : dim ≠ 0) (more : List (List Char)) : ∀ (rows : List DataRow) (lines : List (List Char)) (n : Nat)
    (st : DType × Bool), List.Forall₂ (GoodLine dim) rows lines → n ≠ 0 →
    firstPassData (lines ++ more) dim n st =
      firstPassData more dim (n + rows.length) (if rows = [] ∨ st.2 = true then st else (.classification, true))
  | [], _, n, st, h, _ => by cases h; simp
  | r :: rows, [], _, _, h, _ => by cases h
  | r :: rows, l :: lines, n, st, h, hn => by
    obtain ⟨h1, h2⟩ := List.forall₂_cons.1 h
    obtain ⟨ts, k1, k2, k3⟩ := dataLine_words h1
    have hf : ((getlines ' ' (trim l) []).map Prod.fst).filter (fun x => decide (x ≠ [])) = r.label :: ts := by
      rw [k2, List.filter_eq_self]
      intro t ht
      simpa using k3 t ht
    have hlen : (((r.label :: ts).length : Nat) : Int) - 1 = dim := by
      have := k1.length_eq
      have := h1.2.2.1
      simp only [List.length_cons]
      omega
    simp only [List.cons_append, firstPassData, hf, hlen, Nat.pos_of_ne_zero hn, if_true, ne_eq, not_true_eq_false, false_and, if_false]
    rw [detect_line hdim k1 h1.2.2.1, firstPassData_skip dim hdim more rows lines (n + 1) _ h2 (by omega), List.length_cons,
      Nat.add_assoc, Nat.add_comm 1]
    cases hs : st.2 <;> simp [hs]

theorem processAll_snoc (s : List Char) (cl' : Classes) (c : Int) : ∀ (ss : List (List Char)) (st cl : Classes) (labels : List Int),
    processAll st ss = .ok (cl, labels) → processClass cl s = .ok (cl', c) → processAll st (ss ++ [s]) = .ok (cl', labels ++ [c])
  | [], st, cl, labels, h, hc => by
    simp only [processAll, Res_pure, Except.ok.injEq, Prod.mk.injEq] at h
    obtain ⟨rfl, rfl⟩ := h
    simp only [List.nil_append, processAll, hc, Res_bind_ok, Res_pure]
  | a :: ss, st, cl, labels, h, hc => by
    simp only [List.cons_append, processAll] at h ⊢
    cases ha : processClass st a with
    | error e => rw [ha] at h; cases h
    | ok q =>
      rw [ha, Res_bind_ok] at h
      rw [Res_bind_ok]
      cases hb : processAll q.1 ss with
      | error e => rw [hb] at h; cases h
      | ok w =>
        rw [hb] at h
        simp only [Res_bind_ok, Res_pure, Except.ok.injEq, Prod.mk.injEq] at h
        obtain ⟨rfl, rfl⟩ := h
        rw [processAll_snoc s cl' c ss q.1 w.1 w.2 hb hc]
        simp only [Res_bind_ok, Res_pure, List.cons_append]

end MLTK.Text
