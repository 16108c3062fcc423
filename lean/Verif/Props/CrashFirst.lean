import Verif.Model.Crash
import Verif.Lemmas.CrashFirst
import Verif.Props.Csv
/-!
# C249: a program that stops while it writes the first line of a file
-/
namespace MLTK.Props
open MLTK.Text MLTK.Spec
open MLTK.Data (Res_bind_ok Res_bind_error Res_pure)

private theorem tdiv_range (v : Int) (j : Nat) (h : v.natAbs < 10 ^ 6) : -2 ^ 31 ≤ v.tdiv (10 ^ j) ∧ v.tdiv (10 ^ j) < 2 ^ 31 := by
  have h1 : (v.tdiv (10 ^ j)).natAbs ≤ v.natAbs := by
    rw [Int.natAbs_tdiv]
    exact Nat.div_le_self _ _
  norm_num at h ⊢
  omega

private theorem first_line (cls : Bool) (p : Int × List Int) (h : Small p) (t : List Char) (ht : t <+: lineBody p) (hne : t ≠ [])
    (hsign : cls = true → t ≠ ['-']) :
    ∃ (us : List Int) (v : Int) (j : Nat) (q : LPt) (cl : Classes), us ++ [v] <+: p.1 :: p.2 ∧
      loadCsv false cls t = .ok (some ⟨[q], us.length, List.range' 1 us.length, cl⟩) ∧ q.id = 1 ∧
      q.y :: q.x = (us ++ [v.tdiv (10 ^ j)]).map (fun k : Int => (k : ℚ)) := by
  obtain ⟨a, u, c, h1, h2, h3, h4, hc⟩ := cut_pieces ',' (fields p) t
    (fun s hs => ⟨(fields_chars p h s hs).1, fun hc => by
      rcases (fields_chars p h s hs).2 _ hc with h' | h'
      · exact absurd h' (by decide)
      · exact absurd h' (by decide)⟩) ht hne
  have hL : a ++ [u] = ((p.1 :: p.2).take (a.length + 1)).map showDouble := by
    have := List.prefix_iff_eq_take.1 h1
    rw [this, ← List.map_cons (f := showDouble) |> fun (e : (p.1 :: p.2).map showDouble = fields p) => e, List.map_take]
    simp
  have hpre := List.take_prefix (a.length + 1) (p.1 :: p.2)
  generalize (p.1 :: p.2).take (a.length + 1) = L at hL hpre
  rcases List.eq_nil_or_concat L with rfl | ⟨us, v, rfl⟩
  · simp at hL
  rw [List.concat_eq_append] at hL hpre
  rw [List.map_append, List.map_singleton] at hL
  obtain ⟨ha, hu⟩ := List.append_inj' hL rfl
  obtain rfl : u = showDouble v := by simpa using hu
  have small : ∀ k ∈ us ++ [v], k.natAbs < 10 ^ 6 := by
    intro k hk
    rcases List.mem_cons.1 (hpre.subset hk) with rfl | h'
    · exact h.1
    · exact h.2 k h'
  have hv := small v (by simp)
  obtain ⟨j, hn, hj, hlab⟩ : ∃ j : Nat, isNumber c = true ∧ atod c = ((v.tdiv (10 ^ j) : Int) : ℚ) ∧
      (us = [] → cls = true → IsNumeral (v.tdiv (10 ^ j)) c) := by
    rcases cut_shape (showDouble_numeral v hv) h3 h2 with ⟨hm, -⟩ | ⟨j, hs⟩
    · obtain ⟨hn, j, hj⟩ := cut_numeral (showDouble_numeral v hv) h3 h2
      refine ⟨j, hn, hj, fun hus hcls => ?_⟩
      exfalso
      rcases hc with e | e
      · obtain ⟨ks, k1, k2, -, -, k5⟩ := showDouble_numeral v hv
        rw [← e, hm] at k5
        by_cases h0 : v < 0
        · rw [if_pos h0] at k5
          exact k1 (by simpa using k5)
        · rw [if_neg h0, List.nil_append] at k5
          cases ks with
          | nil => exact k1 rfl
          | cons k ks =>
            rw [List.map_cons, List.cons.injEq] at k5
            have hd := isDigit_digitChar (k2 k (by simp))
            rw [← k5.1] at hd
            exact absurd hd (by decide)
      · rw [ha, hus, hm] at e
        exact hsign hcls (by rw [e]; simp [List.intercalate])
    · exact ⟨j, numeral_isNumber hs, atod_numeral hs, fun _ _ => hs⟩
  have hchars : ∀ x ∈ t, x = ',' ∨ x = '-' ∨ isDigit x = true := fun x hx => lineBody_chars p h x (ht.subset hx)
  have hsp : trim t = t := trim_noSpace t (fun x hx => lineBody_noSpace p h x (ht.subset hx))
  have hend : '\n' ∉ t := fun hc => by
    rcases hchars _ hc with h' | h' | h' <;> exact absurd h' (by decide)
  have hsemi : ';' ∉ t := fun hc => by
    rcases hchars _ hc with h' | h' | h' <;> exact absurd h' (by decide)
  have hreads : List.Forall₂ (fun (k : Int) s => isNumber s = true ∧ atod s = (k : ℚ)) (us ++ [v.tdiv (10 ^ j)])
      ((getlines ',' t []).map Prod.fst) := by
    rw [h4, ha]
    refine List.rel_append ?_ (List.Forall₂.cons ⟨hn, hj⟩ List.Forall₂.nil)
    rw [List.forall₂_map_right_iff, List.forall₂_same]
    intro k hk
    have := showDouble_numeral k (small k (by simp [hk]))
    exact ⟨numeral_isNumber this, atod_numeral this⟩
  have hlen : (getlines ',' t []).length = us.length + 1 := by
    have := congrArg List.length h4
    rw [ha] at this
    simpa using this
  have hload : ∀ (q : LPt) (cl : Classes), q.id = 1 →
      readItems false cls (getlines ',' t []) 0 (List.replicate us.length 0) 0 Classes.none = .ok (q.x, q.y, cl) →
      loadCsv false cls t = .ok (some ⟨[q], us.length, List.range' 1 us.length, cl⟩) := by
    intro q cl hq hi
    have hr : (List.range us.length).map (· + 1) = List.range' 1 us.length := by
      rw [List.range'_eq_map_range]
      exact List.map_congr_left (fun i _ => Nat.add_comm i 1)
    obtain ⟨x, y, i⟩ := q
    simp only at hq hi
    subst hq
    simp only [loadCsv, getlines_last '\n' t hend hne, List.map_cons, List.map_nil, fileDelim, hsp, guessDelim_noSemicolon t hsemi,
      firstPass, hlen, ne_eq, not_true_eq_false, and_false, if_false]
    simp [readLines, hsp, hi, Res_bind_ok, Res_pure, hr]
  -- the label
  have hlabel : ∀ (k : Int) (s : List Char), atod s = (k : ℚ) → (cls = true → IsNumeral k s ∧ -2 ^ 31 ≤ k ∧ k < 2 ^ 31) →
      ∃ cl, ∀ (e : Bool) (items : List (List Char × Bool)) (x : List ℚ), readItems false cls ((s, e) :: items) 0 x 0 Classes.none =
        readItems false cls items 1 x (k : ℚ) cl := by
    intro k s hs hk
    cases cls with
    | false => exact ⟨Classes.none, fun e items x => by simp [readItems, hs]⟩
    | true =>
      obtain ⟨k1, k2, k3⟩ := hk rfl
      have := processClass_numeral Classes.none s k k1 k2 k3
      have hc : (if s ∈ Classes.none.names then k else if k = -1 then -1 else if ['-', '1'] ∈ Classes.none.names then 1 else k) = k := by
        simp only [Classes.none, List.not_mem_nil, if_false]
        split
        · rename_i h; exact h.symm
        · rfl
      simp only [hc] at this
      exact ⟨_, fun e items x => by simp [readItems, this, Res_bind_ok]; rfl⟩
  cases hg : getlines ',' t [] with
  | nil => rw [hg] at hlen; simp at hlen
  | cons it items =>
    obtain ⟨s, e⟩ := it
    rw [hg] at hreads hload h4
    cases us with
    | nil =>
      simp only [List.nil_append, List.map_cons] at hreads
      obtain ⟨h5, h6⟩ := List.forall₂_cons.1 hreads
      have hi : items = [] := by
        cases items with
        | nil => rfl
        | cons _ _ => simp at h6
      subst hi
      rw [ha] at h4
      obtain rfl : s = c := by simpa using h4
      obtain ⟨cl, hcl⟩ := hlabel _ s h5.2 (fun hcls => ⟨hlab rfl hcls, tdiv_range v j hv⟩)
      let q : LPt := ⟨[], ((v.tdiv (10 ^ j) : Int) : ℚ), 1⟩
      refine ⟨[], v, j, q, cl, hpre, hload q cl rfl ?_, rfl, by simp [q]⟩
      rw [hcl]
      simp [readItems, Res_pure, q]
    | cons k us =>
      simp only [List.cons_append, List.map_cons] at hreads
      obtain ⟨h5, h6⟩ := List.forall₂_cons.1 hreads
      rw [ha] at h4
      have hs : s = showDouble k := by
        simp only [List.map_cons, List.cons_append, List.cons.injEq] at h4
        exact h4.1
      have hk := small k (by simp)
      obtain ⟨cl, hcl⟩ := hlabel k s h5.2 (fun _ => ⟨by rw [hs]; exact showDouble_numeral k hk, by
        have := tdiv_range k 0 hk
        simpa using this⟩)
      have hr := readItems_reads cls _ items [] (List.replicate (k :: us).length 0) (k : ℚ) cl h6 (by simp)
      let q : LPt := ⟨(us ++ [v.tdiv (10 ^ j)]).map (fun k : Int => (k : ℚ)), (k : ℚ), 1⟩
      refine ⟨k :: us, v, j, q, cl, hpre, hload q cl rfl ?_, rfl, ?_⟩
      · rw [hcl]
        simpa [q] using hr
      · simp [q]

/-- **C249 (partial)** A crash before the first line is complete: unless only the sign of a class has reached the file, what is left is loaded as one
sample, whose label and features are the first numbers of the first sample that was written, but for digits missing at the end of the last
of them. -/
theorem C249_first_line_partial (classification : Bool) (y : Int) (x : List Int) (ps : List (Int × List Int)) (dim : Nat)
    (h : SmallData ((y, x) :: ps) dim) (old : Option (List Char)) (k : Nat) (file : List Char)
    (hf : fileAfterCrash old (writeCsv ((y, x) :: ps)) (.after k) = some file) (hk : '\n' ∉ file) (hne : file ≠ [])
    (hsign : classification = true → file ≠ ['-']) :
    ∃ (us : List Int) (v : Int) (j : Nat) (r : Loaded) (q : LPt), us ++ [v] <+: y :: x ∧
      loadCsv false classification file = .ok (some r) ∧
      r.points = [q] ∧ r.dim = us.length ∧ q.id = 1 ∧ q.y :: q.x = (us ++ [v.tdiv (10 ^ j)]).map (fun k : Int => (k : ℚ)) := by
  obtain rfl : (writeCsv ((y, x) :: ps)).take k = file := by simpa [fileAfterCrash] using hf
  obtain ⟨h1, h2, h3⟩ := h
  have hx : x ≠ [] := fun h0 => h2 (by have := (h3 (y, x) (by simp)).1; rw [h0] at this; simpa using this.symm)
  have e : writeCsv ((y, x) :: ps) = lineBody (y, x) ++ '\n' :: writeCsv ps := by
    rw [writeCsv, List.map_cons, List.flatten_cons, writeLine_eq (y, x) hx]
    simp [writeCsv]
  have hp := List.take_prefix k (writeCsv ((y, x) :: ps))
  generalize (writeCsv ((y, x) :: ps)).take k = t at hk hne hp hsign
  rw [e] at hp
  have ht : t <+: lineBody (y, x) := by
    rcases prefix_append_iff hp with h | ⟨s', rfl, h⟩
    · exact h
    · cases s' with
      | nil => simp
      | cons c s' =>
        rw [List.cons_prefix_cons] at h
        exact absurd (by simp [h.1]) hk
  obtain ⟨us, v, j, q, cl, h4, h5, h6, h7⟩ := first_line classification (y, x) (h3 (y, x) (by simp)).2 t ht hne hsign
  exact ⟨us, v, j, _, q, h4, h5, rfl, rfl, h6, h7⟩

/-- **C249 (refuted)** For every classification dataset whose first label is negative, there is a moment at which a crash leaves a file that ends the
program that loads it: only the sign of the label has reached the file. -/
theorem C249_sign_refuted (y : Int) (x : List Int) (ps : List (Int × List Int)) (dim : Nat) (h : SmallData ((y, x) :: ps) dim) (hy : y < 0)
    (old : Option (List Char)) : ∃ k file, fileAfterCrash old (writeCsv ((y, x) :: ps)) (.after k) = some file ∧
      loadCsv false true file = .error .exception := by
  refine ⟨1, ['-'], ?_, by decide +kernel⟩
  obtain ⟨h1, h2, h3⟩ := h
  have hx : x ≠ [] := fun h0 => h2 (by have := (h3 (y, x) (by simp)).1; rw [h0] at this; simpa using this.symm)
  obtain ⟨ks, -, -, -, -, k5⟩ := showDouble_numeral y (h3 (y, x) (by simp)).2.1
  rw [if_pos hy] at k5
  obtain ⟨a, x', rfl⟩ := List.exists_cons_of_ne_nil hx
  rw [fileAfterCrash, writeCsv, List.map_cons, List.flatten_cons, writeLine_eq (y, a :: x') hx, lineBody, fields, List.map_cons,
    intercalate_cons₂, k5]
  simp

/-- The dataset -1,20; 1,30 is such a dataset. -/
example : SmallData [(-1, [20]), (1, [30])] 1 ∧ (-1 : Int) < 0 := ⟨⟨by simp, by simp, by decide⟩, by decide⟩

/-- 12,345 cut after the 4 is read as the sample 12 with the feature 34. -/
example : SmallData [(12, [345, 6])] 2 ∧ fileAfterCrash none (writeCsv [(12, [345, 6])]) (.after 5) = some "12,34".toList ∧
    '\n' ∉ "12,34".toList ∧ loadCsv false false "12,34".toList = .ok (some ⟨[⟨[34], 12, 1⟩], 1, [1], Classes.none⟩) :=
  ⟨⟨by simp, by simp, by decide⟩, by decide +kernel, by decide +kernel, by decide +kernel⟩

end MLTK.Props
