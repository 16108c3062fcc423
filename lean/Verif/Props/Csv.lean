import Mathlib.Algebra.Order.Field.Basic
import Verif.Lemmas.Csv
import Verif.Props.Text
/-!
# C19: writing and loading CSV files
-/
namespace MLTK.Props
open MLTK.Text MLTK.Spec
open MLTK.Data (Res_bind_ok Res_bind_error Res_pure)

/-- A dataset of integer-valued samples `(label, features)` of one positive dimension, with all values below a million
in size. -/
def SmallData (ps : List (Int × List Int)) (dim : Nat) : Prop :=
  ps ≠ [] ∧ dim ≠ 0 ∧ ∀ p ∈ ps, p.2.length = dim ∧ p.1.natAbs < 10 ^ 6 ∧ ∀ v ∈ p.2, v.natAbs < 10 ^ 6

theorem loadedPoints_features : ∀ (n : Nat) (ps : List (Int × List Int)) (ys : List ℚ), ys.length = ps.length →
    (loadedPoints n ps ys).map LPt.x = ps.map (fun p => p.2.map (fun k : Int => (k : ℚ)))
  | _, [], [], _ => rfl
  | _, [], _ :: _, h => by simp at h
  | _, _ :: _, [], h => by simp at h
  | n, p :: ps, y :: ys, h => by
    simp only [loadedPoints, List.map_cons, loadedPoints_features (n + 1) ps ys (by simpa using h)]

theorem loadedPoints_labels : ∀ (n : Nat) (ps : List (Int × List Int)) (ys : List ℚ), ys.length = ps.length →
    (loadedPoints n ps ys).map LPt.y = ys
  | _, [], [], _ => rfl
  | _, [], _ :: _, h => by simp at h
  | _, _ :: _, [], h => by simp at h
  | n, p :: ps, y :: ys, h => by
    simp only [loadedPoints, List.map_cons, loadedPoints_labels (n + 1) ps ys (by simpa using h)]

theorem loadedPoints_ids : ∀ (n : Nat) (ps : List (Int × List Int)) (ys : List ℚ), ys.length = ps.length →
    (loadedPoints n ps ys).map LPt.id = List.range' (n + 1) ps.length
  | _, [], [], _ => rfl
  | _, [], _ :: _, h => by simp at h
  | _, _ :: _, [], h => by simp at h
  | n, p :: ps, y :: ys, h => by
    simp only [loadedPoints, List.map_cons, loadedPoints_ids (n + 1) ps ys (by simpa using h), List.length_cons]
    rw [List.range'_succ]

/-- Writing a regression dataset and loading the file gives the same features and labels, ids 1, 2, …, the same
dimension and feature names 1 … dim. -/
theorem C19_regression_round_trip_partial (ps : List (Int × List Int)) (dim : Nat) (h : SmallData ps dim) :
    ∃ r, loadCsv false false (writeCsv ps) = .ok (some r) ∧ r.dim = dim ∧
      r.fnames = List.range' 1 dim ∧
      r.points.map LPt.x = ps.map (fun p => p.2.map (fun k : Int => (k : ℚ))) ∧
      r.points.map LPt.y = ps.map (fun p => (p.1 : ℚ)) ∧
      r.points.map LPt.id = List.range' 1 ps.length := by
  obtain ⟨h1, h2, h3⟩ := h
  have hp : ∀ p ∈ ps, Small p ∧ p.2.length = dim := fun p hp => ⟨(h3 p hp).2, (h3 p hp).1⟩
  have hr := readLines_regression dim Classes.none ps 0 hp
  refine ⟨_, loadCsv_written false ps dim h1 h2 hp _ _ hr, rfl, ?_, ?_, ?_, ?_⟩
  · simp [List.range'_eq_map_range, Nat.add_comm]
  · exact loadedPoints_features _ _ _ (by simp)
  · exact loadedPoints_labels _ _ _ (by simp)
  · exact loadedPoints_ids _ _ _ (by simp)

/-- Writing a classification dataset and loading the file gives the same features, ids 1, 2, …, dimension and feature
names; the labels are the same exactly when no label other than 1 and −1 occurs for the first time after a −1.
Missing from C19: the other label sequences and values from a million on (see the refutations). -/
theorem C19_classification_round_trip_partial (ps : List (Int × List Int)) (dim : Nat) (h : SmallData ps dim) :
    ∃ r, loadCsv false true (writeCsv ps) = .ok (some r) ∧ r.dim = dim ∧
      r.fnames = List.range' 1 dim ∧
      r.points.map LPt.x = ps.map (fun p => p.2.map (fun k : Int => (k : ℚ))) ∧
      r.points.map LPt.id = List.range' 1 ps.length ∧
      (r.points.map LPt.y = ps.map (fun p => (p.1 : ℚ)) ↔ NoLateNames (ps.map Prod.fst)) := by
  obtain ⟨h1, h2, h3⟩ := h
  have hp : ∀ p ∈ ps, Small p ∧ p.2.length = dim := fun p hp => ⟨(h3 p hp).2, (h3 p hp).1⟩
  have hf : List.Forall₂ IsNumeral (ps.map Prod.fst) (ps.map (fun p => showDouble p.1)) := by
    rw [List.forall₂_map_left_iff, List.forall₂_map_right_iff, List.forall₂_same]
    exact fun p hp' => showDouble_numeral _ (hp p hp').1.1
  have hrange : ∀ k ∈ ps.map Prod.fst, -2 ^ 31 ≤ k ∧ k < 2 ^ 31 := by
    intro k hk
    obtain ⟨p, hp', rfl⟩ := List.mem_map.1 hk
    have := (hp p hp').1.1
    constructor <;> omega
  obtain ⟨cl, labels, e1, e2, e3⟩ := processAll_ints _ _ Classes.none [] hf hrange (by simp [Classes.none])
  have hl : labels.length = ps.length := by simpa using e2
  have hr := readLines_class dim ps 0 Classes.none cl labels hp e1
  refine ⟨_, loadCsv_written true ps dim h1 h2 hp _ _ hr, rfl, ?_, ?_, ?_, ?_⟩
  · simp [List.range'_eq_map_range, Nat.add_comm]
  · exact loadedPoints_features _ _ _ (by simpa using hl)
  · exact loadedPoints_ids _ _ _ (by simpa using hl)
  · show (loadedPoints 0 ps (labels.map (fun c : Int => (c : ℚ)))).map LPt.y = _ ↔ _
    rw [loadedPoints_labels _ _ _ (by simpa using hl)]
    have hinj : labels.map (fun c : Int => (c : ℚ)) = ps.map (fun p => (p.1 : ℚ)) ↔ labels = ps.map Prod.fst := by
      have : ps.map (fun p => (p.1 : ℚ)) = (ps.map Prod.fst).map (fun c : Int => (c : ℚ)) := by
        rw [List.map_map]; rfl
      rw [this]
      exact ⟨fun h => List.map_injective_iff.2 Int.cast_injective h, fun h => by rw [h]⟩
    rw [hinj, e3, lateFree_iff]
    simp only [List.nil_append, List.length_nil, Nat.zero_le, true_imp_iff, NoLateNames]

/-- A dataset with labels −1 and 2 (in this order) does not come back. -/
theorem C19_labels_refuted : ∃ ps dim r, SmallData ps dim ∧ loadCsv false true (writeCsv ps) = .ok (some r) ∧
    r.points.map LPt.y ≠ ps.map (fun p => (p.1 : ℚ)) := by
  obtain ⟨r, h1, -, -, -, -, h2⟩ := C19_classification_round_trip_partial [(-1, [3]), (2, [4])] 1
    ⟨by simp, by simp, by decide⟩
  refine ⟨_, 1, r, ⟨by simp, by simp, by decide⟩, h1, fun h => ?_⟩
  have := h2.1 h 1 (by simp) ⟨0, by simp, by simp⟩
  rcases this with h | h | ⟨j, hj, h⟩
  · simp at h
  · simp at h
  · have : j = 0 := by omega
    subst this
    simp at h

theorem digits_of_map {l : List Char} {ks : List Nat} (h : l = ks.map digitChar) (hk : ∀ k ∈ ks, k < 10)
    (l' : List Char) (hs : ∀ c ∈ l', c ∈ l) : ∃ ks' : List Nat, l' = ks'.map digitChar ∧ (∀ k ∈ ks', k < 10) := by
  induction l' with
  | nil => exact ⟨[], rfl, by simp⟩
  | cons c l' ih =>
    obtain ⟨ks', h1, h2⟩ := ih (fun x hx => hs x (by simp [hx]))
    have := hs c (by simp)
    rw [h] at this
    obtain ⟨k, hk', rfl⟩ := List.mem_map.1 this
    exact ⟨k :: ks', by simp [h1], by
      intro x hx
      rcases List.mem_cons.1 hx with rfl | hx
      · exact hk _ hk'
      · exact h2 x hx⟩

/-- No value of a million or more in size survives being written and read: it is written in scientific notation, and
reading ignores the exponent. -/
theorem C19_large_values_refuted (v : Int) (h : 10 ^ 6 ≤ v.natAbs) : atod (showDouble v) ≠ v := by
  -- the text is a sign, one digit, possibly a point and digits, then an exponent
  obtain ⟨k, fs, point, e, hk, hfs, hpt, htext⟩ : ∃ (k : Nat) (fs : List Nat) (point e : List Char), k < 10 ∧
      (∀ f ∈ fs, f < 10) ∧ (point = ['.'] ∨ (point = [] ∧ fs = [])) ∧
      showDouble v = ((if v < 0 then ['-'] else []) ++ [k].map digitChar ++ point ++ fs.map digitChar) ++ 'e' :: e := by
    simp only [showDouble]
    rw [if_neg (not_lt.2 h)]
    generalize (sciParts v.natAbs).1 = q
    generalize (sciParts v.natAbs).2 = e
    simp only [sciText]
    obtain ⟨ks, h1, h2, h3, -, -⟩ := natChars_spec q
    cases ks with
    | nil => exact absurd rfl h2
    | cons k ks =>
      have htail : (natChars q).tail = ks.map digitChar := by rw [h1]; rfl
      have htake : (natChars q).take 1 = [k].map digitChar := by rw [h1]; rfl
      rw [htake]
      generalize hfr : ((natChars q).tail.reverse.dropWhile (fun c => decide (c = '0'))).reverse = frac
      obtain ⟨fs, hf1, hf2⟩ := digits_of_map htail (fun x hx => h3 x (by simp [hx])) frac (by
        intro c hc
        rw [← hfr, List.mem_reverse] at hc
        exact List.mem_reverse.1 ((List.dropWhile_suffix _).subset hc))
      by_cases hfn : frac = []
      · have : fs = [] := by rw [hfn] at hf1; simpa using hf1.symm
        subst this
        refine ⟨k, [], [], '+' :: ((if e < 10 then ['0'] else []) ++ natChars e), h3 k (by simp), by simp,
          Or.inr ⟨rfl, rfl⟩, ?_⟩
        rw [if_pos hfn]
        by_cases hv : v < 0 <;> simp [hv]
      · refine ⟨k, fs, ['.'], '+' :: ((if e < 10 then ['0'] else []) ++ natChars e), h3 k (by simp), hf2,
          Or.inl rfl, ?_⟩
        rw [if_neg hfn, hf1]
        by_cases hv : v < 0 <;> simp [hv]
  have hval : ∀ (sg : List Char) (sv : ℚ), SignText sg sv →
      atod ((sg ++ [k].map digitChar ++ point ++ fs.map digitChar) ++ 'e' :: e) =
        sv * (k + digitsValue fs / 10 ^ fs.length) := by
    intro sg sv hsg
    refine C22_exponent_ignored_partial _ e _ ⟨sg, sv, [k], fs, point, hsg, by simpa using hk, hfs, by simp, hpt, rfl, ?_⟩
    simp [digitsValue]
  have hfrac : (digitsValue fs : ℚ) / 10 ^ fs.length < 1 := by
    rw [div_lt_one (by positivity)]
    exact_mod_cast digitsValue_lt fs hfs
  have hfrac0 : (0 : ℚ) ≤ (digitsValue fs : ℚ) / 10 ^ fs.length := by positivity
  have hk9 : (k : ℚ) ≤ 9 := by exact_mod_cast (by omega : k ≤ 9)
  have hk0 : (0 : ℚ) ≤ k := by positivity
  rw [htext]
  by_cases hv : v < 0
  · rw [if_pos hv, hval _ _ SignText.minus]
    have : (v : ℚ) ≤ -10 ^ 6 := by exact_mod_cast (by omega : v ≤ -10 ^ 6)
    intro he
    linarith
  · rw [if_neg hv, hval _ _ SignText.none]
    have : (10 ^ 6 : ℚ) ≤ v := by exact_mod_cast (by omega : 10 ^ 6 ≤ v)
    intro he
    linarith

example : showDouble (-1234567) = "-1.23457e+06".toList := by decide +kernel

/-- The theorems apply to a non-trivial dataset. -/
example : SmallData [(2, [10, -3]), (-1, [0, 999999]), (1, [5, 5]), (2, [7, 8])] 2 ∧
    NoLateNames [2, -1, 1, 2] := by
  refine ⟨⟨by simp, by simp, by decide⟩, ?_⟩
  have := (lateFree_iff [2, -1, 1, 2] []).1 (by simp [lateFree])
  intro i hi hj
  exact this i (Nat.zero_le _) hi hj

end MLTK.Props
