import Mathlib.Tactic.FieldSimp
import Mathlib.Tactic.NormNum
import Verif.Lemmas.Neighbors
/-!
# C43, C61, C76: nearest neighbours
-/
namespace MLTK.Props
open MLTK.Spec MLTK.Knn
open MLTK.Data (Res_bind_ok Res_bind_error Res_pure)

section
variable {T K : Type} [Field K] [LinearOrder K] [IsStrictOrderedRing K]

/-- C43 (distances computed at the call).  Whatever `nth_element` does within its contract, the class
returned is the earliest of the classes with the most samples in some set of `k` nearest samples. -/
theorem C43_majority_partial {nth : NthFn} (hnth : NthElement nth) (c : Cfg K) (hb : c.brute = true)
    (hpre : c.precomputed = false) (dist : List T → List T → Res K) (samples : List (Pt T))
    (classes : List Int) (p : Pt T) (hk : c.k ≤ samples.length) (hc : classes ≠ []) (d : Nat → K)
    (hd : ∀ i q, samples[i]? = some q → dist p.x q.x = .ok (d i)) :
    ∃ (S : Finset Nat) (r : Int) (pr : K), KNearest d samples.length c.k S ∧
      evaluate nth c dist p.x.length samples classes p = .ok (r, pr) ∧
      FirstBest classes (votesIn samples S) r := by
  have hkeys : samples.mapM (keyOf c dist p) = .ok ((List.range samples.length).map d) :=
    mapM_index _ _ _ (fun i q hq => by simp [keyOf, hpre, hd i q hq])
  obtain ⟨S, r, q, h1, h2, h3, _⟩ := evaluate_spec hnth c hb dist rfl hk hc d _ hkeys (by
    intro i hi j hj
    simp [less, hpre, hi, hj])
  exact ⟨S, r, q, h1, h2, h3⟩

private theorem entry_of {m : Matrix K} {a b : Nat} {row : List K} {v : K} (h1 : m.rows[a]? = some row) (h2 : row[b]? = some v) :
    entry m a b = .ok v := by
  unfold entry
  rw [vget_eq_ok.2 h1, Res_bind_ok, vget_eq_ok.2 h2]

/-- C43 (full distance matrix).  With a precomputed matrix whose entry for the query and sample `i`
is their distance `d i`, the same holds. -/
theorem C43_full_matrix_partial {nth : NthFn} (hnth : NthElement nth) (c : Cfg K) (hb : c.brute = true)
    (m : Matrix K) (hm : m.diagonal = false) (dist : List T → List T → Res K) (samples : List (Pt T))
    (classes : List Int) (p : Pt T) (hk : c.k ≤ samples.length) (hc : classes ≠ []) (d : Nat → K)
    (hp : 1 ≤ p.id)
    (hd : ∀ i q, samples[i]? = some q → 1 ≤ q.id ∧
      ∃ row, m.rows[p.id - 1]? = some row ∧ row[q.id - 1]? = some (d i)) :
    ∃ (S : Finset Nat) (r : Int) (pr : K), KNearest d samples.length c.k S ∧
      evaluate nth (setPrecomputed c m) dist p.x.length samples classes p = .ok (r, pr) ∧
      FirstBest classes (votesIn samples S) r := by
  have hds : ∀ i, 1 ≤ i → decSize i = i - 1 := fun i hi => by simp [decSize]; omega
  have hkeys : samples.mapM (keyOf (setPrecomputed c m) dist p) = .ok ((List.range samples.length).map d) :=
    mapM_index _ _ _ (fun i q hq => by
      obtain ⟨h1, row, h2, h3⟩ := hd i q hq
      simp [keyOf, setPrecomputed, hm, hds _ hp, hds _ h1, entry_of h2 h3])
  obtain ⟨S, r, q, h1, h2, h3, _⟩ := evaluate_spec hnth (setPrecomputed c m) hb dist rfl hk hc d _ hkeys (by
    intro i hi j hj
    simp [less, setPrecomputed, hm, hi, hj])
  exact ⟨S, r, q, h1, h2, h3⟩

/-- C43 (triangular distance matrix).  The same for a query that is not one of the samples. -/
theorem C43_triangular_matrix_partial {nth : NthFn} (hnth : NthElement nth) (c : Cfg K) (hb : c.brute = true)
    (m : Matrix K) (hm : m.diagonal = true) (dist : List T → List T → Res K) (samples : List (Pt T))
    (classes : List Int) (p : Pt T) (hk : c.k ≤ samples.length) (hc : classes ≠ []) (d : Nat → K)
    (hp : 1 ≤ p.id)
    (hd : ∀ i q, samples[i]? = some q → 1 ≤ q.id ∧ q.id ≠ p.id ∧
      ∃ row, m.rows[max p.id q.id - 1]? = some row ∧ row[min p.id q.id - 1]? = some (d i)) :
    ∃ (S : Finset Nat) (r : Int) (pr : K), KNearest d samples.length c.k S ∧
      evaluate nth (setPrecomputed c m) dist p.x.length samples classes p = .ok (r, pr) ∧
      FirstBest classes (votesIn samples S) r := by
  have hds : ∀ i, 1 ≤ i → decSize i = i - 1 := fun i hi => by simp [decSize]; omega
  have hkeys : samples.mapM (keyOf (setPrecomputed c m) dist p) = .ok ((List.range samples.length).map d) :=
    mapM_index _ _ _ (fun i q hq => by
      obtain ⟨h1, h2, row, hr, h4⟩ := hd i q hq
      have h3 := entry_of hr h4
      have e1 : max (p.id - 1) (q.id - 1) = max p.id q.id - 1 := by omega
      have e2 : min (p.id - 1) (q.id - 1) = min p.id q.id - 1 := by omega
      have e3 : ¬ (p.id - 1 = q.id - 1) := by omega
      simp [keyOf, setPrecomputed, hm, hds _ hp, hds _ h1, e1, e2, e3, h3])
  obtain ⟨S, r, q, h1, h2, h3, _⟩ := evaluate_spec hnth (setPrecomputed c m) hb dist rfl hk hc d _ hkeys (by
    intro i hi j hj
    have h1 := hd i samples[i] (List.getElem?_eq_getElem hi)
    have h2 := hd j samples[j] (List.getElem?_eq_getElem hj)
    have e1 : ¬ (p.id - 1 = samples[i].id - 1) := by omega
    have e2 : ¬ (p.id - 1 = samples[j].id - 1) := by omega
    simp [less, setPrecomputed, hi, hj, hds _ hp, hds _ h1.1, hds _ h2.1, e1, e2])
  exact ⟨S, r, q, h1, h2, h3⟩

/-- A query of another dimension than the samples is rejected, with any settings. -/
theorem C43_dimension {nth : NthFn} (c : Cfg K) (dist : List T → List T → Res K) (dim : Nat)
    (samples : List (Pt T)) (classes : List Int) (p : Pt T) (hp : dim ≠ p.x.length) :
    evaluate nth c dist dim samples classes p = .error .assertFail := by
  unfold evaluate
  rw [if_pos hp]

/-- More neighbours than samples: the call iterates past the end. -/
theorem C43_too_few_samples_refuted {nth : NthFn} (c : Cfg K) (hb : c.brute = true)
    (dist : List T → List T → Res K) (samples : List (Pt T)) (classes : List Int) (p : Pt T)
    (hk : samples.length < c.k) :
    ∃ f, evaluate nth c dist p.x.length samples classes p = .error f := by
  unfold evaluate neighbours
  rw [if_neg (by simp), if_pos hb]
  cases samples.mapM (keyOf c dist p) with
  | error f => exact ⟨f, rfl⟩
  | ok keys => exact ⟨.outOfBounds, by rw [Res_bind_ok, if_pos hk]; rfl⟩

/-- C43 refuted after `precomputeDistances`: the matrix is returned but not stored, and `evaluate`
reads an empty one. -/
theorem C43_precompute_refuted {nth : NthFn} (k : Nat) (mk : Matrix K) (dist : List T → List T → Res K)
    (samples : List (Pt T)) (hs : samples ≠ []) (classes : List Int) (p : Pt T) :
    evaluate nth (precompute { k := k } mk).1 dist p.x.length samples classes p = .error .outOfBounds := by
  obtain ⟨q, l, rfl⟩ := List.exists_cons_of_ne_nil hs
  unfold evaluate neighbours
  rw [if_neg (by simp)]
  simp only [precompute, if_true, List.mapM_cons, keyOf]
  rfl

/-- C76 refuted: whatever the votes, the probability reported after a prediction is never below `1 - 10⁻⁷`. -/
theorem C76_near_one_refuted {nth : NthFn} (c : Cfg K) (dist : List T → List T → Res K) (dim : Nat)
    (samples : List (Pt T)) (classes : List Int) (p : Pt T) (r : Int) (pr : K)
    (h : evaluate nth c dist dim samples classes p = .ok (r, pr)) : 1 - 1 / 10000000 ≤ pr := by
  have key : ∀ x : K, 1 - 1 / 10000000 ≤ reported x := by
    intro x
    unfold reported
    by_cases hx : 1 - x > 1 / 10000000
    · rw [if_pos hx]
      have : (0 : K) ≤ 1 / 10000000 := by positivity
      linarith
    · rw [if_neg hx]; linarith
  unfold evaluate at h
  by_cases hd : dim ≠ p.x.length
  · rw [if_pos hd] at h; simp at h
  rw [if_neg hd] at h
  cases hn : neighbours nth c dist samples p with
  | error f => rw [hn] at h; simp at h
  | ok near =>
    rw [hn, Res_bind_ok] at h
    unfold decideClass at h
    dsimp only at h
    generalize hg : vget classes _ = g at h
    cases g with
    | error f => simp at h
    | ok g =>
      rw [Res_bind_ok] at h
      injection h with h
      rw [← (Prod.mk.inj h).2]
      exact key _

/-- C61.  The value returned is the mean target of the `k` samples nearest to the query, where of
samples at equal distance the earlier ones are taken; hence it lies between two targets. -/
theorem C61_mean_of_nearest (dist : List K → List K → Res K) (samples : List (RSample K)) (p : List K)
    (k : Nat) (hk0 : 0 < k) (hk : k ≤ samples.length) (d : Nat → K)
    (hd : ∀ i q, samples[i]? = some q → dist p q.x = .ok (d i)) (y : Nat → K)
    (hy : ∀ i q, samples[i]? = some q → y i = q.y) :
    ∃ (S : Finset Nat) (v : K), regress dist k samples p = .ok v ∧ KNearest d samples.length k S ∧
      (∀ i ∈ S, ∀ j < samples.length, j ∉ S → d i = d j → i < j) ∧
      v = (∑ i ∈ S, y i) / k ∧ (∃ i < samples.length, y i ≤ v) ∧ (∃ i < samples.length, v ≤ y i) := by
  have hds : samples.mapM (fun q => dist p q.x) = .ok ((List.range samples.length).map d) :=
    mapM_index _ _ _ (fun i q hq => hd i q hq)
  set ds := (List.range samples.length).map d with hdsd
  have hget : ∀ i < samples.length, ds.getD i 0 = d i := by
    intro i hi; simp [ds, hi]
  let R : Nat → Nat → Prop := fun i j => ds.getD i 0 ≤ ds.getD j 0
  have hRt : Std.Total R := ⟨fun a b => le_total _ _⟩
  have hRtr : IsTrans Nat R := ⟨fun a b c h1 h2 => le_trans h1 h2⟩
  set l := (List.range samples.length).insertionSort R with hl
  have hp : l.Perm (List.range samples.length) := List.perm_insertionSort _ _
  have hsorted : l.Pairwise R := List.pairwise_insertionSort R _
  have hlen : l.length = samples.length := by simpa using hp.length_eq
  have hmem : ∀ a ∈ l, a < samples.length := fun a ha => by simpa using hp.mem_iff.mp ha
  have hsplit : ∀ a ∈ l.take k, ∀ b ∈ l.drop k, R a b := by
    have h2 : (l.take k ++ l.drop k).Pairwise R := by rw [List.take_append_drop]; exact hsorted
    exact fun a ha b hb => (List.pairwise_append.mp h2).2.2 a ha b hb
  have hnd : l.Nodup := hp.nodup_iff.mpr List.nodup_range
  obtain ⟨hS, hndt⟩ := nearest_of_perm d hk hp (fun a ha b hb => by
    have := hsplit a ha b hb
    simp only [R] at this
    rwa [hget a (hmem a (List.mem_of_mem_take ha)), hget b (hmem b (List.mem_of_mem_drop hb))] at this)
  have hsum : ∀ j ≤ samples.length, sumTargets samples l j = .ok ((l.take j).map y).sum := by
    intro j
    induction j with
    | zero => intro _; simp [sumTargets]
    | succ j ih =>
      intro hj
      have hjl : j < l.length := by omega
      have hi : l[j] < samples.length := hmem _ (List.getElem_mem hjl)
      rw [sumTargets, ih (by omega), Res_bind_ok]
      have h1 : vget l j = .ok l[j] := by simp [hjl]
      have h2 : vget samples l[j] = .ok samples[l[j]] := by simp [hi]
      rw [h1, Res_bind_ok, h2, Res_bind_ok, Res_pure, List.take_add_one, List.getElem?_eq_getElem hjl]
      rw [← hy l[j] samples[l[j]] (List.getElem?_eq_getElem hi)]
      simp only [List.map_append, Option.toList_some, List.map_cons, List.map_nil, List.sum_append,
        List.sum_cons, List.sum_nil, add_zero]
  have hsumS : ((l.take k).map y).sum = ∑ i ∈ (l.take k).toFinset, y i := by
    rw [List.sum_toFinset _ hndt]
  have hkK : (0 : K) < (k : K) := by exact_mod_cast hk0
  have hcard : ((l.take k).toFinset.card : K) = k := by rw [hS.card]
  have hSne : (l.take k).toFinset.Nonempty := by
    rw [← Finset.card_pos, hS.card]; exact hk0
  refine ⟨(l.take k).toFinset, (∑ i ∈ (l.take k).toFinset, y i) / k, ?_, hS, ?_, rfl, ?_, ?_⟩
  · unfold regress
    rw [hds, Res_bind_ok]
    show (sumTargets samples l k >>= fun s => if k = 0 then _ else _) = _
    rw [hsum k hk, Res_bind_ok, if_neg (by omega), hsumS]
    rfl
  · intro i hi j hj hjn hij
    -- stability: an earlier sample at the same distance comes first
    by_contra hlt
    have hne : i ≠ j := fun h => hjn (h ▸ hi)
    have hji : j < i := by omega
    have hil : i < samples.length := hS.inside i hi
    have hsub : [j, i].Sublist (List.range samples.length) := by
      have h1 : [j, i] = (List.range samples.length).filter (fun a => a = j ∨ a = i) := by
        apply List.Perm.eq_of_pairwise (le := (· < ·)) (fun a b _ _ h1 h2 => absurd (lt_trans h1 h2) (lt_irrefl _))
        · simp [hji]
        · exact (List.pairwise_lt_range).filter _
        · rw [List.perm_ext_iff_of_nodup (by simp; omega) (List.nodup_range.filter _)]
          intro a
          simp only [List.mem_cons, List.not_mem_nil, or_false, List.mem_filter, List.mem_range,
            decide_eq_true_eq]
          constructor
          · rintro (rfl | rfl) <;> simp [*]
          · exact fun h => h.2
      rw [h1]; exact List.filter_sublist
    have hRji : R j i := by
      show ds.getD j 0 ≤ ds.getD i 0
      rw [hget j hj, hget i hil, hij]
    have hsub' : [j, i].Sublist l := List.pair_sublist_insertionSort hRji hsub
    have hjl : j ∈ l.drop k := by
      have : j ∈ l := hp.mem_iff.mpr (by simpa using hj)
      rw [← List.take_append_drop k l, List.mem_append] at this
      exact this.resolve_left (fun h => hjn (List.mem_toFinset.mpr h))
    -- `i` is before `j` in `l` as well, so some entry would occur twice
    have hil' : i ∈ l.take k := List.mem_toFinset.mp hi
    have hpair : (l.take k ++ l.drop k).Pairwise (· ≠ ·) := by
      rw [List.take_append_drop]; exact hnd
    rw [← List.take_append_drop k l] at hsub'
    obtain ⟨a, b, hab, ha, hb⟩ := List.sublist_append_iff.mp hsub'
    match a, hab with
    | [], hab =>
      have : i ∈ l.drop k := hb.subset (by simp at hab; subst hab; simp)
      exact (List.pairwise_append.mp hpair).2.2 i hil' i this rfl
    | x :: t, hab =>
      have hx : j = x := by simp at hab; exact hab.1
      have : j ∈ l.take k := ha.subset (by simp [hx])
      exact hjn (List.mem_toFinset.mpr this)
  · obtain ⟨i, hi, hmin⟩ := Finset.exists_min_image _ y hSne
    refine ⟨i, hS.inside i hi, ?_⟩
    rw [le_div_iff₀ hkK]
    have := Finset.card_nsmul_le_sum _ y (y i) hmin
    rw [nsmul_eq_mul, hcard] at this
    linarith
  · obtain ⟨i, hi, hmax⟩ := Finset.exists_max_image _ y hSne
    refine ⟨i, hS.inside i hi, ?_⟩
    rw [div_le_iff₀ hkK]
    have := Finset.sum_le_card_nsmul _ y (y i) hmax
    rw [nsmul_eq_mul, hcard] at this
    linarith

/-- With `k = 0` the mean is `0/0`; with `k` above the number of samples the loop runs past the end. -/
theorem C61_domain (dist : List K → List K → Res K) (samples : List (RSample K)) (p : List K) (k : Nat)
    (hk : k = 0 ∨ samples.length < k) : ∃ f, regress dist k samples p = .error f := by
  unfold regress
  cases hds : samples.mapM (fun q => dist p q.x) with
  | error f => exact ⟨f, rfl⟩
  | ok ds =>
    rw [Res_bind_ok]
    rcases hk with rfl | hk
    · exact ⟨.nonFinite, rfl⟩
    · dsimp only
      set l := (List.range samples.length).insertionSort (fun i j => ds.getD i 0 ≤ ds.getD j 0)
      have hlen : l.length = samples.length := by simp [l]
      have : ∀ j, samples.length < j → ∃ f, sumTargets samples l j = .error f := by
        intro j
        induction j with
        | zero => intro h; omega
        | succ j ih =>
          intro h
          unfold sumTargets
          by_cases hj : samples.length < j
          · obtain ⟨f, hf⟩ := ih hj
            exact ⟨f, by rw [hf]; rfl⟩
          · have hv : vget l j = .error .outOfBounds := by
              unfold vget; rw [List.getElem?_eq_none (by omega)]
            cases sumTargets samples l j with
            | error f => exact ⟨f, rfl⟩
            | ok s => exact ⟨.outOfBounds, by rw [Res_bind_ok, hv]; rfl⟩
      obtain ⟨f, hf⟩ := this k hk
      exact ⟨f, by rw [hf]; rfl⟩

end

/-! ### Concrete cases -/

/-- Absolute difference of the first coordinates. -/
private def absDist (a b : List ℚ) : Res ℚ := .ok |a.getD 0 0 - b.getD 0 0|

private def exSamples : List (Pt ℚ) :=
  [{ x := [10], y := 2, id := 1 }, { x := [0], y := 1, id := 2 }, { x := [1], y := 1, id := 3 },
   { x := [11], y := 2, id := 4 }, { x := [2], y := 3, id := 5 }]

private def exDist (i : Nat) : ℚ := ([10, 0, 1, 11, 2] : List ℚ).getD i 0

/-- Three neighbours of the origin: labels 1, 1 and 3. -/
example : evaluate sortNth ({ k := 3 } : Cfg ℚ) absDist 1 exSamples [2, 1, 3] { x := [0], y := 0 } = .ok (1, 1) := by
  decide +kernel

/-- The hypotheses of `C43_majority_partial` are met. -/
example : NthElement sortNth ∧ (3 : Nat) ≤ exSamples.length ∧
    ∀ i q, exSamples[i]? = some q → absDist [0] q.x = .ok (exDist i) := by
  refine ⟨sortNth_ok, by decide, ?_⟩
  intro i q h
  match i, h with
  | 0, h | 1, h | 2, h | 3, h | 4, h => cases h; decide +kernel

private def exMatrix : Matrix ℚ :=
  { rows := [[0], [10, 0], [9, 1, 0], [1, 11, 10, 0], [8, 2, 1, 9, 0]], diagonal := true }

/-- A triangular matrix and a query that is not a sample (ids 1-4 are samples, the query has id 5). -/
example : evaluate sortNth (setPrecomputed { k := 2 } exMatrix) absDist 1 (exSamples.take 4) [2, 1]
    { x := [2], y := 0, id := 5 } = .ok (1, 1) := by decide +kernel

example : evaluate sortNth (setPrecomputed { k := 2 }
    ({ rows := [[0, 10, 9], [10, 0, 1], [9, 1, 0]], diagonal := false } : Matrix ℚ)) absDist 1 (exSamples.take 3) [2, 1]
    { x := [0], y := 1, id := 2 } = .ok (1, 1) := by decide +kernel

/-- C43 refuted for a triangular matrix when the query is one of the samples: the comparator holds the
query equivalent to every sample, so a sorting algorithm correct for every strict weak order may
return a class that has no sample among the nearest. -/
theorem C43_triangular_matrix_refuted :
    ∃ (nth : NthFn) (samples : List (Pt ℚ)) (m : Matrix ℚ) (p : Pt ℚ) (r : Int) (pr : ℚ) (d : Nat → ℚ),
      NthElement nth ∧ p ∈ samples ∧ m.diagonal = true ∧
      (∀ i q, samples[i]? = some q → absDist p.x q.x = .ok (d i)) ∧
      (∀ i q, samples[i]? = some q → q.id ≠ p.id →
        entry m (max p.id q.id - 1) (min p.id q.id - 1) = .ok (d i)) ∧
      evaluate nth (setPrecomputed { k := 1 } m) absDist 1 samples [2, 1] p = .ok (r, pr) ∧
      ∀ S, KNearest d samples.length 1 S → ¬ FirstBest [2, 1] (votesIn samples S) r := by
  refine ⟨sortNth, exSamples.take 3, exMatrix, { x := [0], y := 1, id := 2 }, 2, 1, exDist, sortNth_ok,
    by decide +kernel, rfl, ?_, ?_, by decide +kernel, ?_⟩
  · intro i q h
    match i, h with
    | 0, h | 1, h | 2, h => cases h; decide +kernel
  · intro i q h
    match i, h with
    | 0, h | 1, h | 2, h => cases h; decide +kernel
  · intro S hS hF
    obtain ⟨i, rfl⟩ := Finset.card_eq_one.mp hS.card
    have hi : i = 1 := by
      by_contra hne
      have h1 := hS.inside i (by simp)
      have h2 := hS.nearest i (by simp) 1 (by decide) (by simp; omega)
      have h3 : i < 3 := h1
      match i, h3 with
      | 0, _ => exact absurd h2 (by decide +kernel)
      | 1, _ => exact hne rfl
      | 2, _ => exact absurd h2 (by decide +kernel)
    subst hi
    obtain ⟨a, b, _, h, _⟩ := hF
    have := h 1 (by simp)
    exact absurd this (by decide +kernel)

/-- C43 refuted when the `algorithm` given to the constructor is not "brute": no neighbour is
computed and the first class is returned. -/
theorem C43_algorithm_refuted :
    ∃ (samples : List (Pt ℚ)) (p : Pt ℚ) (d : Nat → ℚ),
      (∀ i q, samples[i]? = some q → absDist p.x q.x = .ok (d i)) ∧
      (∀ nth, evaluate nth { k := 1, brute := false } absDist 1 samples [2, 1] p = .ok (2, 1)) ∧
      ∀ S, KNearest d samples.length 1 S → ¬ FirstBest [2, 1] (votesIn samples S) 2 := by
  refine ⟨exSamples.take 3, { x := [0], y := 1, id := 2 }, exDist, ?_, ?_, ?_⟩
  · intro i q h
    match i, h with
    | 0, h | 1, h | 2, h => cases h; decide +kernel
  · intro nth
    have : neighbours nth { k := 1, brute := false } absDist (exSamples.take 3) { x := [0], y := 1, id := 2 } =
        .ok [] := rfl
    unfold evaluate
    rw [this]
    decide +kernel
  · intro S hS hF
    obtain ⟨i, rfl⟩ := Finset.card_eq_one.mp hS.card
    have hi : i = 1 := by
      by_contra hne
      have h1 := hS.inside i (by simp)
      have h2 := hS.nearest i (by simp) 1 (by decide) (by simp; omega)
      have h3 : i < 3 := h1
      match i, h3 with
      | 0, _ => exact absurd h2 (by decide +kernel)
      | 1, _ => exact hne rfl
      | 2, _ => exact absurd h2 (by decide +kernel)
    subst hi
    obtain ⟨a, b, _, h, _⟩ := hF
    exact absurd (h 1 (by simp)) (by decide +kernel)

/-- C76 refuted: one of two nearest samples has the predicted class and the reported probability
is one. -/
theorem C76_probability_refuted :
    ∃ (samples : List (Pt ℚ)) (p : Pt ℚ) (d : Nat → ℚ) (S : Finset Nat),
      (∀ i q, samples[i]? = some q → absDist p.x q.x = .ok (d i)) ∧ KNearest d samples.length 2 S ∧
      votesIn samples S 1 = 1 ∧
      evaluate sortNth { k := 2 } absDist 1 samples [1, 2] p = .ok (1, 1) := by
  refine ⟨[{ x := [0], y := 1 }, { x := [2], y := 2 }], { x := [1], y := 0 }, fun _ => 1, {0, 1}, ?_,
    ⟨by decide, by decide, fun _ _ _ _ _ => le_rfl⟩, by decide +kernel, by decide +kernel⟩
  intro i q h
  match i, h with
  | 0, h | 1, h => cases h; decide +kernel

example : regress absDist 2 ([⟨[0], 4⟩, ⟨[5], 100⟩, ⟨[1], 6⟩] : List (RSample ℚ)) [0] = .ok 5 := by
  decide +kernel

end MLTK.Props
