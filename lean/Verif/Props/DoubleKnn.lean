import Verif.Model.DoubleKnn
import Verif.Lemmas.DoubleSum
import Verif.Props.DoubleMetric
import Verif.Props.Agree
/-!
# C226: nearest neighbours in `double` arithmetic
-/
namespace MLTK.Props
open MLTK.Fp MLTK.Spec
open MLTK.Knn (NthFn Cfg evaluate neighbours decideClass keyOf less frequency scan sortNth sortNth_ok)
open MLTK.Data (Res_bind_ok Res_bind_error Res_pure)

attribute [local irreducible] Fp.rnd Fp.near Fp.huge Fp.two

/-- `S` is a set of `k` of the indices `0 … n-1` none of which is farther, as `double`s compare, than an index left out. -/
structure NearestAsDoubles (d : Nat → Dbl) (n k : Nat) (S : Finset Nat) : Prop where
  inside : ∀ i ∈ S, i < n
  card : S.card = k
  nearest : ∀ i ∈ S, ∀ j < n, j ∉ S → (d i).le (d j) = true

/-- An order-preserving number for a distance. -/
def rank : Dbl → ℚ
  | .fin q => q
  | .inf _ => huge
  | .nan => 0

theorem lt_rank {a b : Dbl} (ha : D0 a) (hb : D0 b) : a.lt b = decide (rank a < rank b) := by
  rcases ha with ⟨p, rfl, hp, p0⟩ | rfl <;> rcases hb with ⟨q, rfl, hq, q0⟩ | rfl
  · rfl
  · have := lt_of_le_of_lt (le_abs_self p) (isDbl_iff.1 hp).2
    simp [Dbl.lt, rank, this]
  · have := lt_of_le_of_lt (le_abs_self q) (isDbl_iff.1 hq).2
    simp only [Dbl.lt, rank]
    exact (decide_eq_false (not_lt.2 this.le)).symm
  · simp [Dbl.lt, rank]

theorem le_rank {a b : Dbl} (ha : D0 a) (hb : D0 b) (h : rank a ≤ rank b) : a.le b = true := by
  rcases ha with ⟨p, rfl, hp, p0⟩ | rfl <;> rcases hb with ⟨q, rfl, hq, q0⟩ | rfl
  · simpa [Dbl.le, rank] using h
  · rfl
  · have := lt_of_le_of_lt (le_abs_self q) (isDbl_iff.1 hq).2
    simp only [rank] at h
    exact absurd this (not_lt.2 h)
  · rfl

theorem classScan_index (freq : Int → Nat) (k n : Nat) (s : ℚ) (cs : List Int) : ∀ (i : Nat) (st : Nat × Nat × Dbl) (st' : Nat × Nat × ℚ),
    st.1 = st'.1 → st.2.1 = st'.2.1 →
    (classScan freq k n cs i st).2.1 = (scan freq k n s cs i st').2.1 := by
  induction cs with
  | nil => intro i st st' _ h; exact h
  | cons c cs ih =>
    intro i st st' h1 h2
    simp only [classScan, scan]
    apply ih
    · by_cases h : freq c > st.1
      · rw [if_pos h, if_pos (by rwa [← h1])]
      · rw [if_neg h, if_neg (by rwa [← h1])]; exact h1
    · by_cases h : freq c > st.1
      · rw [if_pos h, if_pos (by rwa [← h1])]
      · rw [if_neg h, if_neg (by rwa [← h1])]; exact h2

/-- The classifier over the ranks of the distances gives the same class. -/
theorem knn_by_rank {nth : NthFn} (k : Nat) (dist : List Dbl → List Dbl → Res Dbl) (dim : Nat) (samples : List (Pt Dbl))
    (classes : List Int) (p : Pt Dbl) (d : Nat → Dbl) (hd : ∀ i q, samples[i]? = some q → dist p.x q.x = .ok (d i))
    (h0 : ∀ i < samples.length, D0 (d i)) {r : Int} {pr : ℚ}
    (h : evaluate nth ({ k := k } : Cfg ℚ) (fun a b => (dist a b).map rank) dim samples classes p = .ok (r, pr)) :
    ∃ pr', knnEvaluate nth k dist dim samples classes p = .ok (r, pr') := by
  have hkeys : samples.mapM (fun q => dist p.x q.x) = .ok ((List.range samples.length).map d) := Knn.mapM_index _ _ _ hd
  have hkeys' : samples.mapM (keyOf ({ k := k } : Cfg ℚ) (fun a b => (dist a b).map rank) p) =
      .ok ((List.range samples.length).map (fun i => rank (d i))) :=
    Knn.mapM_index _ _ _ (fun i q hq => by
      simp only [keyOf, if_true]
      rw [hd i q hq]
      rfl)
  have hcmp : (fun i j => (((List.range samples.length).map d).getD i (.fin 0)).lt (((List.range samples.length).map d).getD j (.fin 0))) =
      less ({ k := k } : Cfg ℚ) p samples ((List.range samples.length).map (fun i => rank (d i))) := by
    have hget : ∀ i, ((List.range samples.length).map (fun i => rank (d i))).getD i 0 =
        rank (((List.range samples.length).map d).getD i (.fin 0)) ∧ D0 (((List.range samples.length).map d).getD i (.fin 0)) := by
      intro i
      simp only [List.getD_eq_getElem?_getD, List.getElem?_map]
      by_cases hi : i < samples.length
      · rw [List.getElem?_range hi]
        exact ⟨rfl, h0 i hi⟩
      · rw [List.getElem?_eq_none (by simpa using hi)]
        exact ⟨rfl, zero_D0⟩
    funext i j
    unfold less
    rw [if_neg (by simp), (hget i).1, (hget j).1]
    exact lt_rank (hget i).2 (hget j).2
  unfold evaluate at h
  unfold knnEvaluate
  by_cases hdim : dim ≠ p.x.length
  · rw [if_pos hdim] at h; cases h
  · rw [if_neg hdim] at h ⊢
    unfold neighbours at h
    unfold nearestIdx
    rw [if_pos rfl, hkeys', Res_bind_ok] at h
    rw [hkeys, Res_bind_ok]
    by_cases hk : samples.length < k
    · rw [if_pos hk] at h; cases h
    · rw [if_neg hk] at h ⊢
      rw [Res_bind_ok] at h ⊢
      rw [hcmp]
      unfold decideClass at h
      simp only at h ⊢
      rw [classScan_index _ _ _ (Knn.smooth : ℚ) classes 0 _ (0, 0, (0 : ℚ)) rfl rfl]
      cases hv : vget classes (scan (frequency true samples
          ((nth (less ({ k := k } : Cfg ℚ) p samples ((List.range samples.length).map (fun i => rank (d i)))) k
            (List.range samples.length)).take k)) k classes.length Knn.smooth classes 0 (0, 0, (0 : ℚ))).2.1 with
      | error f => rw [hv, Res_bind_error] at h; cases h
      | ok c =>
        rw [hv, Res_bind_ok] at h
        rw [Res_bind_ok]
        cases h
        exact ⟨_, rfl⟩

/-- **C226 (majority)** With a metric that gives nonnegative or infinite `double`s, never NaN, the nearest-neighbour classifier in
`double` arithmetic answers with the earliest of the classes that have the most samples in some set of `k` samples none of
which is farther, as `double`s compare, than a sample left out.  This holds whatever `nth_element` does within its contract. -/
theorem C226_majority {nth : NthFn} (hnth : NthElement nth) (k : Nat) (dist : List Dbl → List Dbl → Res Dbl) (samples : List (Pt Dbl))
    (classes : List Int) (p : Pt Dbl) (hk : k ≤ samples.length) (hc : classes ≠ []) (d : Nat → Dbl)
    (hd : ∀ i q, samples[i]? = some q → dist p.x q.x = .ok (d i))
    (h0 : ∀ i < samples.length, d i = .inf false ∨ ∃ r, d i = .fin r ∧ IsDbl r ∧ 0 ≤ r) :
    ∃ (S : Finset Nat) (r : Int) (pr : Dbl), NearestAsDoubles d samples.length k S ∧
      knnEvaluate nth k dist p.x.length samples classes p = .ok (r, pr) ∧ FirstBest classes (votesIn samples S) r := by
  have hD : ∀ i < samples.length, D0 (d i) := fun i hi => (h0 i hi).symm
  obtain ⟨S, r, pr, hS, hev, hbest⟩ := C43_majority_partial hnth ({ k := k } : Cfg ℚ) rfl rfl (fun a b => (dist a b).map rank)
    samples classes p hk hc (fun i => rank (d i)) (fun i q hq => by rw [hd i q hq]; rfl)
  obtain ⟨pr', hev'⟩ := knn_by_rank k dist _ samples classes p d hd hD hev
  exact ⟨S, r, pr', ⟨hS.inside, hS.card, fun i hi j hj hjS =>
    le_rank (hD i (hS.inside i hi)) (hD j hj) (hS.nearest i hi j hj hjS)⟩, hev', hbest⟩

/-- A sample with these finite features and label. -/
def sampleAt (x : List ℚ) (y : Int) : Pt Dbl := { x := atPoint x, y := y }

/-- **C226 (own label)** One nearest neighbour by the Manhattan distance in `double`s: every training sample with finite features gets
its own label, if samples with different labels differ in some feature. -/
theorem C226_own_label {nth : NthFn} (hnth : NthElement nth) (dim : Nat) (train : List (List ℚ × Int))
    (hdim : ∀ s ∈ train, s.1.length = dim ∧ ∀ a ∈ s.1, IsDbl a) (classes : List Int) (hcl : ∀ s ∈ train, s.2 ∈ classes)
    (hcons : ∀ s ∈ train, ∀ t ∈ train, s.1 = t.1 → s.2 = t.2) (s : List ℚ × Int) (hs : s ∈ train) :
    ∃ pr, knnEvaluate nth 1 manhattan dim (train.map (fun t => sampleAt t.1 t.2)) classes (sampleAt s.1 s.2) = .ok (s.2, pr) := by
  have hman : ∀ t ∈ train, ∃ e, manhattan (atPoint s.1) (atPoint t.1) = .ok e ∧ D0 e ∧ (e = .fin 0 ↔ s.1 = t.1) := by
    intro t ht
    obtain ⟨e, h1, _, h2, h3, _⟩ := C224_manhattan s.1 t.1 ((hdim s hs).1.trans (hdim t ht).1.symm) (hdim s hs).2 (hdim t ht).2
    exact ⟨e, h1, h2.symm, h3⟩
  have : Nonempty Dbl := ⟨.nan⟩
  choose! e he using hman
  have hlen : (sampleAt s.1 s.2).x.length = dim := by simp [sampleAt, atPoint, (hdim s hs).1]
  -- distances, as a function of the sample
  let dd : Pt Dbl → Dbl := fun q => match manhattan (atPoint s.1) q.x with | .ok v => v | .error _ => .nan
  have hdd : ∀ t ∈ train, dd (sampleAt t.1 t.2) = e t := by
    intro t ht
    simp only [dd, sampleAt, (he t ht).1]
  have hmem : sampleAt s.1 s.2 ∈ train.map (fun t => sampleAt t.1 t.2) := List.mem_map.2 ⟨s, hs, rfl⟩
  obtain ⟨pr, hev⟩ := C211_own_label hnth ({ k := 1 } : Cfg ℚ) rfl rfl rfl (fun a b => (manhattan a b).map rank)
    (train.map (fun t => sampleAt t.1 t.2)) classes (by
      intro q hq
      obtain ⟨t, ht, rfl⟩ := List.mem_map.1 hq
      exact hcl t ht) (sampleAt s.1 s.2) hmem (fun q => rank (dd q)) (by
      intro q hq
      obtain ⟨t, ht, rfl⟩ := List.mem_map.1 hq
      simp only [hdd t ht]
      change (manhattan (atPoint s.1) (atPoint t.1)).map rank = _
      rw [(he t ht).1]
      rfl) (by
      simp only [hdd s hs, ((he s hs).2.2).2 rfl]
      rfl) (by
      intro q hq hy
      obtain ⟨t, ht, rfl⟩ := List.mem_map.1 hq
      simp only [hdd t ht]
      have hne : e t ≠ .fin 0 := fun h => hy (hcons s hs t ht (((he t ht).2.2).1 h)).symm
      rcases (he t ht).2.1 with ⟨v, hv, _, v0⟩ | hv
      · rw [hv] at hne ⊢
        simp only [rank]
        exact lt_of_le_of_ne v0 (fun h => hne (by rw [← h]))
      · rw [hv]; simp only [rank]; exact huge_pos)
  rw [hlen] at hev
  refine knn_by_rank 1 manhattan dim _ classes (sampleAt s.1 s.2)
    (fun i => dd ((train.map (fun t => sampleAt t.1 t.2)).getD i (sampleAt s.1 s.2))) ?_ ?_ hev
  · intro i q hq
    simp only [List.getD_eq_getElem?_getD, hq, Option.getD_some]
    obtain ⟨t, ht, rfl⟩ := List.mem_map.1 (List.mem_of_getElem? hq)
    rw [hdd t ht]
    exact (he t ht).1
  · intro i hi
    have hq := List.getElem?_eq_getElem hi
    simp only [List.getD_eq_getElem?_getD, hq, Option.getD_some]
    obtain ⟨t, ht, heq⟩ := List.mem_map.1 (List.getElem_mem hi)
    rw [← heq, hdd t ht]
    exact (he t ht).2.1

/-- **C226 (refuted: Euclidean)** One nearest neighbour by the Euclidean distance in `double`s, the default metric, can answer a
training sample with another label although no two samples are equal, whatever root is used: the squares underflow. -/
theorem C226_own_label_refuted : ∀ sqrt : Dbl → Dbl, ¬ ∀ (nth : NthFn), NthElement nth → ∀ (train : List (List ℚ × Int)) (classes : List Int),
    (∀ s ∈ train, s.1.length = 1 ∧ ∀ a ∈ s.1, IsDbl a) → (∀ s ∈ train, s.2 ∈ classes) →
    (∀ s ∈ train, ∀ t ∈ train, s.1 = t.1 → s.2 = t.2) → ∀ s ∈ train,
    ∃ pr, knnEvaluate nth 1 (euclidean sqrt) 1 (train.map (fun t => sampleAt t.1 t.2)) classes (sampleAt s.1 s.2) = .ok (s.2, pr) := by
  intro sqrt h
  obtain ⟨pr, hpr⟩ := h sortNth sortNth_ok [([0], 2), ([1 / 2 ^ 600], 1)] [2, 1] (by decide +kernel) (by decide +kernel)
    (by decide +kernel) ([1 / 2 ^ 600], 1) (by simp)
  have h1 : euclidean sqrt (atPoint [1 / 2 ^ 600]) (atPoint [0]) = .ok (sqrt (.fin 0)) := euclidean_of (by decide +kernel)
  have h2 : euclidean sqrt (atPoint [1 / 2 ^ 600]) (atPoint [1 / 2 ^ 600]) = .ok (sqrt (.fin 0)) := euclidean_of (by decide +kernel)
  have hself : ∀ v : Dbl, v.lt v = false := by
    intro v; cases v with
    | fin q => simp [Dbl.lt]
    | inf s => cases s <;> rfl
    | nan => rfl
  have hidx : nearestIdx sortNth 1 (euclidean sqrt) ([([0], 2), ([1 / 2 ^ 600], 1)].map (fun t : List ℚ × Int => sampleAt t.1 t.2))
      (sampleAt [1 / 2 ^ 600] 1) = .ok [0] := by
    unfold nearestIdx
    simp only [List.map_cons, List.map_nil, List.mapM_cons, List.mapM_nil]
    change (do let keys ← (do let a ← euclidean sqrt (atPoint [1 / 2 ^ 600]) (atPoint [0]); let r ← (do let b ← euclidean sqrt (atPoint [1 / 2 ^ 600]) (atPoint [1 / 2 ^ 600]); let r ← pure []; pure (b :: r)); pure (a :: r)); _) = _
    rw [h1, h2]
    simp only [Res_bind_ok, Res_pure]
    rw [if_neg (by simp)]
    unfold sortNth
    simp [List.range_succ, List.insertionSort, hself]
  unfold knnEvaluate at hpr
  rw [if_neg (by simp [sampleAt, atPoint]), hidx, Res_bind_ok] at hpr
  have : vget [(2 : Int), 1] (classScan (frequency true ([([0], 2), ([1 / 2 ^ 600], 1)].map (fun t : List ℚ × Int => sampleAt t.1 t.2)) [0]) 1
      [(2 : Int), 1].length [2, 1] 0 (0, 0, .fin 0)).2.1 = .ok 2 := by decide +kernel
  simp only at hpr
  rw [this, Res_bind_ok] at hpr
  cases hpr

/-- Three samples with features that are `double`s. -/
example : (∀ s ∈ [([(1 : ℚ) / 2, 3], (1 : Int)), ([1 / 4, 2], -1), ([1 / 2, 3], 1)], s.1.length = 2 ∧ ∀ a ∈ s.1, IsDbl a) ∧
    (∀ s ∈ [([(1 : ℚ) / 2, 3], (1 : Int)), ([1 / 4, 2], -1), ([1 / 2, 3], 1)], s.2 ∈ [(1 : Int), -1]) ∧
    (∀ s ∈ [([(1 : ℚ) / 2, 3], (1 : Int)), ([1 / 4, 2], -1), ([1 / 2, 3], 1)],
      ∀ t ∈ [([(1 : ℚ) / 2, 3], (1 : Int)), ([1 / 4, 2], -1), ([1 / 2, 3], 1)], s.1 = t.1 → s.2 = t.2) := by
  refine ⟨by decide +kernel, by decide, by decide +kernel⟩

end MLTK.Props
