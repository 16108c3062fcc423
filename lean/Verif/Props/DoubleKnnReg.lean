import Verif.Model.DoubleKnnReg
import Verif.Props.DoubleKnn
import Verif.Props.DoubleNorm
import Verif.Props.Neighbors
/-!
# C233: nearest-neighbour regression in `double` arithmetic
-/
namespace MLTK.Props
open MLTK.Fp
open MLTK.Knn (RSample sumTargets regress mapM_index)
open MLTK.Data (Res_bind_ok Res_bind_error Res_pure)

attribute [local irreducible] Fp.rnd Fp.near Fp.huge Fp.two

/-- Samples with whole-numbered targets. -/
def wholeTargets (train : List (List Dbl × Int)) : List (RSample Dbl) := train.map (fun t => ⟨t.1, .fin (t.2 : ℚ)⟩)

/-- Whole numbers are summed up exactly as long as the sum stays below 2^53. -/
theorem targetSum_whole (train : List (List Dbl × Int)) (xs : List (List ℚ)) (hx : xs.length = train.length) (B : ℕ)
    (hB : ∀ t ∈ train, |t.2| ≤ B) (idx : List Nat) : ∀ (k : Nat), k * B ≤ 2 ^ 53 → ∀ v : ℚ,
    sumTargets (List.zipWith (fun x (t : List Dbl × Int) => (⟨x, (t.2 : ℚ)⟩ : RSample ℚ)) xs train) idx k = .ok v →
    ∃ z : ℤ, v = z ∧ |z| ≤ ((k * B : ℕ) : ℤ) ∧ targetSum (wholeTargets train) idx k = .ok (.fin v) := by
  intro k
  induction k with
  | zero =>
    intro _ v h
    simp only [sumTargets, Except.ok.injEq] at h
    exact ⟨0, by simpa using h.symm, by simp, by rw [← h]; rfl⟩
  | succ j ih =>
    intro hk v h
    unfold sumTargets at h
    have hj : j * B ≤ 2 ^ 53 := le_trans (Nat.mul_le_mul_right _ (Nat.le_succ j)) hk
    cases hs : sumTargets (List.zipWith (fun x (t : List Dbl × Int) => (⟨x, (t.2 : ℚ)⟩ : RSample ℚ)) xs train) idx j with
    | error f => rw [hs] at h; cases h
    | ok s =>
      obtain ⟨z, hz, hzb, ht⟩ := ih hj s hs
      rw [hs, Res_bind_ok] at h
      cases hi : vget idx j with
      | error f => rw [hi] at h; cases h
      | ok i =>
        rw [hi, Res_bind_ok] at h
        by_cases hit : i < train.length
        · have hget : vget (List.zipWith (fun x (t : List Dbl × Int) => (⟨x, (t.2 : ℚ)⟩ : RSample ℚ)) xs train) i =
              .ok ⟨xs[i]'(by omega), (train[i].2 : ℚ)⟩ := by
            simp [vget, hit, hx]
          have hget' : vget (wholeTargets train) i = .ok ⟨train[i].1, .fin (train[i].2 : ℚ)⟩ := by
            simp [vget, wholeTargets, hit]
          rw [hget, Res_bind_ok] at h
          have hv : v = s + (train[i].2 : ℚ) := (Except.ok.inj h).symm
          have hb := hB _ (List.getElem_mem hit)
          have hzz : |z + train[i].2| ≤ (((j + 1) * B : ℕ) : ℤ) := by
            have := abs_add_le z train[i].2
            push_cast at hzb ⊢
            linarith
          refine ⟨z + train[i].2, by rw [hv, hz]; push_cast; rfl, hzz, ?_⟩
          unfold targetSum
          rw [ht, Res_bind_ok, hi, Res_bind_ok, hget', Res_bind_ok, Res_pure]
          congr 1
          simp only [Dbl.add]
          rw [hv, hz, ← Int.cast_add]
          have hle : |z + train[i].2| ≤ 2 ^ 53 := by
            refine le_trans hzz ?_
            exact_mod_cast hk
          have hn := near_int hle
          rw [rnd_fin (by
            rw [hn, ← Int.cast_abs]
            have : ((|z + train[i].2| : ℤ) : ℚ) ≤ ((2 ^ 53 : ℤ) : ℚ) := by exact_mod_cast hle
            exact lt_of_le_of_lt this (by decide +kernel)), hn]
        · rw [show vget (List.zipWith (fun x (t : List Dbl × Int) => (⟨x, (t.2 : ℚ)⟩ : RSample ℚ)) xs train) i = .error .outOfBounds by
            simp [vget, hit, hx]] at h
          cases h

/-- **C233 (whole-numbered targets)** With a metric that gives nonnegative or infinite `double`s, never NaN, and whole-numbered
targets whose sums stay within 2^53, `KNNRegressor::evaluate` in `double` arithmetic answers with the mean target of the `k`
samples nearest to the query, rounded once; of samples at equal distance the earlier ones are taken.  The answer lies between
two targets. -/
theorem C233_mean_partial (dist : List Dbl → List Dbl → Res Dbl) (train : List (List Dbl × Int)) (p : List Dbl) (k : Nat)
    (hk0 : 0 < k) (hk : k ≤ train.length) (B : ℕ) (hB0 : 0 < B) (hB : ∀ t ∈ train, |t.2| ≤ B) (hkB : k * B ≤ 2 ^ 53)
    (d : Nat → Dbl) (hd : ∀ (i : ℕ) t, train[i]? = some t → dist p t.1 = .ok (d i))
    (h0 : ∀ i < train.length, d i = .inf false ∨ ∃ r, d i = .fin r ∧ IsDbl r ∧ 0 ≤ r) :
    ∃ (S : Finset Nat) (v : ℚ), NearestAsDoubles d train.length k S ∧
      (∀ i ∈ S, ∀ j < train.length, j ∉ S → d i = d j → i < j) ∧
      rnd ((∑ i ∈ S, ((train.getD i ([], 0)).2 : ℚ)) / k) = .fin v ∧
      knnRegress k dist (wholeTargets train) p = .ok (.fin v) ∧
      (∃ t ∈ train, (t.2 : ℚ) ≤ v) ∧ (∃ t ∈ train, v ≤ (t.2 : ℚ)) := by
  have hD : ∀ i < train.length, D0 (d i) := fun i hi => (h0 i hi).symm
  -- the same samples with rational features that name them
  set xs : List (List ℚ) := (List.range train.length).map (fun i : ℕ => [(i : ℚ)]) with hxs
  have hxl : xs.length = train.length := by simp [xs]
  set mirror := List.zipWith (fun x (t : List Dbl × Int) => (⟨x, (t.2 : ℚ)⟩ : RSample ℚ)) xs train with hmirror
  have hml : mirror.length = train.length := by simp [mirror, hxl]
  have hmi : ∀ i q, mirror[i]? = some q → i < train.length ∧ q.x = [(i : ℚ)] ∧ q.y = ((train.getD i ([], 0)).2 : ℚ) := by
    intro i q hq
    obtain ⟨hi, e⟩ := List.getElem?_eq_some_iff.1 hq
    have hi' : i < train.length := hml ▸ hi
    rw [← e]
    simp [mirror, xs, hi']
  obtain ⟨S, v, hreg, hS, htie, hv, hlo, hup⟩ := C61_mean_of_nearest
    (fun _ x => .ok (rank (d (x.headD 0).num.toNat))) mirror [] k hk0 (hml ▸ hk) (fun i => rank (d i))
    (fun i q hq => by rw [(hmi i q hq).2.1]; simp) (fun i => ((train.getD i ([], 0)).2 : ℚ))
    (fun i q hq => (hmi i q hq).2.2.symm)
  rw [hml] at hS htie hlo hup
  -- both sort alike
  have hds : (wholeTargets train).mapM (fun q => dist p q.x) = .ok ((List.range train.length).map d) := by
    have := mapM_index (fun q : RSample Dbl => dist p q.x) (wholeTargets train) d (fun i q hq => by
      simp only [wholeTargets, List.getElem?_map, Option.map_eq_some_iff] at hq
      obtain ⟨t, ht, rfl⟩ := hq
      exact hd i t ht)
    simpa [wholeTargets] using this
  unfold regress at hreg
  rw [mapM_index _ mirror (fun i => rank (d i)) (fun i q hq => by
    rw [(hmi i q hq).2.1]; simp), Res_bind_ok, hml] at hreg
  have hrel : (fun i j : ℕ => (((List.range train.length).map d).getD j (.fin 0)).lt (((List.range train.length).map d).getD i (.fin 0)) = false) =
      (fun i j : ℕ => ((List.range train.length).map (fun i => rank (d i))).getD i 0 ≤
        ((List.range train.length).map (fun i => rank (d i))).getD j 0) := by
    have hg : ∀ i : ℕ, D0 (((List.range train.length).map d).getD i (.fin 0)) ∧
        rank (((List.range train.length).map d).getD i (.fin 0)) = ((List.range train.length).map (fun i => rank (d i))).getD i 0 := by
      intro i
      by_cases hi : i < train.length
      · have e1 : ((List.range train.length).map d).getD i (.fin 0) = d i := by simp [hi]
        have e2 : ((List.range train.length).map (fun i => rank (d i))).getD i 0 = rank (d i) := by simp [hi]
        rw [e1, e2]
        exact ⟨hD i hi, rfl⟩
      · have e1 : ((List.range train.length).map d).getD i (.fin 0) = .fin 0 := by simp [hi]
        have e2 : ((List.range train.length).map (fun i => rank (d i))).getD i 0 = 0 := by simp [hi]
        rw [e1, e2]
        exact ⟨zero_D0, rfl⟩
    funext i j
    rw [lt_rank (hg j).1 (hg i).1, (hg i).2, (hg j).2]
    simp
  unfold knnRegress
  rw [hds, Res_bind_ok]
  have hwl : (wholeTargets train).length = train.length := by simp [wholeTargets]
  rw [hwl]
  have hsort : (List.range train.length).insertionSort (fun i j : ℕ => (((List.range train.length).map d).getD j (.fin 0)).lt
      (((List.range train.length).map d).getD i (.fin 0)) = false) = (List.range train.length).insertionSort (fun i j : ℕ =>
      ((List.range train.length).map (fun i => rank (d i))).getD i 0 ≤ ((List.range train.length).map (fun i => rank (d i))).getD j 0) := by
    congr 1
  dsimp only at hreg ⊢
  rw [hsort]
  generalize (List.range train.length).insertionSort (fun i j : ℕ =>
      ((List.range train.length).map (fun i => rank (d i))).getD i 0 ≤ ((List.range train.length).map (fun i => rank (d i))).getD j 0) = idx at hreg ⊢
  cases hsum : sumTargets mirror idx k with
  | error f => rw [hsum] at hreg; cases hreg
  | ok s =>
    rw [hsum, Res_bind_ok, if_neg (by omega)] at hreg
    have hvs : v = s / k := (Except.ok.inj hreg).symm
    obtain ⟨z, hz, hzb, htar⟩ := targetSum_whole train xs hxl B hB idx k hkB s hsum
    have hk53 : k ≤ 2 ^ 53 := le_trans (Nat.le_mul_of_pos_right _ hB0) hkB
    have hint : ∀ t ∈ train, IsDbl (t.2 : ℚ) := by
      intro t ht
      have : |t.2| ≤ 2 ^ 53 := by
        have h1 : B ≤ 2 ^ 53 := le_trans (Nat.le_mul_of_pos_left _ hk0) hkB
        exact le_trans (hB t ht) (by exact_mod_cast h1)
      rw [isDbl_iff]
      refine ⟨near_int this, ?_⟩
      rw [← Int.cast_abs]
      have h2 : ((|t.2| : ℤ) : ℚ) ≤ ((2 ^ 53 : ℤ) : ℚ) := by exact_mod_cast this
      exact lt_of_le_of_lt h2 (by decide +kernel)
    obtain ⟨i, hi, hi1⟩ := hlo
    obtain ⟨j, hj, hj1⟩ := hup
    have hgi : (train.getD i ([], 0)) ∈ train := by rw [List.getD_eq_getElem _ _ hi]; exact List.getElem_mem hi
    have hgj : (train.getD j ([], 0)) ∈ train := by rw [List.getD_eq_getElem _ _ hj]; exact List.getElem_mem hj
    obtain ⟨w, hw, hw1, hw2, _⟩ := rnd_between (hint _ hgi) (hint _ hgj) hi1 hj1
    refine ⟨S, w, ⟨hS.inside, hS.card, fun i hi j hj hjS =>
      le_rank (hD i (hS.inside i hi)) (hD j hj) (hS.nearest i hi j hj hjS)⟩, fun i hi j hj hjS he =>
      htie i hi j hj hjS (by simp only [he]), by rw [← hv]; exact hw, ?_, ⟨_, hgi, hw1⟩, ⟨_, hgj, hw2⟩⟩
    rw [htar, Res_bind_ok, Res_pure, ofNat_eq hk53, div_fin (by exact_mod_cast hk0), ← hvs, hw]

/-- The hypotheses are met: two of four samples, at distances 1 and 1 of 1, 1, 2, 3. -/
example : (knnRegress 2 manhattan (wholeTargets [([.fin 3], 7), ([.fin 1], 4), ([.fin (-1)], 5), ([.fin 2], 9)]) [.fin 0]).toOption =
    some (.fin (9 / 2)) := by decide +kernel

/-- **C233 (refuted: between the targets)** The answer need not lie between the least and the greatest target: three neighbours
with the target nearest to 1/10 are answered by a greater number, and two with a target of 2^1023 by infinity. -/
theorem C233_between_refuted :
    (∃ y w : ℚ, rnd (1 / 10) = .fin y ∧ y < w ∧
      (knnRegress 3 manhattan [⟨[.fin 0], .fin y⟩, ⟨[.fin 1], .fin y⟩, ⟨[.fin 2], .fin y⟩] [.fin 0]).toOption = some (.fin w)) ∧
    (knnRegress 2 manhattan [⟨[.fin 0], .fin (2 ^ 1023)⟩, ⟨[.fin 1], .fin (2 ^ 1023)⟩] [.fin 0]).toOption = some (.inf false) := by
  refine ⟨⟨3602879701896397 / 36028797018963968, 7205759403792795 / 72057594037927936, by decide +kernel, by norm_num,
    by decide +kernel⟩, by decide +kernel⟩

theorem targetSum_short (samples : List (RSample Dbl)) (idx : List Nat) : ∀ k, idx.length < k →
    ∃ f, targetSum samples idx k = .error f := by
  intro k
  induction k with
  | zero => intro h; omega
  | succ j ih =>
    intro h
    unfold targetSum
    cases hs : targetSum samples idx j with
    | error f => exact ⟨f, rfl⟩
    | ok s =>
      have hj : ¬ idx.length < j := fun hlt => by obtain ⟨f, hf⟩ := ih hlt; rw [hs] at hf; cases hf
      refine ⟨.outOfBounds, ?_⟩
      rw [Res_bind_ok, show vget idx j = .error .outOfBounds by
        unfold vget; rw [List.getElem?_eq_none (by omega)]]
      rfl

/-- **C233 (the domain)** With `k = 0` the answer is NaN; with more neighbours than samples memory outside the samples is read. -/
theorem C233_domain (k : Nat) (dist : List Dbl → List Dbl → Res Dbl) (samples : List (RSample Dbl)) (p : List Dbl) (ds : List Dbl)
    (hd : samples.mapM (fun q => dist p q.x) = .ok ds) :
    (k = 0 → knnRegress k dist samples p = .ok .nan) ∧
    (samples.length < k → ∃ f, knnRegress k dist samples p = .error f) := by
  unfold knnRegress
  rw [hd, Res_bind_ok]
  constructor
  · rintro rfl
    show (Except.ok ((Dbl.fin 0).div (Dbl.ofNat 0)) : Res Dbl) = _
    rw [ofNat_eq (by norm_num)]
    rfl
  · intro h
    obtain ⟨f, hf⟩ := targetSum_short samples ((List.range samples.length).insertionSort (fun i j =>
      (ds.getD j (.fin 0)).lt (ds.getD i (.fin 0)) = false)) k (by simpa using h)
    exact ⟨f, by dsimp only; rw [hf]; rfl⟩

end MLTK.Props
