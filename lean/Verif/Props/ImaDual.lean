import Mathlib.Tactic.NormNum
import Verif.Lemmas.ImaDual
import Verif.Spec.ImaDual
import Verif.Props.Kernel
import Verif.Lemmas.Features
/-!
# C106-C108: the dual incremental margin algorithm, feature weights of dual classifiers
-/
namespace MLTK.Props
open MLTK.Perc MLTK.Spec MLTK.IMA
open MLTK.Data (Res_bind_ok Res_bind_error Res_pure)

section
variable {K : Type} [Field K] [LinearOrder K] [IsStrictOrderedRing K]

omit [LinearOrder K] [IsStrictOrderedRing K] in
theorem fresh_inv (kv : Nat → Nat → K) (samples : List (Sample K)) (alphas : List K) (index : List Nat)
    (ha : alphas = List.replicate samples.length 0) (hi : index.Perm (List.range samples.length)) :
    GInv kv samples (filled samples ⟨alphas, [], 0, 0, index, 0, 0, 0⟩) := by
  subst ha
  refine ⟨?_, by simp [filled], by simp [filled], hi⟩
  intro r hr
  have z : ∀ i, (List.replicate samples.length (0 : K)).getD i 0 = 0 := by
    intro i
    simp only [List.getD_eq_getElem?_getD, List.getElem?_replicate]
    split <;> rfl
  simp only [filled, if_true, z, zero_mul, Finset.sum_const_zero, add_zero]

/-- **C106 (partial).**  Let the points' `Alpha` values be zero before.  If `IMADual::train` answers `true`, there are
multipliers `α`, a bias `b` and a number `N > 0` such that the function `b + Σ αᵢ yᵢ k(xᵢ,·)` has every training sample strictly
on its side with values at least `N` times the reported margin, and the reported multipliers are the `αᵢ` above
`EPS·rate`, the others set to zero.  If training ended because the margin settled, `b` is the reported bias; if in addition
no multiplier was dropped, `evaluate` answers the label of every training sample. -/
theorem C106_separates_partial (m : Libm K) (hm : ∀ a, 0 ≤ m.sqrt a) (c : DCfg K) (hmin : 0 ≤ c.minInc)
    (clock : Nat → Nat → Bool) (kv : Nat → Nat → K) (hsym : ∀ i j, kv i j = kv j i) (dim : Nat)
    (samples : List (Sample K)) (hdim : ∀ p ∈ samples, p.x.length = dim) (hpm : PlusMinus samples)
    (index : List Nat) (hi : index.Perm (List.range samples.length)) (n : Nat) (sol : DISol K) (settled : Bool)
    (h : imaDualTrain m c clock kv samples (List.replicate samples.length 0) index n = .ok (true, sol, settled)) :
    ∃ (alpha : List K) (b N : K),
      sol.alpha = alpha.map (fun a => if c.eps * c.rate < a then a else 0) ∧ (samples ≠ [] → 0 < N) ∧
      (∀ r (hr : r < samples.length), 0 < samples[r].y * dualValueAt alpha b samples kv r ∧
        sol.margin * N ≤ samples[r].y * dualValueAt alpha b samples kv r) ∧
      (settled = true → sol.bias = b ∧
        (sol.alpha = alpha → ∀ r (hr : r < samples.length), ∃ v : Int,
          dualEvaluate dim sol.alpha samples sol.bias samples[r].x (kv r) = .ok v ∧ (v : K) = samples[r].y)) := by
  rw [imaDualTrain] at h
  cases hl : dualLoop m c clock kv samples n
      { sub := ⟨List.replicate samples.length 0, [], 0, 0, index, 0, 0, 0⟩, gamma := 0,
        saved := List.replicate samples.length 0, rmargin := 0, old := 0, it := 0 } with
  | error x => rw [hl] at h; cases h
  | ok r =>
    rw [hl, Res_bind_ok, Res_pure] at h
    have h' := Except.ok.inj h
    have hit : r.1.it ≠ 0 := by simpa using congrArg Prod.fst h'
    have hs : sol = _ := (congrArg (fun p => p.2.1) h').symm
    have hb : settled = r.2 := (congrArg (fun p => p.2.2) h').symm
    obtain ⟨b, ⟨alpha, N, hlen, hsav, hN, hall⟩, hbias⟩ := dualLoop_spec hm hmin n _ r
      (fresh_inv kv samples _ index rfl hi) (le_refl _) (le_refl _) (fun h0 => absurd rfl h0) hl hit
    have hval : ∀ r (hr : r < samples.length), 0 < samples[r].y * dualValueAt alpha b samples kv r :=
      fun r hr => (hall r hr).1
    refine ⟨alpha, b, N, by rw [hs]; exact hsav, hN, fun r hr => ⟨hval r hr, ?_⟩, fun hse => ⟨?_, ?_⟩⟩
    · have h1 := hval r hr
      have h2 := (hall r hr).2
      have h3 : samples[r].y * dualValueAt alpha b samples kv r = |dualValueAt alpha b samples kv r| := by
        rcases hpm _ (List.getElem_mem hr) with hy | hy
        · rw [hy, one_mul] at h1 ⊢; exact (abs_of_pos h1).symm
        · rw [hy, neg_one_mul] at h1 ⊢; rw [abs_of_neg (by linarith)]
      rw [h3, hs]
      exact h2
    · rw [hs]; exact hbias (by rw [← hb]; exact hse)
    · intro hkeep q hq
      have hbb : sol.bias = b := by rw [hs]; exact hbias (by rw [← hb]; exact hse)
      have hd : dualDecision samples.length sol.alpha samples (kv q) sol.bias = dualValueAt alpha b samples kv q := by
        rw [dualDecision, foldl_range_sum, hkeep, hbb, dualValueAt]
        congr 1
        exact Finset.sum_congr rfl (fun i _ => by rw [hsym q i])
      rw [dualEvaluate, if_neg (not_not.mpr (hdim _ (List.getElem_mem hq))),
        if_neg (by rw [hkeep]; omega), hd]
      have h1 := hval q hq
      refine ⟨_, rfl, ?_⟩
      rcases hpm _ (List.getElem_mem hq) with hy | hy
      · rw [hy] at h1 ⊢
        rw [if_pos (by linarith)]; simp
      · rw [hy] at h1 ⊢
        rw [if_neg (by push Not; linarith)]; simp

end

/-- A square root that is exact at 4 and at 2209/36, the only values whose root is used below. -/
def exRoot : Libm ℚ := ⟨fun a => if a = 4 then 2 else if a = 2209 / 36 then 47 / 6 else |a|, fun a _ => a⟩

/-- Two classes on a line through the origin with some scatter. -/
def exTrio : List (Sample ℚ) :=
  [⟨[1/3, 1/3, 2/3, 0, 0], 1⟩, ⟨[-2/3, -2/3, -4/3, 1, 13/3], -1⟩, ⟨[-2/3, -2/3, -4/3, -1, -13/3], -1⟩]

/-- The hypotheses of C106 are met by a run that ends because the margin settled. -/
example : imaDualTrain exRoot ⟨1, 1/2, 1001/1000, 100, 100, 10^9⟩ (fun _ _ => true) (linearKernel 5 exTrio) exTrio
    (List.replicate exTrio.length 0) [0, 1, 2] 5 = .ok (true, ⟨[1, 0, 0], 1, 1/6, [0], [0, 1, 2]⟩, true) := by
  decide +kernel

/-- **C106 refuted** when training ends with a failed fixed-margin run: the bias reported is that of the failed run, the
multipliers are those of the last successful one.  Here training answers `true` and the first training sample is
classified wrongly. -/
theorem C106_bias_of_failed_run_refuted :
    ∃ sol, imaDualTrain exRoot ⟨1, 1/10000, 1001/1000, 2, 100, 10^9⟩ (fun _ _ => true) (linearKernel 5 exTrio) exTrio
        (List.replicate exTrio.length 0) [0, 1, 2] 5 = .ok (true, sol, false) ∧ sol.alpha = [1, 0, 0] ∧ sol.bias = -1 ∧
      dualEvaluate 5 sol.alpha exTrio sol.bias (exTrio.getD 0 default).x (linearKernel 5 exTrio 0) = .ok (-1) := by
  refine ⟨⟨[1, 0, 0], -1, 1/6, [0, 1, 2], [0, 1, 2]⟩, ?_, rfl, rfl, ?_⟩ <;> decide +kernel

/-- Three points on a line. -/
def exLine : List (Sample ℚ) := [⟨[1/3, 1/3, 2/3], 1⟩, ⟨[-1/3, -1/3, -2/3], 1⟩, ⟨[-2/3, -2/3, -4/3], -1⟩]

/-- **C106 refuted** for samples that were trained on before: `train` does not reset the points' `Alpha` values.  Training
twice with the same settings reports multiplier 1, then 2, with the same bias; the second model misclassifies a
training sample that the first one has right. -/
theorem C106_trained_again_refuted :
    ∃ s1 s2, imaDualTrain exRoot ⟨1, 1/10000, 1001/1000, 100, 100, 10^9⟩ (fun it _ => it = 0) (linearKernel 3 exLine)
        exLine (List.replicate exLine.length 0) [0, 1, 2] 5 = .ok (true, s1, false) ∧
      imaDualTrain exRoot ⟨1, 1/10000, 1001/1000, 100, 100, 10^9⟩ (fun it _ => it = 0) (linearKernel 3 exLine)
        exLine s1.alpha s1.index 5 = .ok (true, s2, false) ∧
      dualEvaluate 3 s1.alpha exLine s1.bias (exLine.getD 1 default).x (linearKernel 3 exLine 1) = .ok 1 ∧
      dualEvaluate 3 s2.alpha exLine s2.bias (exLine.getD 1 default).x (linearKernel 3 exLine 1) = .ok (-1) := by
  refine ⟨⟨[1, 0, 0], 1, 1/6, [0], [0, 1, 2]⟩, ⟨[2, 0, 0], 1, 1/6, [0], [0, 1, 2]⟩, ?_, ?_, ?_, ?_⟩ <;> decide +kernel

/-- **C106**, support vectors: the list is that of the failed run, not of the reported multipliers. -/
theorem C106_support_vectors_refuted :
    ∃ sol, imaDualTrain exRoot ⟨1, 1/10000, 1001/1000, 2, 100, 10^9⟩ (fun _ _ => true) (linearKernel 5 exTrio) exTrio
        (List.replicate exTrio.length 0) [0, 1, 2] 5 = .ok (true, sol, false) ∧ sol.alpha = [1, 0, 0] ∧
        sol.svs = [0, 1, 2] := by
  refine ⟨⟨[1, 0, 0], -1, 1/6, [0, 1, 2], [0, 1, 2]⟩, ?_, rfl, rfl⟩ ; decide +kernel

section
variable {K : Type} [Field K] [LinearOrder K] [IsStrictOrderedRing K]

/-- **C107.**  For every dataset, kernel, clock, earlier `Alpha` values and settings with `EPS > 0`, training ends after at most
`MAX_IT + 2` calls of the fixed-margin trainer: with that many rounds allowed the loop is left, and allowing more changes
nothing. -/
theorem C107_ends (m : Libm K) (c : DCfg K) (heps : 0 < c.eps) (clock : Nat → Nat → Bool)
    (kv : Nat → Nat → K) (samples : List (Sample K)) (alphas : List K) (index : List Nat) :
    imaDualTrain m c clock kv samples alphas index (c.maxIt + 2) ≠ .error .diverges ∧
    ∀ n, c.maxIt + 2 ≤ n →
      imaDualTrain m c clock kv samples alphas index n = imaDualTrain m c clock kv samples alphas index (c.maxIt + 2) := by
  have key := fun n hn => dualLoop_start (m := m) heps (c.maxIt + 2)
    { sub := ⟨alphas, [], 0, 0, index, 0, 0, 0⟩, gamma := 0,
      saved := List.replicate samples.length 0, rmargin := 0, old := 0, it := 0 } (clock := clock) (kv := kv)
    (samples := samples) (by simp) n hn
  constructor
  · intro h
    rw [imaDualTrain] at h
    cases hl : dualLoop m c clock kv samples (c.maxIt + 2)
        { sub := ⟨alphas, [], 0, 0, index, 0, 0, 0⟩, gamma := 0,
          saved := List.replicate samples.length 0, rmargin := 0, old := 0, it := 0 } with
    | error x =>
      rw [hl, Res_bind_error] at h
      cases h
      exact (key _ (le_refl _)).1 hl
    | ok r => rw [hl] at h; cases h
  · intro n hn
    rw [imaDualTrain, imaDualTrain, (key n hn).2]

/-- Two calls are needed here, and with only one allowed the loop is not left. -/
example : imaDualTrain exRoot ⟨1, 1/10000, 1001/1000, 2, 100, 10^9⟩ (fun _ _ => true) (linearKernel 5 exTrio) exTrio
    (List.replicate exTrio.length 0) [0, 1, 2] 1 = .error .diverges := by decide +kernel

omit [LinearOrder K] [IsStrictOrderedRing K] in
/-- **C108**, linear kernel through inner products: `getDualWeightProdInt` gives the squares of the weights
`Σ αᵢ yᵢ xᵢ`. -/
theorem C108_product_weights (dim : Nat) (alpha : List K) (samples : List (Sample K)) :
    (prodIntWeights dim alpha samples).length = dim ∧
    ∀ k, k < dim → (prodIntWeights dim alpha samples).getD k 0 = combo alpha samples k ^ 2 := by
  refine ⟨by simp [prodIntWeights], fun k hk => ?_⟩
  simp only [prodIntWeights, foldl_range_sum, zero_add]
  rw [getD_lt _ _ _ (by simpa using hk)]
  simp only [List.getElem_map, List.getElem_range]
  rw [combo, pow_two, Finset.sum_mul_sum]
  refine Finset.sum_congr rfl fun i _ => ?_
  rw [Finset.sum_mul]
  exact Finset.sum_congr rfl fun j _ => by ring

end

/-! ### C108: weights from the H matrices -/

theorem getD_set_zero (x : List ℝ) (d i : Nat) : (x.set d 0).getD i 0 = if i = d then 0 else x.getD i 0 := by
  simp only [List.getD_eq_getElem?_getD, List.getElem?_set]
  by_cases h : i = d
  · subst h
    simp only [if_true]
    split <;> rfl
  · rw [if_neg (fun hh => h hh.symm), if_neg h]

/-- The kernels of `functionWithoutDim` for the inner product and the Gaussian: those of the vectors with the feature
blanked out. -/
theorem withoutDim_ok (k : Kernel.Kern) (hk : k.type = .innerProduct ∨ k.type = .gaussian) (a b : List ℝ) (n d : Nat)
    (ha : a.length = n) (hb : b.length = n) :
    Kernel.functionWithoutDim k a b d n = .ok (kernelValue k.type k.param n (a.set d 0) (b.set d 0)) := by
  have h1 : Kernel.dotLoop n (some d) a b = .ok (innerProd n (a.set d 0) (b.set d 0)) := by
    rw [Kernel.dotLoop, MLTK.foldlM_ok _ (fun s i => s + (a.set d 0).getD i 0 * (b.set d 0).getD i 0), foldl_range_sum,
      zero_add]
    · rfl
    intro i hi s
    have hi : i < n := by simpa using hi
    simp only [getD_set_zero]
    by_cases h : i = d
    · simp [h]
    · rw [if_neg (by simpa using fun hh => h hh.symm), PointM.vget_getD (by omega) 0, PointM.vget_getD (by omega) 0, if_neg h,
        if_neg h]
      rfl
  have h2 : Kernel.sqLoop n (some d) a b = .ok (sqDist n (a.set d 0) (b.set d 0)) := by
    rw [Kernel.sqLoop, MLTK.foldlM_ok _ (fun s i => s + ((a.set d 0).getD i 0 - (b.set d 0).getD i 0) ^ 2), foldl_range_sum,
      zero_add]
    · rfl
    intro i hi s
    have hi : i < n := by simpa using hi
    simp only [getD_set_zero]
    by_cases h : i = d
    · simp [h]
    · rw [if_neg (by simpa using fun hh => h hh.symm), PointM.vget_getD (by omega) 0, PointM.vget_getD (by omega) 0, if_neg h,
        if_neg h, pow_two]
      rfl
  rcases hk with h | h
  · simp only [Kernel.functionWithoutDim, h]; exact h1
  · simp only [Kernel.functionWithoutDim, h, h2, Res_bind_ok, Res_pure, kernelValue]
    congr 2
    ring

/-- The double sum computed from two matrices. -/
theorem dualWeightAt_ok (n : Nat) (alpha : List ℝ) (ha : alpha.length = n) (H Hk : List (List ℝ)) (g gk : Nat → Nat → ℝ)
    (h1 : ∀ i j, i < n → j < n → Kernel.get2 H i j = .ok (g i j))
    (h2 : ∀ i j, i < n → j < n → Kernel.get2 Hk i j = .ok (gk i j)) :
    dualWeightAt n alpha H Hk = .ok (∑ i ∈ Finset.range n, ∑ j ∈ Finset.range n,
      alpha.getD i 0 * alpha.getD j 0 * (g i j - gk i j)) := by
  have hrow : ∀ i ∈ List.range n, ((List.range n).mapM (fun j => do
      let a ← Kernel.get2 H i j
      let b ← Kernel.get2 Hk i j
      pure (a - b)) : Res (List ℝ)) = .ok ((List.range n).map (fun j => g i j - gk i j)) := by
    intro i hi
    apply Feat.mapM_ok
    intro j hj
    rw [h1 i j (by simpa using hi) (by simpa using hj), h2 i j (by simpa using hi) (by simpa using hj)]
    rfl
  have haux : ∀ i ∈ List.range n, ((List.range n).foldlM (fun s j => do
      let a ← vget alpha j
      let d ← Kernel.get2 ((List.range n).map (fun i => (List.range n).map (fun j => g i j - gk i j))) i j
      pure (s + a * d)) (0 : ℝ) : Res ℝ) = .ok (∑ j ∈ Finset.range n, alpha.getD j 0 * (g i j - gk i j)) := by
    intro i hi
    have hi : i < n := by simpa using hi
    rw [MLTK.foldlM_ok _ (fun s j => s + alpha.getD j 0 * (g i j - gk i j)), foldl_range_sum, zero_add]
    intro j hj s
    have hj : j < n := by simpa using hj
    rw [PointM.vget_getD (by omega) 0, Res_bind_ok]
    simp [Kernel.get2, vget, hi, hj]
  rw [dualWeightAt, Feat.mapM_ok _ _ _ hrow, Res_bind_ok, Feat.mapM_ok _ _ _ haux, Res_bind_ok,
    MLTK.foldlM_ok _ (fun s i => s + (∑ j ∈ Finset.range n, alpha.getD j 0 * (g i j - gk i j)) * alpha.getD i 0),
    foldl_range_sum, zero_add]
  · congr 1
    refine Finset.sum_congr rfl fun i _ => ?_
    rw [Finset.sum_mul]
    exact Finset.sum_congr rfl fun j _ => by ring
  · intro i hi s
    have hi : i < n := by simpa using hi
    rw [PointM.vget_getD (l := alpha) (by omega) 0]
    simp [vget, hi]

/-- The weights of `getDualWeight` for any kernel whose values without a feature are `V`. -/
private theorem dualWeight_formula (k : Kernel.Kern) (hb : BuiltIn k.type) (n : Nat) (V : Nat → List ℝ → List ℝ → ℝ)
    (hV : ∀ k' : Kernel.Kern, k'.type = k.type → k'.param = k.param → ∀ d a b, a.length = n → b.length = n →
      Kernel.functionWithoutDim k' a b d n = .ok (V d a b)) (hs : ∀ d a b, V d a b = V d b a)
    (xs : List (List ℝ)) (ys alpha : List ℝ) (hx : ∀ x ∈ xs, x.length = n) (hy : ys.length = xs.length)
    (ha : alpha.length = xs.length) (hH : k.H = []) :
    ∃ w k', getDualWeight k n xs ys alpha = .ok (w, k') ∧ w.length = n ∧ ∀ d, d < n → w.getD d 0 =
      dualForm (kernelValue k.type k.param n) xs ys alpha -
      ∑ i ∈ Finset.range xs.length, ∑ j ∈ Finset.range xs.length, alpha.getD i 0 * alpha.getD j 0 *
        (if j ≤ i then ys.getD i 0 * ys.getD j 0 else 1) * V d (xs.getD i []) (xs.getD j []) := by
  obtain ⟨k', hk', hent⟩ := C72_matrix_H_partial k hb n xs ys hx hy (.inl hH)
  have hkt : k'.type = k.type ∧ k'.param = k.param := by
    rw [Kernel.generateMatrixH] at hk'
    generalize Kernel.fill _ _ _ _ = M at hk'
    cases M with
    | error e => cases hk'
    | ok M => cases hk'; exact ⟨rfl, rfl⟩
  have hlen : ∀ i, i < xs.length → (xs.getD i []).length = n := fun i hi =>
    hx _ (by rw [getD_lt _ _ _ hi]; exact List.getElem_mem hi)
  have hd : ∀ d ∈ List.range n, (do
      let Hk ← Kernel.generateMatrixHwithoutDim k' d n xs ys
      dualWeightAt xs.length alpha k'.H Hk : Res ℝ) = .ok (dualForm (kernelValue k.type k.param n) xs ys alpha -
      ∑ i ∈ Finset.range xs.length, ∑ j ∈ Finset.range xs.length, alpha.getD i 0 * alpha.getD j 0 *
        (if j ≤ i then ys.getD i 0 * ys.getD j 0 else 1) *
        V d (xs.getD i []) (xs.getD j [])) := by
    intro d _
    set v : Nat → Nat → ℝ := fun i j => V d (xs.getD i []) (xs.getD j [])
    obtain ⟨M, e, hM, hrep, hoff, hdiag⟩ := Kernel.fill_ok xs.length (fun i j => do
        let a ← vget xs i
        let b ← vget xs j
        Kernel.functionWithoutDim k' a b d n) (fun i j v => do
          let yi ← vget ys i
          let yj ← vget ys j
          return v * yi * yj) (List.replicate xs.length (List.replicate xs.length 0)) _ (Kernel.rep_zero xs.length)
        v (fun i j => v i j * ys.getD i 0 * ys.getD j 0)
        (fun i j hij hj => by
          rw [PointM.vget_getD (l := xs) (by omega) [], Res_bind_ok, PointM.vget_getD (l := xs) hj [], Res_bind_ok,
            hV k' hkt.1 hkt.2 d _ _ (hlen i (by omega)) (hlen j hj)])
        (fun i j hij hj => by
          rw [PointM.vget_getD (l := ys) (by omega) 0, Res_bind_ok, PointM.vget_getD (l := ys) (by omega) 0]; rfl)
    rw [Kernel.generateMatrixHwithoutDim, hM, Res_bind_ok,
      dualWeightAt_ok xs.length alpha ha k'.H M
        (fun i j => ys.getD i 0 * ys.getD j 0 * kernelValue k.type k.param n (xs.getD i []) (xs.getD j []))
        (fun i j => (if j ≤ i then ys.getD i 0 * ys.getD j 0 else 1) * v i j)]
    · congr 1
      rw [dualForm, ← Finset.sum_sub_distrib]
      refine Finset.sum_congr rfl fun i _ => ?_
      rw [← Finset.sum_sub_distrib]
      exact Finset.sum_congr rfl fun j _ => by ring
    · intro i j hi hj
      have e1 : ∀ i, i < xs.length → xs[i]? = some (xs.getD i []) := fun i hi => by
        rw [List.getElem?_eq_getElem hi, getD_lt _ _ _ hi]
      have e2 : ∀ i, i < xs.length → ys[i]? = some (ys.getD i 0) := fun i hi => by
        rw [List.getElem?_eq_getElem (by omega), getD_lt _ _ _ (by omega)]
      exact hent i j _ _ _ _ (e1 i hi) (e1 j hj) (e2 i hi) (e2 j hj)
    · intro i j hi hj
      rw [Kernel.rep_get hrep hi hj]
      congr 1
      rcases lt_trichotomy i j with h | h | h
      · rw [(hoff i j h hj).1, if_neg (by omega), one_mul]
      · subst h; rw [hdiag i hi, if_pos (le_refl _)]; ring
      · rw [(hoff j i h hi).2, if_pos h.le]
        simp only [v]
        rw [hs]; ring
  obtain ⟨W, hW⟩ : ∃ W : Nat → ℝ, ∀ d, W d = dualForm (kernelValue k.type k.param n) xs ys alpha -
      ∑ i ∈ Finset.range xs.length, ∑ j ∈ Finset.range xs.length, alpha.getD i 0 * alpha.getD j 0 *
        (if j ≤ i then ys.getD i 0 * ys.getD j 0 else 1) *
        V d (xs.getD i []) (xs.getD j []) := ⟨_, fun _ => rfl⟩
  refine ⟨(List.range n).map W, k', ?_, by simp, ?_⟩
  · rw [getDualWeight, hk', Res_bind_ok, Feat.mapM_ok _ W _ (fun d hdm => by rw [hd d hdm, hW]), Res_bind_ok, Res_pure]
  · intro d hdn
    rw [getD_lt _ _ _ (by simpa using hdn), ← hW]
    simp

/-- **C108 (partial).**  For the inner-product and the Gaussian kernel (with no H matrix computed before), every dataset, label and
multiplier vector: component `d` of `getDualWeight` is the quadratic form of the dual solution minus a double sum over the
samples with feature `d` blanked out, in which the labels are missing from the terms above the diagonal. -/
theorem C108_dual_weight_partial (k : Kernel.Kern) (hk : k.type = .innerProduct ∨ k.type = .gaussian) (n : Nat)
    (xs : List (List ℝ)) (ys alpha : List ℝ) (hx : ∀ x ∈ xs, x.length = n) (hy : ys.length = xs.length)
    (ha : alpha.length = xs.length) (hH : k.H = []) :
    ∃ w k', getDualWeight k n xs ys alpha = .ok (w, k') ∧ w.length = n ∧ ∀ d, d < n → w.getD d 0 =
      dualForm (kernelValue k.type k.param n) xs ys alpha -
      ∑ i ∈ Finset.range xs.length, ∑ j ∈ Finset.range xs.length, alpha.getD i 0 * alpha.getD j 0 *
        (if j ≤ i then ys.getD i 0 * ys.getD j 0 else 1) *
        kernelValue k.type k.param n ((xs.getD i []).set d 0) ((xs.getD j []).set d 0) := by
  exact dualWeight_formula k (by rcases hk with h | h <;> simp [BuiltIn, h]) n
    (fun d a b => kernelValue k.type k.param n (a.set d 0) (b.set d 0))
    (fun k' h1 h2 d a b hla hlb => by rw [withoutDim_ok k' (by rw [h1]; exact hk) _ _ n d hla hlb, h1, h2])
    (fun d a b => kernelValue_comm _ _ _ _ _) xs ys alpha hx hy ha hH

/-- **C108 (partial).**  If all samples have the same label `y = ±1`, `getDualWeight` is the relevance of each feature: the loss of the
quadratic form when the feature is blanked out. -/
theorem C108_one_label_partial (k : Kernel.Kern) (hk : k.type = .innerProduct ∨ k.type = .gaussian) (n : Nat)
    (xs : List (List ℝ)) (y : ℝ) (hy : y = 1 ∨ y = -1) (alpha : List ℝ) (hx : ∀ x ∈ xs, x.length = n)
    (ha : alpha.length = xs.length) (hH : k.H = []) :
    ∃ w k', getDualWeight k n xs (List.replicate xs.length y) alpha = .ok (w, k') ∧ w.length = n ∧ ∀ d, d < n →
      w.getD d 0 = relevance (kernelValue k.type k.param n) xs (List.replicate xs.length y) alpha d := by
  obtain ⟨w, k', h1, h2, h3⟩ := C108_dual_weight_partial k hk n xs (List.replicate xs.length y) alpha hx (by simp) ha hH
  refine ⟨w, k', h1, h2, fun d hd => ?_⟩
  rw [h3 d hd, relevance]
  congr 1
  rw [dualForm, List.length_map]
  refine Finset.sum_congr rfl fun i hi => Finset.sum_congr rfl fun j hj => ?_
  have hi : i < xs.length := by simpa using hi
  have hj : j < xs.length := by simpa using hj
  have hyy : y * y = 1 := by rcases hy with h | h <;> rw [h] <;> norm_num
  have e1 : ∀ i, i < xs.length → (List.replicate xs.length y).getD i 0 = y := fun i hi => by
    rw [getD_lt _ _ _ (by simpa using hi)]; simp
  have e2 : ∀ i, i < xs.length → (xs.map (fun x => x.set d 0)).getD i [] = (xs.getD i []).set d 0 := fun i hi => by
    rw [getD_lt _ _ _ (by simpa using hi), getD_lt _ _ _ hi]; simp
  rw [e1 i hi, e1 j hj, e2 i hi, e2 j hj, hyy]
  simp

/-- **C108**: for the linear kernel the relevance of a feature is the square of its weight `Σ αᵢ yᵢ xᵢ`. -/
theorem C108_linear_relevance (n : Nat) (samples : List (Sample ℝ)) (hx : ∀ p ∈ samples, p.x.length = n)
    (alpha : List ℝ) (d : Nat) (hd : d < n) :
    relevance (innerProd n) (samples.map (·.x)) (samples.map (·.y)) alpha d = combo alpha samples d ^ 2 := by
  have ex : ∀ i, i < samples.length → (samples.map (·.x)).getD i [] = (samples.getD i default).x := fun i hi => by
    rw [getD_lt _ _ _ (by simpa using hi), getD_lt _ _ _ hi]; simp
  have ey : ∀ i, i < samples.length → (samples.map (·.y)).getD i 0 = (samples.getD i default).y := fun i hi => by
    rw [getD_lt _ _ _ (by simpa using hi), getD_lt _ _ _ hi]; simp
  have ez : ∀ i, i < samples.length → ((samples.map (·.x)).map (fun x => x.set d 0)).getD i [] =
      (samples.getD i default).x.set d 0 := fun i hi => by
    rw [getD_lt _ _ _ (by simpa using hi), getD_lt _ _ _ hi]; simp
  have hdiff : ∀ a b : List ℝ, innerProd n a b - innerProd n (a.set d 0) (b.set d 0) = a.getD d 0 * b.getD d 0 := by
    intro a b
    rw [innerProd, innerProd, ← Finset.sum_sub_distrib]
    simp only [getD_set_zero]
    rw [Finset.sum_eq_single d]
    · simp
    · intro i _ hi; simp [hi]
    · intro h; exact absurd (by simpa using hd) h
  rw [relevance, dualForm, dualForm]
  simp only [List.length_map]
  rw [← Finset.sum_sub_distrib, combo, pow_two,
    Finset.sum_mul_sum]
  refine Finset.sum_congr rfl fun i hi => ?_
  rw [← Finset.sum_sub_distrib]
  refine Finset.sum_congr rfl fun j hj => ?_
  have hi : i < samples.length := by simpa using hi
  have hj : j < samples.length := by simpa using hj
  rw [ex i hi, ex j hj, ey i hi, ey j hj, ez i hi, ez j hj, ← mul_sub, hdiff]
  ring

/-- **C108 refuted** for samples of two classes: a feature that is zero in every
sample, and so has no relevance, gets the weight 2. -/
theorem C108_two_labels_refuted :
    ∃ w k', getDualWeight {} 2 [[1, 0], [-1, 0]] [1, -1] [1, 1] = .ok (w, k') ∧
      w.getD 1 0 = 2 ∧ relevance (innerProd 2) [[1, 0], [-1, 0]] [1, -1] [1, 1] 1 = 0 := by
  obtain ⟨w, k', h1, h2, h3⟩ := C108_dual_weight_partial {} (.inl rfl) 2 [[1, 0], [-1, 0]] [1, -1] [1, 1]
    (by simp) rfl rfl rfl
  refine ⟨w, k', h1, ?_, ?_⟩
  · rw [h3 1 (by norm_num)]
    simp [dualForm, kernelValue, innerProd, Finset.sum_range_succ]
    norm_num
  · simp [relevance, dualForm, innerProd, Finset.sum_range_succ]

/-- **C108 (partial).**  For the polynomial kernel the values without a feature are those of another kernel: one is added
to the inner product before the power is taken, which the kernel itself does not do. -/
theorem C108_polynomial_partial (k : Kernel.Kern) (hk : k.type = .polynomial) (hp : 1 < k.param) (n : Nat)
    (xs : List (List ℝ)) (ys alpha : List ℝ) (hx : ∀ x ∈ xs, x.length = n) (hy : ys.length = xs.length)
    (ha : alpha.length = xs.length) (hH : k.H = []) :
    ∃ w k', getDualWeight k n xs ys alpha = .ok (w, k') ∧ w.length = n ∧ ∀ d, d < n → w.getD d 0 =
      dualForm (fun a b => innerProd n a b ^ k.param) xs ys alpha -
      ∑ i ∈ Finset.range xs.length, ∑ j ∈ Finset.range xs.length, alpha.getD i 0 * alpha.getD j 0 *
        (if j ≤ i then ys.getD i 0 * ys.getD j 0 else 1) *
        (innerProd n ((xs.getD i []).set d 0) ((xs.getD j []).set d 0) + 1) ^ k.param := by
  have hkv : kernelValue k.type k.param n = fun a b => innerProd n a b ^ k.param := by
    funext a b; simp [kernelValue, hk, hp]
  rw [← hkv]
  refine dualWeight_formula k (by simp [BuiltIn, hk]) n
    (fun d a b => (innerProd n (a.set d 0) (b.set d 0) + 1) ^ k.param) ?_ ?_ xs ys alpha hx hy ha hH
  · intro k' h1 h2 d a b hla hlb
    have h3 := withoutDim_ok { k' with type := .innerProduct } (.inl rfl) a b n d hla hlb
    rw [Kernel.functionWithoutDim] at h3
    dsimp only at h3
    rw [Kernel.functionWithoutDim, h1, hk]
    dsimp only
    rw [h3, Res_bind_ok, h2, if_pos hp]
    rfl
  · intro d a b
    simp only [innerProd]
    simp only [mul_comm]

example : ∃ k : Kernel.Kern, k.type = .polynomial ∧ 1 < k.param ∧ k.H = [] :=
  ⟨{ type := .polynomial, param := 2 }, rfl, by norm_num, rfl⟩

/-- **C108 refuted** for the polynomial kernel, even for a single sample: a feature that is zero in it gets the
weight -3 instead of 0. -/
theorem C108_polynomial_refuted :
    ∃ w k', getDualWeight { type := .polynomial, param := 2 } 2 [[1, 0]] [1] [1] = .ok (w, k') ∧
      w.getD 1 0 = -3 ∧ relevance (kernelValue .polynomial 2 2) [[1, 0]] [1] [1] 1 = 0 := by
  obtain ⟨w, k', h1, _, h3⟩ := C108_polynomial_partial { type := .polynomial, param := 2 } rfl (by norm_num) 2 [[1, 0]] [1]
    [1] (by simp) rfl rfl rfl
  refine ⟨w, k', h1, ?_, ?_⟩
  · rw [h3 1 (by norm_num)]
    simp [dualForm, innerProd, Finset.sum_range_succ]
    norm_num
  · simp [relevance, dualForm, kernelValue, innerProd, Finset.sum_range_succ]

end MLTK.Props
