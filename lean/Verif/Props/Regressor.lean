import Mathlib.Tactic.NormNum
import Verif.Lemmas.Regressor
/-!
# C98-C103: linear regression and the mean squared error
-/
namespace MLTK.Props
open MLTK.Spec MLTK.Regr
open MLTK.Perc (Sample)
open MLTK.Data (Res_bind_ok Res_bind_error Res_pure)

section
variable {K : Type} [Field K] [LinearOrder K]

/-- **C98 (partial).**  Training is a number `k ≤ MAX_IT` of passes over the samples, in their order, starting from zero
slopes and the intercept the object had.  Each sample moves the slopes by `rate` times its residual times its features —
the Widrow-Hoff rule — and the intercept by the residual itself.  It stops at the first pass whose cost differs by at most
EPS from that of the pass before, or after which the time is up, or at `MAX_IT`. -/
theorem C98_rule_partial (c : LCfg K) (late : Nat → Bool) (dim : Nat) (samples : List (Sample K))
    (hs : ∀ p ∈ samples, p.x.length = dim) (r : Regressor K) :
    ∃ (k steps : Nat) (cost : K),
      let start : Line K := ⟨List.replicate dim 0, r.bias⟩
      let cost' := fun j => passCost dim c.rate 1 samples start j
      let settled := fun j => |cost' j - (if j = 0 then 0 else cost' (j - 1))| ≤ c.eps
      lmsTrain c late dim samples r = .ok (true,
        ⟨(afterPasses dim c.rate 1 samples start k).w, (afterPasses dim c.rate 1 samples start k).b,
          r.ctot + k * samples.length⟩, steps, cost) ∧
      k ≤ c.maxIt ∧ (∀ j, j + 1 < k → ¬ settled j ∧ late j = false) ∧
      ((steps = c.maxIt ∧ k = c.maxIt ∧ ∀ j < k, ¬ settled j ∧ late j = false) ∨
        (steps + 1 = k ∧ (settled steps ∨ late steps = true))) := by
  obtain ⟨k, _, h2, h3, steps, cost, hrun, _, hend⟩ := lmsLoop_run c late hs ⟨List.replicate dim 0, r.bias⟩ (by simp)
    r.ctot c.maxIt 0
  refine ⟨k, steps, cost, ?_, by omega, ?_, ?_⟩
  · rw [lmsTrain]
    rw [show r.ctot + 0 * samples.length = r.ctot by omega] at hrun
    simp only [costBefore, if_true] at hrun
    have h0 : afterPasses dim c.rate 1 samples ⟨List.replicate dim 0, r.bias⟩ 0 = ⟨List.replicate dim 0, r.bias⟩ := rfl
    rw [h0] at hrun
    rw [hrun, Res_bind_ok]
    rfl
  · intro j hj
    obtain ⟨a, b⟩ := h3 j (Nat.zero_le _) hj
    exact ⟨not_le.mpr a, b⟩
  · rcases hend with ⟨e1, e2, e3⟩ | ⟨e1, _, e3⟩
    · refine .inl ⟨by omega, by omega, fun j hj => ?_⟩
      obtain ⟨a, b⟩ := e3 j (Nat.zero_le _) hj
      exact ⟨not_le.mpr a, b⟩
    · exact .inr ⟨e1, e3⟩

example : ∀ p ∈ [(⟨[1, 2], 3⟩ : Sample ℚ), ⟨[0, 1], 1⟩], p.x.length = 2 := by decide

omit [LinearOrder K] in
/-- **C98 refuted.**  One correction of a sample with non-zero residual is not the Widrow-Hoff correction unless the rate
is one: the intercept moves by the whole residual. -/
theorem C98_intercept_refuted (dim : Nat) (rate : K) (hr : rate ≠ 1) (p : Sample K) (hp : p.x.length = dim)
    (w : List K) (hw : w.length = dim) (b : K) (n : Nat) (he : residualOf dim ⟨w, b⟩ p ≠ 0) :
    ∃ s cost, lmsPass dim rate [p] ⟨w, b, n⟩ = .ok (s, cost) ∧ s.bias ≠ (correctedBy dim rate rate ⟨w, b⟩ p).b := by
  refine ⟨_, _, lmsPass_ok [p] (by simpa using hp) ⟨w, b⟩ n hw, ?_⟩
  simp only [afterPass, List.foldl_cons, List.foldl_nil, correctedBy]
  intro h
  have h2 := add_left_cancel h
  exact hr (mul_right_cancel₀ he h2).symm

example : ((1 : ℚ) / 2) ≠ 1 ∧ residualOf 1 ⟨[0], 0⟩ (⟨[2], 1⟩ : Sample ℚ) ≠ 0 := by
  constructor
  · norm_num
  · decide +kernel

end

section
variable {K : Type} [Field K] [LinearOrder K] [IsStrictOrderedRing K]

/-- **C99 (partial).**  Let some linear function fit all samples exactly and let `rate * |x|² ≤ rho < 1` for all samples.
With the clock not expiring, training settles within `N` passes as soon as `N * rate * (1 - rho) * EPS` exceeds the squared
distance of the start to that function; and the function learned is at least as close to *every* exact one as the start. -/
theorem C99_converges_partial (c : LCfg K) (dim : Nat) (samples : List (Sample K))
    (hs : ∀ p ∈ samples, p.x.length = dim) (r : Regressor K) (hr : 0 < c.rate) (rho : K) (hrho : rho < 1)
    (hn : ∀ p ∈ samples, c.rate * sqLength dim p.x ≤ rho) (t : Line K) (hfit : Fits dim t samples) (N : Nat)
    (hN : lineDist dim c.rate ⟨List.replicate dim 0, r.bias⟩ t < (N : K) * (c.rate * (1 - rho) * c.eps))
    (hmax : N ≤ c.maxIt) :
    ∃ (r' : Regressor K) (steps : Nat) (cost : K),
      lmsTrain c (fun _ => false) dim samples r = .ok (true, r', steps, cost) ∧ steps < N ∧
      ∀ t' : Line K, Fits dim t' samples →
        lineDist dim c.rate ⟨r'.w, r'.bias⟩ t' ≤ lineDist dim c.rate ⟨List.replicate dim 0, r.bias⟩ t' := by
  obtain ⟨k, steps, cost, hrun, hk, hgo, hend⟩ := C98_rule_partial c (fun _ => false) dim samples hs r
  have hlen : (List.replicate dim (0 : K)).length = dim := by simp
  have hcb : ∀ j, costBefore dim c.rate samples ⟨List.replicate dim 0, r.bias⟩ j
      = if j = 0 then 0 else passCost dim c.rate 1 samples ⟨List.replicate dim 0, r.bias⟩ (j - 1) := fun j => rfl
  have key : ∀ m, (∀ j < m, c.eps < |passCost dim c.rate 1 samples ⟨List.replicate dim 0, r.bias⟩ j
      - costBefore dim c.rate samples ⟨List.replicate dim 0, r.bias⟩ j|) → m < N := by
    intro m hm
    by_contra hcon
    have hb := passes_bound hr.le hrho.le samples hs hn hfit ⟨List.replicate dim 0, r.bias⟩ hlen N
      (fun j hj => hm j (by omega))
    have h1 : 0 ≤ lineDist dim c.rate (afterPasses dim c.rate 1 samples ⟨List.replicate dim 0, r.bias⟩ N) t := by
      unfold lineDist
      exact add_nonneg (Finset.sum_nonneg (fun _ _ => sq_nonneg _)) (mul_nonneg hr.le (sq_nonneg _))
    have h2 : 0 ≤ c.rate * (1 - rho) * costBefore dim c.rate samples ⟨List.replicate dim 0, r.bias⟩ N := by
      refine mul_nonneg (mul_nonneg hr.le (by linarith)) ?_
      rw [hcb]
      split
      · exact le_refl _
      · exact div_nonneg (squaredErrors_nonneg _ _ _ _ _) (by norm_num)
    linarith
  refine ⟨_, steps, cost, hrun, ?_, ?_⟩
  · rcases hend with ⟨e1, e2, e3⟩ | ⟨e1, e3⟩
    · have := key k (fun j hj => not_le.mp (e3 j hj).1)
      omega
    · exact key steps (fun j hj => not_le.mp (hgo j (by omega)).1)
  · intro t' ht'
    exact dist_mono hr.le hrho.le samples hs hn ht' ⟨List.replicate dim 0, r.bias⟩ hlen k

example : ∃ (c : LCfg ℚ) (samples : List (Sample ℚ)) (t : Line ℚ), Fits 1 t samples ∧ 0 < c.rate ∧
    (∀ p ∈ samples, c.rate * sqLength 1 p.x ≤ 1 / 2) ∧ samples.length = 2 ∧
    lineDist 1 c.rate ⟨List.replicate 1 0, 0⟩ t < (1000 : Nat) * (c.rate * (1 - 1 / 2) * c.eps) ∧ 1000 ≤ c.maxIt := by
  refine ⟨⟨1 / 2, 1 / 10, 2000⟩, [⟨[1], 3⟩, ⟨[-1], -1⟩], ⟨[2], 1⟩, ?_, by norm_num, ?_, rfl, ?_, by norm_num⟩
  · intro p hp; revert p; decide +kernel
  · intro p hp; revert p; decide +kernel
  · decide +kernel

/-- **C99 refuted.**  For every single sample with `rate * |x|² ≥ 2` not fitted at the start (a constant function fits
it), with EPS less than half its squared residual, training uses all its passes, the residual is multiplied by
`-rate * |x|²` each time, and the answer is still `true`. -/
theorem C99_diverges_refuted (c : LCfg K) (dim : Nat) (p : Sample K) (hp : p.x.length = dim) (r : Regressor K)
    (hq : 2 ≤ c.rate * sqLength dim p.x) (heps : c.eps < (p.y - r.bias) ^ 2 / 2) :
    ∃ (r' : Regressor K) (cost : K),
      lmsTrain c (fun _ => false) dim [p] r = .ok (true, r', c.maxIt, cost) ∧
      residualOf dim ⟨r'.w, r'.bias⟩ p = (-(c.rate * sqLength dim p.x)) ^ c.maxIt * (p.y - r.bias) := by
  obtain ⟨k, steps, cost, hrun, hk, hgo, hend⟩ := C98_rule_partial c (fun _ => false) dim [p] (by simpa using hp) r
  have hlen : (List.replicate dim (0 : K)).length = dim := by simp
  have h0 : residualOf dim ⟨List.replicate dim 0, r.bias⟩ p = p.y - r.bias := by
    rw [residualOf, affine, Perc.ip_zero _ _ _ (by simp)]
    simp
  set q := c.rate * sqLength dim p.x with hqdef
  set e2 := (p.y - r.bias) ^ 2 / 2 with he2
  have he0 : 0 ≤ e2 := div_nonneg (sq_nonneg _) (by norm_num)
  have hcost : ∀ j, passCost dim c.rate 1 [p] ⟨List.replicate dim 0, r.bias⟩ j = (q ^ 2) ^ j * e2 := by
    intro j
    rw [cost_one hlen hp, h0]
  have hq1 : 4 ≤ q ^ 2 := by nlinarith
  have hpow : ∀ j, 1 ≤ (q ^ 2) ^ j := fun j => one_le_pow₀ (by linarith)
  have hnever : ∀ j, ¬ |passCost dim c.rate 1 [p] ⟨List.replicate dim 0, r.bias⟩ j
      - (if j = 0 then 0 else passCost dim c.rate 1 [p] ⟨List.replicate dim 0, r.bias⟩ (j - 1))| ≤ c.eps := by
    intro j
    rw [not_le]
    cases j with
    | zero =>
      rw [hcost]
      simp only [pow_zero, one_mul, if_true, sub_zero]
      rw [abs_of_nonneg he0]
      exact heps
    | succ j =>
      rw [if_neg (by omega), hcost, hcost, Nat.add_sub_cancel, pow_succ]
      have h1 := mul_le_mul_of_nonneg_right (hpow j) he0
      have h2 : 0 ≤ (q ^ 2) ^ j * e2 := mul_nonneg (by linarith [hpow j]) he0
      have h3 : (q ^ 2) ^ j * q ^ 2 * e2 - (q ^ 2) ^ j * e2 = (q ^ 2 - 1) * ((q ^ 2) ^ j * e2) := by ring
      rw [h3, abs_of_nonneg (mul_nonneg (by linarith) h2)]
      nlinarith
  rcases hend with ⟨e1, e2, e3⟩ | ⟨e1, e3⟩
  · rw [e1] at hrun
    refine ⟨_, cost, hrun, ?_⟩
    · have := residual_passes (rate := c.rate) (l := ⟨List.replicate dim 0, r.bias⟩) hlen hp k
      rw [h0, e2] at this
      rw [e2]
      exact this
  · rcases e3 with h | h
    · exact absurd h (hnever steps)
    · simp at h

example : (2 : ℚ) ≤ 1 / 2 * sqLength 1 [2] ∧ (1 / 10000000 : ℚ) < (3 - 0) ^ 2 / 2 := by
  constructor
  · decide +kernel
  · norm_num

/-- **C99 refuted** (settling on a wrong function).  For every single sample with `rate * |x|² = 1` the cost does not
change, so training settles after two passes with the residual it began with. -/
theorem C99_oscillates_refuted (c : LCfg K) (dim : Nat) (p : Sample K) (hp : p.x.length = dim) (r : Regressor K)
    (hq : c.rate * sqLength dim p.x = 1) (h0e : 0 ≤ c.eps) (heps : c.eps < (p.y - r.bias) ^ 2 / 2) (hmax : 2 ≤ c.maxIt) :
    ∃ (r' : Regressor K) (cost : K),
      lmsTrain c (fun _ => false) dim [p] r = .ok (true, r', 1, cost) ∧
      residualOf dim ⟨r'.w, r'.bias⟩ p = p.y - r.bias := by
  obtain ⟨k, steps, cost, hrun, hk, hgo, hend⟩ := C98_rule_partial c (fun _ => false) dim [p] (by simpa using hp) r
  have hlen : (List.replicate dim (0 : K)).length = dim := by simp
  have h0 : residualOf dim ⟨List.replicate dim 0, r.bias⟩ p = p.y - r.bias := by
    rw [residualOf, affine, Perc.ip_zero _ _ _ (by simp)]
    simp
  have hcost : ∀ j, passCost dim c.rate 1 [p] ⟨List.replicate dim 0, r.bias⟩ j = (p.y - r.bias) ^ 2 / 2 := by
    intro j
    rw [cost_one hlen hp, h0, hq]
    simp
  have hset1 : |passCost dim c.rate 1 [p] ⟨List.replicate dim 0, r.bias⟩ 1 - (if 1 = 0 then 0 else
      passCost dim c.rate 1 [p] ⟨List.replicate dim 0, r.bias⟩ (1 - 1))| ≤ c.eps := by
    rw [hcost, hcost]
    simpa using h0e
  have hset0 : ¬ |passCost dim c.rate 1 [p] ⟨List.replicate dim 0, r.bias⟩ 0 - (if 0 = 0 then 0 else
      passCost dim c.rate 1 [p] ⟨List.replicate dim 0, r.bias⟩ (0 - 1))| ≤ c.eps := by
    rw [hcost]
    simp only [if_true, sub_zero, not_le]
    rwa [abs_of_nonneg (div_nonneg (sq_nonneg _) (by norm_num))]
  rcases hend with ⟨e1, e2, e3⟩ | ⟨e1, e3⟩
  · exact absurd hset1 (e3 1 (by omega)).1
  · have hst : steps = 1 := by
      rcases Nat.lt_trichotomy steps 1 with h | h | h
      · obtain rfl : steps = 0 := by omega
        rcases e3 with h' | h'
        · exact absurd h' hset0
        · simp at h'
      · exact h
      · exact absurd hset1 (hgo 1 (by omega)).1
    subst hst
    obtain rfl : k = 2 := by omega
    refine ⟨_, cost, hrun, ?_⟩
    have := residual_passes (rate := c.rate) (l := ⟨List.replicate dim 0, r.bias⟩) hlen hp 2
    rw [hq, h0] at this
    rw [this]
    ring

example : (1 : ℚ) / 4 * sqLength 1 [2] = 1 := by decide +kernel

omit [IsStrictOrderedRing K] in
/-- **C100 (partial).**  When training ends before its last allowed pass and the time is never up, the costs of the last
two passes (0 before the first) differ by at most EPS. -/
theorem C100_settled_partial (c : LCfg K) (dim : Nat) (samples : List (Sample K))
    (hs : ∀ p ∈ samples, p.x.length = dim) (r r' : Regressor K) (ok : Bool) (steps : Nat) (cost : K)
    (h : lmsTrain c (fun _ => false) dim samples r = .ok (ok, r', steps, cost)) (hlt : steps < c.maxIt) :
    |passCost dim c.rate 1 samples ⟨List.replicate dim 0, r.bias⟩ steps -
      (if steps = 0 then 0 else passCost dim c.rate 1 samples ⟨List.replicate dim 0, r.bias⟩ (steps - 1))| ≤ c.eps := by
  obtain ⟨k, steps', cost', hrun, hk, hgo, hend⟩ := C98_rule_partial c (fun _ => false) dim samples hs r
  rw [hrun] at h
  simp only [Except.ok.injEq, Prod.mk.injEq] at h
  obtain ⟨_, _, rfl, _⟩ := h
  rcases hend with ⟨e1, _⟩ | ⟨e1, e3⟩
  · omega
  · rcases e3 with h | h
    · exact h
    · simp at h

example : ∃ x, lmsTrain (⟨1 / 2, 1 / 10, 50⟩ : LCfg ℚ) (fun _ => false) 1 [⟨[1], 1⟩] ⟨[0], 0, 0⟩ = .ok x ∧ x.2.2.1 < 50 :=
  ⟨(true, ⟨[3 / 8], 3 / 4, 3⟩, 2, 1 / 32), by decide +kernel, by decide +kernel⟩

omit [IsStrictOrderedRing K] in
/-- **C100 refuted.**  `train` answers `true` whatever happened, for all data and limits; in the cases of
`C99_diverges_refuted` after using up its passes without settling. -/
theorem C100_always_true_refuted (c : LCfg K) (late : Nat → Bool) (dim : Nat) (samples : List (Sample K)) (r : Regressor K)
    (ok : Bool) (r' : Regressor K × Nat × K) (h : lmsTrain c late dim samples r = .ok (ok, r')) : ok = true := by
  rw [lmsTrain] at h
  cases hl : lmsLoop c late dim samples c.maxIt 0 ⟨List.replicate dim 0, r.bias, r.ctot⟩ 0 with
  | error e => rw [hl] at h; simp at h
  | ok q =>
    rw [hl, Res_bind_ok, Res_pure] at h
    simp only [Except.ok.injEq, Prod.mk.injEq] at h
    exact h.1.symm

/-- **C100 refuted**, with the failure visible: the residual is 64 times the one at the start, and the answer is `true`. -/
theorem C100_diverged_refuted :
    ∃ x, lmsTrain (⟨1 / 2, 1 / 10000000, 6⟩ : LCfg ℚ) (fun _ => false) 1 [⟨[2], 1⟩] (lmsNew 1 none) = .ok (true, x) ∧
      residualOf 1 ⟨[0], 0⟩ (⟨[2], 1⟩ : Sample ℚ) = 1 ∧ residualOf 1 ⟨x.1.w, x.1.bias⟩ (⟨[2], 1⟩ : Sample ℚ) = 64 :=
  ⟨(⟨[-21], -21, 6⟩, 6, 512), by decide +kernel, by decide +kernel, by decide +kernel⟩

end

section
variable {K : Type} [Field K] [LinearOrder K]

/-- **C101 (partial).**  The slopes before training do not matter: two objects with the same intercept are trained alike. -/
theorem C101_same_intercept_partial (c : LCfg K) (late : Nat → Bool) (dim : Nat) (samples : List (Sample K))
    (r s : Regressor K) (hb : r.bias = s.bias) (hc : r.ctot = s.ctot) :
    lmsTrain c late dim samples r = lmsTrain c late dim samples s := by
  rw [lmsTrain, lmsTrain, hb, hc]

end

/-- **C101 refuted.**  Training the same object twice on the same samples gives two different functions: the intercept is
kept although the slopes are reset. -/
theorem C101_second_training_refuted :
    ∃ (c : LCfg ℚ) (samples : List (Sample ℚ)) (a b : Regressor ℚ) (x y : Nat × ℚ),
      lmsTrain c (fun _ => false) 1 samples (lmsNew 1 none) = .ok (true, a, x) ∧
      lmsTrain c (fun _ => false) 1 samples a = .ok (true, b, y) ∧ a.w ≠ b.w :=
  ⟨⟨1 / 2, 1 / 10000000, 2⟩, [⟨[1], 1⟩], ⟨[1 / 4], 1 / 2, 2⟩, ⟨[1 / 8], 3 / 4, 4⟩, (2, 1 / 8), (2, 1 / 32), by decide +kernel,
    by decide +kernel, by decide +kernel⟩

/-- **C101 refuted** for a given initial solution: its slopes are thrown away, so an exact initial solution is lost. -/
theorem C101_initial_solution_refuted :
    ∃ (c : LCfg ℚ) (samples : List (Sample ℚ)) (a : Regressor ℚ) (x : Nat × ℚ),
      Fits 1 ⟨[2], 1⟩ samples ∧
      lmsTrain c (fun _ => false) 1 samples (lmsNew 1 (some ([2], 1))) = .ok (true, a, x) ∧
      ¬ Fits 1 ⟨a.w, a.bias⟩ samples := by
  refine ⟨⟨1 / 2, 1 / 10000000, 3⟩, [⟨[1], 3⟩, ⟨[2], 5⟩], ⟨[15 / 4], 7 / 2, 6⟩, (3, 85 / 8), ?_, by decide +kernel, ?_⟩
  · intro p hp; revert p; decide +kernel
  · intro h
    have := h ⟨[1], 3⟩ (by simp)
    revert this
    decide +kernel

section
variable {K : Type} [Field K]

/-- **C102.**  For a point of the dimension of the slopes `evaluate` returns the value of the linear function, and 0 for
every other point. -/
theorem C102_evaluate (r : Regressor K) (x : List K) :
    (x.length = r.w.length → regrEvaluate r x = affine r.w.length r.w r.bias x) ∧
    (x.length ≠ r.w.length → regrEvaluate r x = 0) := by
  constructor
  · intro h
    rw [regrEvaluate, if_neg (by simpa using h), Perc.foldl_range_sum, affine, ip, add_comm]
  · intro h
    rw [regrEvaluate, if_pos h]

example : regrEvaluate ⟨[2, 3], 1, 0⟩ [1, (1 : ℚ)] = 6 ∧ regrEvaluate ⟨[2, 3], 1, 0⟩ [(1 : ℚ)] = 0 := by decide +kernel

end

section
variable {K : Type} [Field K] [LinearOrder K]

/-- **C102** after training: the values are those of the last function reached, on every point of the right dimension. -/
theorem C102_trained (c : LCfg K) (late : Nat → Bool) (dim : Nat) (samples : List (Sample K))
    (hs : ∀ p ∈ samples, p.x.length = dim) (r : Regressor K) :
    ∃ (k : Nat) (r' : Regressor K) (rest : Nat × K), lmsTrain c late dim samples r = .ok (true, r', rest) ∧
      ∀ x : List K, x.length = dim → regrEvaluate r' x =
        affine dim (afterPasses dim c.rate 1 samples ⟨List.replicate dim 0, r.bias⟩ k).w
          (afterPasses dim c.rate 1 samples ⟨List.replicate dim 0, r.bias⟩ k).b x := by
  obtain ⟨k, steps, cost, hrun, _⟩ := C98_rule_partial c late dim samples hs r
  refine ⟨k, _, _, hrun, fun x hx => ?_⟩
  have hl := afterPasses_length (rate := c.rate) (br := 1) samples hs ⟨List.replicate dim 0, r.bias⟩ (by simp) k
  have := (C102_evaluate (⟨(afterPasses dim c.rate 1 samples ⟨List.replicate dim 0, r.bias⟩ k).w,
    (afterPasses dim c.rate 1 samples ⟨List.replicate dim 0, r.bias⟩ k).b, r.ctot + k * samples.length⟩ : Regressor K) x).1
    (by rw [hx, hl])
  rw [this, hl]

end

section
variable {K : Type} [Field K] [LinearOrder K] [IsStrictOrderedRing K]

/-- **C103.**  The mean squared error of two points of the same positive number of components is the mean of the squared
differences; it is not negative, does not depend on the order of the arguments and is zero exactly for equal points.
Points of different sizes stop the program. -/
theorem C103_mse (a b : List K) (hne : a ≠ []) :
    (a.length = b.length → ∃ v, mse a b = .ok v ∧ mse b a = .ok v ∧
      v = (∑ i ∈ Finset.range a.length, (a.getD i 0 - b.getD i 0) ^ 2) / (a.length : K) ∧ 0 ≤ v ∧ (v = 0 ↔ a = b)) ∧
    (a.length ≠ b.length → mse a b = .error .assertFail) := by
  constructor
  · intro hl
    have hsum : ∀ a b : List K, a.length = b.length →
        PointM.psum (fun d => d ^ 2) (List.zipWith (· - ·) a b) =
          ∑ i ∈ Finset.range a.length, (a.getD i 0 - b.getD i 0) ^ 2 := by
      intro a b hl
      rw [PointM.psum, foldl_add_sum, zero_add]
      induction a generalizing b with
      | nil => simp
      | cons u a ih =>
        cases b with
        | nil => simp at hl
        | cons v b =>
          simp only [List.zipWith_cons_cons, List.map_cons, List.sum_cons, List.length_cons]
          rw [ih b (by simpa using hl), Finset.sum_range_succ', add_comm]
          simp
    have hlen : a.length ≠ 0 := by simpa using hne
    have hpos : (0 : K) < (a.length : K) := by exact_mod_cast Nat.pos_of_ne_zero hlen
    have h1 : mse a b = .ok ((∑ i ∈ Finset.range a.length, (a.getD i 0 - b.getD i 0) ^ 2) / (a.length : K)) := by
      rw [mse, if_neg (by simpa using hl), if_neg hlen, hsum a b hl]
    have h2 : mse b a = .ok ((∑ i ∈ Finset.range a.length, (a.getD i 0 - b.getD i 0) ^ 2) / (a.length : K)) := by
      rw [mse, if_neg (by simpa using hl.symm), if_neg (by omega), hsum b a hl.symm, ← hl]
      congr 2
      exact Finset.sum_congr rfl (fun i _ => by ring)
    refine ⟨_, h1, h2, rfl, div_nonneg (Finset.sum_nonneg (fun _ _ => sq_nonneg _)) hpos.le, ?_⟩
    rw [div_eq_zero_iff, or_iff_left (ne_of_gt hpos), Finset.sum_eq_zero_iff_of_nonneg (fun _ _ => sq_nonneg _)]
    constructor
    · intro h
      refine List.ext_getElem hl (fun i hi hi' => ?_)
      have := h i (Finset.mem_range.mpr hi)
      rw [sq_eq_zero_iff, sub_eq_zero] at this
      simpa [hi, hi'] using this
    · rintro rfl i _
      simp
  · intro hl
    rw [mse, if_pos hl]

example : mse [1, 2] [(3 : ℚ), 2] = .ok 2 := by decide +kernel

omit [LinearOrder K] [IsStrictOrderedRing K] in
/-- **C103** for empty points: the quotient 0/0 is not a number, so the claim needs at least one component. -/
theorem C103_empty : mse ([] : List K) [] = .error .nonFinite := by simp [mse]

end
end MLTK.Props
