import Mathlib.Tactic.Ring
import Mathlib.Tactic.Linarith
import Mathlib.Tactic.LinearCombination
import Mathlib.Algebra.Order.BigOperators.Ring.Finset
import Verif.Model.Regressor
import Verif.Spec.Regressor
import Verif.Lemmas.Util
import Verif.Lemmas.Perceptron
/-!
# Lemmas about the least mean squares trainer
-/
namespace MLTK.Regr
open MLTK.Perc MLTK.Spec
open MLTK.Data (Res_bind_ok Res_bind_error Res_pure)

section
variable {K : Type} [Field K]

theorem lmsValue_eq (dim : Nat) (w x : List K) (b : K) : lmsValue dim w x b = affine dim w b x := by
  rw [lmsValue, foldl_range_sum, affine, ip, add_comm]
  congr 1
  exact Finset.sum_congr rfl (fun j _ => mul_comm _ _)

theorem corrected_length {dim : Nat} {rate br : K} {l : Line K} {p : Sample K} (hw : l.w.length = dim)
    (hp : p.x.length = dim) : (correctedBy dim rate br l p).w.length = dim := by
  simp [correctedBy, hw, hp]

theorem lmsSample_ok {dim : Nat} {rate : K} {p : Sample K} (hp : p.x.length = dim) (s : LState K) (c : K)
    (hw : s.w.length = dim) :
    lmsSample dim rate (s, c) p =
      .ok (⟨(correctedBy dim rate 1 ⟨s.w, s.bias⟩ p).w, (correctedBy dim rate 1 ⟨s.w, s.bias⟩ p).b, s.ctot + 1⟩,
        c + residualOf dim ⟨s.w, s.bias⟩ p ^ 2) := by
  simp only [lmsSample]
  rw [if_neg (by omega), PointM.compound, if_pos (by rw [hw, hp]), Res_bind_ok, lmsValue_eq]
  simp only [correctedBy, residualOf, one_mul, sq]
  rfl

theorem lmsFold_ok {dim : Nat} {rate : K} (samples : List (Sample K)) (hs : ∀ p ∈ samples, p.x.length = dim)
    (l : Line K) (n : Nat) (c : K) (hw : l.w.length = dim) :
    samples.foldlM (lmsSample dim rate) (⟨l.w, l.b, n⟩, c) =
      .ok (⟨(afterPass dim rate 1 samples l).w, (afterPass dim rate 1 samples l).b, n + samples.length⟩,
        c + squaredErrors dim rate 1 samples l) := by
  induction samples generalizing l n c with
  | nil => simp [afterPass, squaredErrors, Res_pure]
  | cons p rest ih =>
    have hp := hs p (by simp)
    rw [List.foldlM_cons, lmsSample_ok hp _ _ hw, Res_bind_ok]
    rw [ih (fun q hq => hs q (by simp [hq])) (correctedBy dim rate 1 l p) (n+1) _ (corrected_length hw hp)]
    simp only [afterPass, squaredErrors, List.foldl_cons, List.length_cons]
    rw [show n + 1 + rest.length = n + (rest.length + 1) by omega, add_assoc]

theorem afterPass_length {dim : Nat} {rate br : K} (samples : List (Sample K)) (hs : ∀ p ∈ samples, p.x.length = dim)
    (l : Line K) (hw : l.w.length = dim) : (afterPass dim rate br samples l).w.length = dim := by
  unfold afterPass
  exact foldl_inv (fun l : Line K => l.w.length = dim) _ _ _ hw (fun p hp l hl => corrected_length hl (hs p hp))

theorem lmsPass_ok {dim : Nat} {rate : K} (samples : List (Sample K)) (hs : ∀ p ∈ samples, p.x.length = dim)
    (l : Line K) (n : Nat) (hw : l.w.length = dim) :
    lmsPass dim rate samples ⟨l.w, l.b, n⟩ =
      .ok (⟨(afterPass dim rate 1 samples l).w, (afterPass dim rate 1 samples l).b, n + samples.length⟩,
        squaredErrors dim rate 1 samples l / 2) := by
  rw [lmsPass, lmsFold_ok samples hs l n 0 hw, Res_bind_ok, Res_pure, zero_add]
  simp only [mul_one_div]

end

section
variable {K : Type} [Field K] [LinearOrder K]

/-- The cost remembered from the pass before pass `k`. -/
def costBefore (dim : Nat) (rate : K) (samples : List (Sample K)) (l : Line K) (k : Nat) : K :=
  if k = 0 then 0 else passCost dim rate 1 samples l (k - 1)

omit [LinearOrder K] in
theorem afterPasses_succ (dim : Nat) (rate br : K) (samples : List (Sample K)) (l : Line K) (k : Nat) :
    afterPasses dim rate br samples l (k + 1) = afterPass dim rate br samples (afterPasses dim rate br samples l k) := by
  rw [afterPasses, Function.iterate_succ_apply']
  rfl

omit [LinearOrder K] in
theorem afterPasses_length {dim : Nat} {rate br : K} (samples : List (Sample K))
    (hs : ∀ p ∈ samples, p.x.length = dim) (l : Line K) (hw : l.w.length = dim) (k : Nat) :
    (afterPasses dim rate br samples l k).w.length = dim := by
  induction k with
  | zero => exact hw
  | succ k ih => rw [afterPasses_succ]; exact afterPass_length samples hs _ ih

/-- How the training loop runs: it makes some number `k` of passes, stopping at the first one after which the
criterion or the clock says so. -/
theorem lmsLoop_run (c : LCfg K) (late : Nat → Bool) {dim : Nat} {samples : List (Sample K)}
    (hs : ∀ p ∈ samples, p.x.length = dim) (l : Line K) (hw : l.w.length = dim) (c0 : Nat) (n done : Nat) :
    ∃ k, done ≤ k ∧ k ≤ done + n ∧
      (∀ j, done ≤ j → j + 1 < k →
        c.eps < |passCost dim c.rate 1 samples l j - costBefore dim c.rate samples l j| ∧ late j = false) ∧
      ∃ steps cost, lmsLoop c late dim samples n done
          ⟨(afterPasses dim c.rate 1 samples l done).w, (afterPasses dim c.rate 1 samples l done).b,
            c0 + done * samples.length⟩ (costBefore dim c.rate samples l done) =
        .ok (⟨(afterPasses dim c.rate 1 samples l k).w, (afterPasses dim c.rate 1 samples l k).b,
            c0 + k * samples.length⟩, steps, cost) ∧
        cost = costBefore dim c.rate samples l k ∧
        ((steps = k ∧ k = done + n ∧ ∀ j, done ≤ j → j < k →
            c.eps < |passCost dim c.rate 1 samples l j - costBefore dim c.rate samples l j| ∧ late j = false) ∨
          (steps + 1 = k ∧ done ≤ steps ∧
            (|passCost dim c.rate 1 samples l steps - costBefore dim c.rate samples l steps| ≤ c.eps ∨
              late steps = true))) := by
  induction n generalizing done with
  | zero =>
    exact ⟨done, le_refl _, by omega, fun j h1 h2 => by omega, done, _, rfl, rfl, .inl ⟨rfl, rfl, fun j h1 h2 => by omega⟩⟩
  | succ n ih =>
    have hpass := lmsPass_ok (rate := c.rate) samples hs (afterPasses dim c.rate 1 samples l done)
      (c0 + done * samples.length) (afterPasses_length samples hs l hw done)
    have hcost : squaredErrors dim c.rate 1 samples (afterPasses dim c.rate 1 samples l done) / 2
        = passCost dim c.rate 1 samples l done := rfl
    have hnext : costBefore dim c.rate samples l (done + 1) = passCost dim c.rate 1 samples l done := by
      simp [costBefore]
    rw [hcost, ← afterPasses_succ,
      show c0 + done * samples.length + samples.length = c0 + (done + 1) * samples.length by ring] at hpass
    rw [lmsLoop, hpass, Res_bind_ok]
    by_cases h1 : |passCost dim c.rate 1 samples l done - costBefore dim c.rate samples l done| ≤ c.eps
    · exact ⟨done + 1, by omega, by omega, fun j _ _ => by omega, done, _, by simp only [h1, if_true], hnext.symm,
        .inr ⟨rfl, le_refl _, .inl h1⟩⟩
    · by_cases h2 : late done = true
      · exact ⟨done + 1, by omega, by omega, fun j _ _ => by omega, done, _, by simp only [h1, h2, if_true, if_false],
          hnext.symm, .inr ⟨rfl, le_refl _, .inr h2⟩⟩
      · have hgo : ∀ j, done ≤ j → j < done + 1 →
            c.eps < |passCost dim c.rate 1 samples l j - costBefore dim c.rate samples l j| ∧ late j = false := by
          intro j ha hb
          obtain rfl : j = done := by omega
          exact ⟨not_le.mp h1, by simpa using h2⟩
        obtain ⟨k, hk1, hk2, hk3, steps, cost, hrun, hc, hend⟩ := ih (done + 1)
        refine ⟨k, by omega, by omega, ?_, steps, cost, ?_, hc, ?_⟩
        · intro j ha hb
          by_cases hj : j = done
          · exact hgo j ha (by omega)
          · exact hk3 j (by omega) hb
        · simp only [h1, h2, if_false]
          rw [← hnext]
          exact hrun
        · rcases hend with ⟨e1, e2, e3⟩ | ⟨e1, e2, e3⟩
          · refine .inl ⟨e1, by omega, fun j ha hb => ?_⟩
            by_cases hj : j = done
            · exact hgo j ha (by omega)
            · exact e3 j (by omega) hb
          · exact .inr ⟨e1, by omega, e3⟩

end

section
variable {K : Type} [Field K]

/-- The effect of a correction on the distance to an exact solution. -/
theorem dist_corrected {dim : Nat} {rate : K} {l t : Line K} {p : Sample K} (hw : l.w.length = dim)
    (hp : p.x.length = dim) (hfit : affine dim t.w t.b p.x = p.y) :
    lineDist dim rate (correctedBy dim rate 1 l p) t =
      lineDist dim rate l t - rate * (1 - rate * sqLength dim p.x) * residualOf dim l p ^ 2 := by
  have hr : residualOf dim l p = ∑ j ∈ Finset.range dim, (t.w.getD j 0 - l.w.getD j 0) * p.x.getD j 0 + (t.b - l.b) := by
    rw [residualOf, ← hfit, affine, affine, ip, ip]
    simp only [sub_mul, Finset.sum_sub_distrib]
    ring
  have hget : ∀ j ∈ Finset.range dim, (correctedBy dim rate 1 l p).w.getD j 0 =
      l.w.getD j 0 + rate * residualOf dim l p * p.x.getD j 0 := by
    intro j hj
    have hj' := Finset.mem_range.mp hj
    have h1 : j < l.w.length := by omega
    have h2 : j < p.x.length := by omega
    simp [correctedBy, h1, h2]
  have hsum : ∑ j ∈ Finset.range dim, ((correctedBy dim rate 1 l p).w.getD j 0 - t.w.getD j 0) ^ 2 =
      ∑ j ∈ Finset.range dim, (l.w.getD j 0 - t.w.getD j 0) ^ 2
        - 2 * (rate * residualOf dim l p) * ∑ j ∈ Finset.range dim, (t.w.getD j 0 - l.w.getD j 0) * p.x.getD j 0
        + (rate * residualOf dim l p) ^ 2 * sqLength dim p.x := by
    rw [sqLength, Finset.mul_sum, Finset.mul_sum, ← Finset.sum_sub_distrib, ← Finset.sum_add_distrib]
    refine Finset.sum_congr rfl (fun j hj => ?_)
    rw [hget j hj]
    ring
  rw [lineDist, hsum, lineDist]
  have hb : (correctedBy dim rate 1 l p).b = l.b + residualOf dim l p := by simp [correctedBy]
  rw [hb]
  linear_combination (-2 * rate * residualOf dim l p) * (eq_sub_of_add_eq hr.symm)

end

section
variable {K : Type} [Field K] [LinearOrder K] [IsStrictOrderedRing K]

theorem squaredErrors_nonneg (dim : Nat) (rate br : K) (samples : List (Sample K)) (l : Line K) :
    0 ≤ squaredErrors dim rate br samples l := by
  induction samples generalizing l with
  | nil => exact le_refl _
  | cons p rest ih => exact add_nonneg (sq_nonneg _) (ih _)

theorem dist_afterPass {dim : Nat} {rate rho : K} (hr : 0 ≤ rate) (samples : List (Sample K))
    (hs : ∀ p ∈ samples, p.x.length = dim) (hn : ∀ p ∈ samples, rate * sqLength dim p.x ≤ rho) {t : Line K}
    (hfit : Fits dim t samples) (l : Line K) (hw : l.w.length = dim) :
    lineDist dim rate (afterPass dim rate 1 samples l) t + rate * (1 - rho) * squaredErrors dim rate 1 samples l
      ≤ lineDist dim rate l t := by
  induction samples generalizing l with
  | nil => simp [afterPass, squaredErrors]
  | cons p rest ih =>
    have hp := hs p (by simp)
    have h1 := dist_corrected (rate := rate) hw hp (hfit p (by simp))
    have h2 := ih (fun q hq => hs q (by simp [hq])) (fun q hq => hn q (by simp [hq])) (fun q hq => hfit q (by simp [hq]))
      (correctedBy dim rate 1 l p) (corrected_length hw hp)
    have h3 : rate * (1 - rho) * residualOf dim l p ^ 2 ≤
        rate * (1 - rate * sqLength dim p.x) * residualOf dim l p ^ 2 := by
      refine mul_le_mul_of_nonneg_right (mul_le_mul_of_nonneg_left ?_ hr) (sq_nonneg _)
      linarith [hn p (by simp)]
    simp only [afterPass, squaredErrors, List.foldl_cons] at h2 ⊢
    rw [mul_add]
    linarith

theorem dist_afterPasses {dim : Nat} {rate rho : K} (hr : 0 ≤ rate) (samples : List (Sample K))
    (hs : ∀ p ∈ samples, p.x.length = dim) (hn : ∀ p ∈ samples, rate * sqLength dim p.x ≤ rho) {t : Line K}
    (hfit : Fits dim t samples) (l : Line K) (hw : l.w.length = dim) (k : Nat) :
    lineDist dim rate (afterPasses dim rate 1 samples l (k + 1)) t + 2 * (rate * (1 - rho)) * passCost dim rate 1 samples l k
      ≤ lineDist dim rate (afterPasses dim rate 1 samples l k) t := by
  have h := dist_afterPass hr samples hs hn hfit (afterPasses dim rate 1 samples l k)
    (afterPasses_length samples hs l hw k)
  rw [afterPasses_succ, passCost]
  have e : 2 * (rate * (1 - rho)) * (squaredErrors dim rate 1 samples (afterPasses dim rate 1 samples l k) / 2) =
      rate * (1 - rho) * squaredErrors dim rate 1 samples (afterPasses dim rate 1 samples l k) := by ring
  rw [e]
  exact h

/-- While the criterion is not met the distance, with half the last cost added, falls by a fixed amount. -/
theorem passes_bound {dim : Nat} {rate rho eps : K} (hr : 0 ≤ rate) (hrho : rho ≤ 1) (samples : List (Sample K))
    (hs : ∀ p ∈ samples, p.x.length = dim) (hn : ∀ p ∈ samples, rate * sqLength dim p.x ≤ rho) {t : Line K}
    (hfit : Fits dim t samples) (l : Line K) (hw : l.w.length = dim) (k : Nat)
    (hgo : ∀ j < k, eps < |passCost dim rate 1 samples l j - costBefore dim rate samples l j|) :
    lineDist dim rate (afterPasses dim rate 1 samples l k) t + rate * (1 - rho) * costBefore dim rate samples l k
      + (k : K) * (rate * (1 - rho) * eps) ≤ lineDist dim rate l t := by
  have hc : 0 ≤ rate * (1 - rho) := mul_nonneg hr (by linarith)
  have hpc : ∀ j, 0 ≤ passCost dim rate 1 samples l j := fun j => div_nonneg (squaredErrors_nonneg _ _ _ _ _) (by norm_num)
  have hcb : ∀ j, 0 ≤ costBefore dim rate samples l j := by
    intro j
    unfold costBefore
    split
    · exact le_refl _
    · exact hpc _
  induction k with
  | zero => simp [costBefore, afterPasses]
  | succ k ih =>
    have h1 := ih (fun j hj => hgo j (by omega))
    have h2 := dist_afterPasses hr samples hs hn hfit l hw k
    have h3 : eps ≤ passCost dim rate 1 samples l k + costBefore dim rate samples l k := by
      have := hgo k (by omega)
      have := abs_sub_le_of_nonneg_of_le (hpc k) (show passCost dim rate 1 samples l k ≤
        passCost dim rate 1 samples l k + costBefore dim rate samples l k by linarith [hcb k]) (hcb k)
        (show costBefore dim rate samples l k ≤ passCost dim rate 1 samples l k + costBefore dim rate samples l k by
          linarith [hpc k])
      linarith
    have h4 := mul_le_mul_of_nonneg_left h3 hc
    have e : costBefore dim rate samples l (k + 1) = passCost dim rate 1 samples l k := by simp [costBefore]
    rw [e]
    push_cast
    nlinarith

theorem dist_mono {dim : Nat} {rate rho : K} (hr : 0 ≤ rate) (hrho : rho ≤ 1) (samples : List (Sample K))
    (hs : ∀ p ∈ samples, p.x.length = dim) (hn : ∀ p ∈ samples, rate * sqLength dim p.x ≤ rho) {t : Line K}
    (hfit : Fits dim t samples) (l : Line K) (hw : l.w.length = dim) (k : Nat) :
    lineDist dim rate (afterPasses dim rate 1 samples l k) t ≤ lineDist dim rate l t := by
  induction k with
  | zero => exact le_refl _
  | succ k ih =>
    have h := dist_afterPasses hr samples hs hn hfit l hw k
    have hc : 0 ≤ 2 * (rate * (1 - rho)) * passCost dim rate 1 samples l k :=
      mul_nonneg (by have := mul_nonneg hr (show 0 ≤ 1 - rho by linarith); linarith)
        (div_nonneg (squaredErrors_nonneg _ _ _ _ _) (by norm_num))
    linarith

/-! ### one sample -/

omit [LinearOrder K] [IsStrictOrderedRing K] in
/-- On the sample it was made for, a correction multiplies the residual by `- rate * |x|²`. -/
theorem residual_corrected {dim : Nat} {rate : K} {l : Line K} {p : Sample K} (hw : l.w.length = dim)
    (hp : p.x.length = dim) :
    residualOf dim (correctedBy dim rate 1 l p) p = -(rate * sqLength dim p.x) * residualOf dim l p := by
  have hget : ∀ j ∈ Finset.range dim, (correctedBy dim rate 1 l p).w.getD j 0 * p.x.getD j 0 =
      l.w.getD j 0 * p.x.getD j 0 + rate * residualOf dim l p * p.x.getD j 0 ^ 2 := by
    intro j hj
    have hj' := Finset.mem_range.mp hj
    have h1 : j < l.w.length := by omega
    have h2 : j < p.x.length := by omega
    simp [correctedBy, h1, h2]
    ring
  have hb : (correctedBy dim rate 1 l p).b = l.b + residualOf dim l p := by simp [correctedBy]
  have h : ip dim (correctedBy dim rate 1 l p).w p.x = ip dim l.w p.x + rate * residualOf dim l p * sqLength dim p.x := by
    rw [ip, Finset.sum_congr rfl hget, Finset.sum_add_distrib, ← Finset.mul_sum]
    rfl
  have hres : residualOf dim l p = p.y - (ip dim l.w p.x + l.b) := rfl
  rw [residualOf, affine, h, hb]
  linear_combination (-1 : K) * hres

omit [LinearOrder K] [IsStrictOrderedRing K] in
theorem residual_passes {dim : Nat} {rate : K} {l : Line K} {p : Sample K} (hw : l.w.length = dim)
    (hp : p.x.length = dim) (k : Nat) :
    residualOf dim (afterPasses dim rate 1 [p] l k) p = (-(rate * sqLength dim p.x)) ^ k * residualOf dim l p := by
  induction k with
  | zero => simp [afterPasses]
  | succ k ih =>
    rw [afterPasses_succ]
    have hl := afterPasses_length (rate := rate) (br := 1) [p] (by simpa using hp) l hw k
    rw [show afterPass dim rate 1 [p] (afterPasses dim rate 1 [p] l k)
      = correctedBy dim rate 1 (afterPasses dim rate 1 [p] l k) p from rfl, residual_corrected hl hp, ih]
    ring

omit [LinearOrder K] [IsStrictOrderedRing K] in
theorem cost_one {dim : Nat} {rate : K} {l : Line K} {p : Sample K} (hw : l.w.length = dim)
    (hp : p.x.length = dim) (k : Nat) :
    passCost dim rate 1 [p] l k = ((rate * sqLength dim p.x) ^ 2) ^ k * (residualOf dim l p ^ 2 / 2) := by
  rw [passCost]
  simp only [squaredErrors, add_zero]
  rw [residual_passes hw hp, mul_pow, ← pow_mul, mul_comm k 2, pow_mul, neg_sq]
  ring

end
end MLTK.Regr
