import Verif.Props.Perceptron
import Verif.Props.IMA
/-!
# C207: what a fixed-margin perceptron answers for the samples it was trained on
-/
namespace MLTK.Props
open MLTK MLTK.Perc MLTK.Spec

section
variable {K : Type} [Field K] [LinearOrder K] [IsStrictOrderedRing K]

theorem infFold_keeps (c : FCfg K) (p : Sample K) (norm largw : K) (n : Nat) (l : List Nat) :
    ∀ a : InfAcc K, 0 ≤ a.temp →
      0 ≤ (l.foldl (infStep c p norm largw n) a).temp ∧ (l.foldl (infStep c p norm largw n) a).w.length = a.w.length := by
  induction l with
  | nil => intro a h; exact ⟨h, rfl⟩
  | cons j l ih =>
    intro a h
    have hstep : 0 ≤ (infStep c p norm largw n a j).temp ∧ (infStep c p norm largw n a j).w.length = a.w.length := by
      simp only [infStep]
      split_ifs <;> simp [h]
    have := ih (infStep c p norm largw n a j) hstep.1
    exact ⟨this.1, this.2.trans hstep.2⟩

/-- An update keeps the norm non-negative and the number of weights. -/
theorem fmUpdate_keeps (m : Libm K) (hr : ∀ x, 0 ≤ x → 0 ≤ m.sqrt x) (hpw : ∀ x y, 0 ≤ x → 0 ≤ m.pow x y) (c : FCfg K) (dim : Nat) (p : Sample K) (i idx e : Nat) (s : FState K) :
    0 ≤ (fmUpdate m c dim p i idx e s).norm ∧ (fmUpdate m c dim p i idx e s).w.length = s.w.length := by
  simp only [fmUpdate, fmWeights]
  cases c.q with
  | one =>
    refine ⟨?_, by simp [updTo]⟩
    simp only [sumTo_eq]
    exact Finset.sum_nonneg fun _ _ => abs_nonneg _
  | two =>
    refine ⟨?_, by simp [updTo]⟩
    simp only [sumTo_eq]
    exact hr _ (Finset.sum_nonneg fun _ _ => mul_self_nonneg _)
  | inf => exact infFold_keeps c p _ _ _ _ _ (abs_nonneg _)
  | other q =>
    refine ⟨?_, by simp [updTo]⟩
    simp only [sumTo_eq]
    exact hpw _ _ (Finset.sum_nonneg fun _ _ => hpw _ _ (abs_nonneg _))

/-- **C207.** After a successful training without flexibility every sample is answered by its label, provided the
margin in the solution (0 unless an initial solution brought one; training does not set it) is at most the margin
trained for.  The library's `sqrt` and `pow` enter only by their sign. -/
theorem C207_labels_partial (m : Libm K) (hr : ∀ x, 0 ≤ x → 0 ≤ m.sqrt x) (hpw : ∀ x y, 0 ≤ x → 0 ≤ m.pow x y)
    (c : FCfg K) (clock : Nat → Bool) (dim : Nat) (samples : List (Sample K)) (s0 s : FState K) (margin : K) (hperm : s0.index.Perm (List.range samples.length)) (hc : clock 0 = true)
    (hflex : c.flexible = 0) (hm : |margin| ≤ c.gamma) (hn : 0 ≤ s0.norm) (hw : s0.w = [] ∨ s0.w.length = dim)
    (hl : ∀ p ∈ samples, p.y = 1 ∨ p.y = -1) (hd : ∀ p ∈ samples, p.x.length = dim)
    (h : fmTrain m c clock dim samples s0 = .ok (true, s)) :
    ∀ p ∈ samples, ((fmEvaluate s.w p.x s.bias margin s.norm : Int) : K) = p.y := by
  have hmar := (C38_margin_partial m c clock dim samples s0 s hperm hc h).2
  have hkeep : 0 ≤ s.norm ∧ s.w.length = dim := by
    have h' := fmTrain_inv h
    have hpass : ∀ s : FState K, (s.index.Perm (List.range samples.length) ∧ 0 ≤ s.norm ∧ s.w.length = dim) →
        ((fmPass m c dim samples s).1.index.Perm (List.range samples.length) ∧
          0 ≤ (fmPass m c dim samples s).1.norm ∧ (fmPass m c dim samples s).1.w.length = dim) := by
      intro s hs
      have := fmScan_inv m c dim samples (fun s => 0 ≤ s.norm ∧ s.w.length = dim)
        (fun s p i idx e hs => ⟨(fmUpdate_keeps m hr hpw c dim p i idx e s).1, (fmUpdate_keeps m hr hpw c dim p i idx e s).2.trans hs.2⟩)
        samples.length 0 s 0 hs.2 (le_refl _) (by rw [hs.1.length_eq]; simp)
      simp only [fmPass, List.range_eq_range'] at this ⊢
      exact ⟨this.2.trans (by rw [← List.range_eq_range']; exact hs.1), this.1⟩
    obtain ⟨s1, hP, hs1⟩ := epochs_last (fmPass m c dim samples)
      (fun s => s.steps > c.maxIt ∨ s.ctot > c.maxUp) clock
      (fun s => s.index.Perm (List.range samples.length) ∧ 0 ≤ s.norm ∧ s.w.length = dim) (fun s hs _ => hpass s hs)
      (c.maxIt + 1 - s0.steps) 0
      { s0 with w := if s0.w = [] then List.replicate dim 0 else s0.w, s := 0, largw := 0, n := dim } 0
      ⟨hperm, hn, by
        rcases hw with hw | hw
        · simp [hw]
        · split <;> simp_all⟩ hc
    rw [← (h' _ hs1).2]
    exact (hpass s1 hP).2
  intro p hp
  obtain ⟨i, hi, rfl⟩ := List.mem_iff_getElem.1 hp
  have h1 := hmar i hi
  rw [hflex, mul_zero, sub_zero] at h1
  have h2 : |margin * s.norm| ≤ c.gamma * s.norm := by
    rw [abs_mul, abs_of_nonneg hkeep.1]
    exact mul_le_mul_of_nonneg_right hm hkeep.1
  have h3 := abs_le.1 h2
  unfold fmEvaluate
  rw [if_neg (by rw [hd _ hp, hkeep.2]; simp), decision_eq, hkeep.2]
  rcases hl _ hp with hy | hy
  · rw [hy, one_mul] at h1
    rw [if_pos (by linarith : affine dim s.w s.bias samples[i].x ≥ margin * s.norm), hy]
    norm_num
  · rw [hy] at h1
    rw [if_neg (by push Not; linarith : ¬ affine dim s.w s.bias samples[i].x ≥ margin * s.norm), hy]
    norm_num

end

/-- The real `sqrt` and `pow` meet the assumptions of `C207_labels_partial`. -/
example : (∀ x : ℝ, 0 ≤ x → 0 ≤ realLibm.sqrt x) ∧ (∀ x y : ℝ, 0 ≤ x → 0 ≤ realLibm.pow x y) :=
  ⟨fun x _ => Real.sqrt_nonneg x, fun _ y h => Real.rpow_nonneg h y⟩

/-- **C207, negation for initial solutions.** The margin of an initial solution stays in the answers: two separable
samples, training reports success, and the positive one is answered -1. -/
theorem C207_initial_margin_refuted : ∃ s : FState ℚ,
    fmTrain dummyLibm ⟨1, 0, 0, 1/1000, .one, 100, 100⟩ (fun _ => true) 1 [⟨[1], 1⟩, ⟨[-1], -1⟩]
      ⟨[], 0, 0, [0, 0], [0, 1], 0, 0, 0, 0, 0⟩ = .ok (true, s) ∧
    fmEvaluate s.w [1] s.bias 3 s.norm = -1 := by
  exact ok_of_check _ (by decide +kernel)

/-- **C207, negation with flexibility.** Training may report success with samples on the wrong side: they are paid for
by their multipliers. -/
theorem C207_flexible_refuted : ∃ s : FState ℚ,
    fmTrain dummyLibm ⟨1, 0, 10, 1/1000, .one, 100, 100⟩ (fun _ => true) 1 [⟨[1], 1⟩, ⟨[2], -1⟩]
      ⟨[], 0, 0, [0, 0], [0, 1], 0, 0, 0, 0, 0⟩ = .ok (true, s) ∧
    (fmEvaluate s.w [1] s.bias 0 s.norm ≠ 1 ∨ fmEvaluate s.w [2] s.bias 0 s.norm ≠ -1) := by
  exact ok_of_check _ (by decide +kernel)

/-- A fresh solution meets the hypotheses on the start, and such a run exists. -/
example : ∃ s : FState ℚ,
    fmTrain dummyLibm ⟨1, 1/4, 0, 1/1000, .one, 100, 100⟩ (fun _ => true) 1 [⟨[1], 1⟩, ⟨[-1], -1⟩]
      ⟨[], 0, 0, [0, 0], [0, 1], 0, 0, 0, 0, 0⟩ = .ok (true, s) ∧
    fmEvaluate s.w [1] s.bias 0 s.norm = 1 ∧ fmEvaluate s.w [-1] s.bias 0 s.norm = -1 := by
  exact ok_of_check _ (by decide +kernel)

end MLTK.Props
