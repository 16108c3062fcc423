import Mathlib.Algebra.Order.Field.Rat
import Mathlib.Tactic.Ring
import Verif.Spec.Lifecycle
import Verif.Props.Perceptron
/-!
# C153, C154, C157: copies of classifiers, solutions, training again
-/
namespace MLTK.Props
open MLTK.Life MLTK.Perc MLTK.Spec

section
variable {K : Type} [Field K] [LinearOrder K]

/-! ## C153 -/

/-- **C153 (settings)** A copy has the samples, parameters and counters of the original. -/
theorem C153_settings_partial (o : Primal K) : SameSettings o.copy o :=
  ⟨rfl, rfl, ⟨rfl, rfl⟩, ⟨rfl, rfl⟩, ⟨rfl, rfl⟩, ⟨rfl, rfl, rfl⟩, rfl, rfl, rfl, rfl, ⟨rfl, rfl⟩, rfl, rfl⟩

/-- **C153 (untrained)** A copy of a classifier without solution answers like it, and training it on the same clock
reports and learns what training the original does. -/
theorem C153_untrained_partial (m : Libm K) (clock : Nat → Bool) (o : Primal K) (h : o.cls.sol = Sol.new) :
    AnswersAlike o.copy o ∧
    (∀ ok t, o.train m clock = .ok (ok, t) →
      ∃ t', o.copy.train m clock = .ok (ok, t') ∧ outcome t' = outcome t ∧ AnswersAlike t' t) := by
  constructor
  · intro x
    simp [Primal.evaluate, Primal.copy, Classifier.copy, Classifier.new, h]
  · intro ok t ht
    have hs : o.copy.start = o.start := by
      simp [Primal.start, Primal.copy, Classifier.copy, Classifier.new, Learner.copy, h]
    unfold Primal.train at ht ⊢
    have hb : o.copy.cls.base.samples = o.cls.base.samples := rfl
    rw [hb, hs]
    cases hd : o.cls.base.samples with
    | none => rw [hd] at ht; cases ht
    | some d =>
      rw [hd] at ht
      simp only at ht ⊢
      have he : (⟨o.copy.cls.base.rate, o.copy.cls.base.maxIt, o.copy.cls.base.maxUp⟩ : Cfg K) =
          ⟨o.cls.base.rate, o.cls.base.maxIt, o.cls.base.maxUp⟩ := rfl
      rw [he]
      cases hr : primalTrain m ⟨o.cls.base.rate, o.cls.base.maxIt, o.cls.base.maxUp⟩ clock d.dim d.samples d.index
          o.start with
      | error e => rw [hr] at ht; cases ht
      | ok r =>
        rw [hr] at ht
        cases ht
        exact ⟨_, rfl, rfl, fun x => rfl⟩

/-- **C153 refuted.**  A copy of a trained classifier has lost what was learnt: wherever the original decides, the copy
answers 0, which is no class. -/
theorem C153_refuted (o : Primal K) (x : List K) (hx : x ≠ []) (hd : x.length = o.cls.sol.w.length) :
    o.copy.evaluate x = 0 ∧ (o.evaluate x = 1 ∨ o.evaluate x = -1) := by
  constructor
  · show primalEvaluate [] x _ = 0
    simp [primalEvaluate, hx]
  · simp only [Primal.evaluate, primalEvaluate, hd, ne_eq, not_true_eq_false, if_false]
    split <;> simp

/-- **C153 (dual, settings and training)** A copy of a dual classifier has its samples, parameters, counters and multipliers,
and training a copy of one without solution reports and learns what training the original does. -/
theorem C153_dual_partial (m : Libm K) (clock : Nat → Bool) (kv : Nat → Nat → K) (o : Dual K) :
    o.copy.alpha = o.alpha ∧ o.copy.initial = o.initial ∧
    SameSettings { (Primal.new : Primal K) with cls := o.copy.cls } { (Primal.new : Primal K) with cls := o.cls } ∧
    (o.cls.sol = Sol.new → ∀ ok t, o.train m clock kv = .ok (ok, t) →
      ∃ t', o.copy.train m clock kv = .ok (ok, t') ∧ t'.alpha = t.alpha ∧ t'.cls.sol = t.cls.sol ∧
        t'.cls.base.steps = t.cls.base.steps ∧ t'.cls.base.ctot = t.cls.base.ctot ∧
        ∀ x k, t'.evaluate x k = t.evaluate x k) := by
  refine ⟨rfl, rfl,
    ⟨rfl, rfl, ⟨rfl, rfl⟩, ⟨rfl, rfl⟩, ⟨rfl, rfl⟩, ⟨rfl, rfl, rfl⟩, rfl, rfl, rfl, rfl, ⟨rfl, rfl⟩, rfl, rfl⟩, ?_⟩
  intro h ok t ht
  have hs : o.copy.start = o.start := by
    simp [Dual.start, Dual.copy, Classifier.copy, Classifier.new, Learner.copy, h]
  have hl : o.copy.cls.sol = o.cls.sol := h.symm
  unfold Dual.train at ht ⊢
  have hb : o.copy.cls.base.samples = o.cls.base.samples := rfl
  have hi : o.copy.initial = o.initial := rfl
  rw [hb, hs]
  cases hd : o.cls.base.samples with
  | none => rw [hd] at ht; cases ht
  | some d =>
    rw [hd] at ht
    simp only at ht ⊢
    have he : (⟨o.copy.cls.base.rate, o.copy.cls.base.maxIt, o.copy.cls.base.maxUp⟩ : Cfg K) =
        ⟨o.cls.base.rate, o.cls.base.maxIt, o.cls.base.maxUp⟩ := rfl
    rw [he]
    cases hr : dualTrain m ⟨o.cls.base.rate, o.cls.base.maxIt, o.cls.base.maxUp⟩ clock kv d.dim d.samples o.start with
    | error e => rw [hr] at ht; cases ht
    | ok r =>
      obtain ⟨b, s', w⟩ := r
      rw [hr] at ht
      cases ht
      have e : (o.copy.finish d s').cls.sol = (o.finish d s').cls.sol := by simp only [Dual.finish, hl, hi]
      refine ⟨_, rfl, rfl, e, rfl, rfl, fun x k => ?_⟩
      have e2 : (o.copy.finish d s').cls.base.samples = (o.finish d s').cls.base.samples := rfl
      rw [Dual.evaluate, Dual.evaluate, e2, e]

/-- **C153 refuted** for dual classifiers: evaluating a copy reads a multiplier that does not exist, whatever point of
the right dimension is asked about. -/
theorem C153_dual_refuted (o : Dual K) (d : DS K) (x : List K) (k : Nat → K) (hs : o.cls.base.samples = some d)
    (hne : d.samples ≠ []) (hx : x.length = d.dim) : o.copy.evaluate x k = .error .outOfBounds := by
  have : o.copy.cls.base.samples = some d := hs
  unfold Dual.evaluate
  rw [this]
  have hl : 0 < d.samples.length := List.length_pos_iff.2 hne
  simp [dualEvaluate, hx, Dual.copy, Classifier.copy, Classifier.new, Sol.new, hl]

theorem pointAssign_eq (x b : List K) : pointAssign x b = b ++ x.drop b.length := rfl

theorem pointAssign_of_le {x b : List K} (h : x.length ≤ b.length) : pointAssign x b = b := by
  rw [pointAssign_eq, List.drop_eq_nil_of_le h, List.append_nil]

/-- **C153 (assignment)** A classifier assigned from another one of at least its own dimension answers like it and has
its settings. -/
theorem C153_assignment_partial (a b : Primal K) (h : a.cls.sol.w.length ≤ b.cls.sol.w.length) :
    AnswersAlike (a.assign b) b ∧ SameSettings (a.assign b) b := by
  refine ⟨fun x => ?_, ⟨rfl, rfl, ⟨rfl, rfl⟩, ⟨rfl, rfl⟩, ⟨rfl, rfl⟩, ⟨rfl, rfl, rfl⟩, rfl, rfl, rfl, rfl, ⟨rfl, rfl⟩, rfl, rfl⟩⟩
  show primalEvaluate (pointAssign a.cls.sol.w b.cls.sol.w) x b.cls.sol.bias = _
  rw [pointAssign_of_le h]; rfl

/-- **C153 refuted** for assignment to a classifier of higher dimension: it answers 0 wherever its source decides. -/
theorem C153_assignment_refuted (a b : Primal K) (h : b.cls.sol.w.length < a.cls.sol.w.length) (x : List K)
    (hx : x.length = b.cls.sol.w.length) :
    (a.assign b).evaluate x = 0 ∧ (b.evaluate x = 1 ∨ b.evaluate x = -1) := by
  constructor
  · show primalEvaluate (pointAssign a.cls.sol.w b.cls.sol.w) x b.cls.sol.bias = _
    rw [pointAssign_eq, primalEvaluate, if_pos]
    simp; omega
  · simp only [Primal.evaluate, primalEvaluate, hx, ne_eq, not_true_eq_false, if_false]
    split <;> simp

end

/-- A perceptron trained on two samples. -/
def demoPerc : Primal ℚ := newPerceptron ⟨1, [⟨[1], 1⟩, ⟨[-1], -1⟩], [0, 1]⟩ 2 (1 / 2) none

/-- It succeeds and classifies its samples; its copy answers 0 to them. -/
example : (match demoPerc.train dummyLibm (fun _ => true) with
    | .ok (ok, t) => ok && t.evaluate [1] == 1 && t.evaluate [-1] == -1 && t.copy.evaluate [1] == 0
    | .error _ => false) = true := by decide +kernel

example : demoPerc.cls.sol = Sol.new := rfl
example : (newDual (K := ℚ) ⟨1, [⟨[1], 1⟩], [0]⟩ 1 none).cls.base.samples = some ⟨1, [⟨[1], 1⟩], [0]⟩ := rfl

section
variable {K : Type} [Field K] [LinearOrder K]

/-! ## C154 -/

/-- **C154 (partial)** A solution assigned over one whose vectors are not longer equals its source; in particular
`setSolution` on a classifier that has no solution yet stores exactly the solution given. -/
theorem C154_solution_partial (s o : Sol K) (hw : s.w.length ≤ o.w.length) (hf : s.func.length ≤ o.func.length) :
    s.assign o = o := by
  cases o; simp only [Sol.assign] at *
  rw [pointAssign_of_le hw, pointAssign_of_le hf]

/-- **C154 refuted.**  A solution assigned over one with more weights keeps the tail of the old weights. -/
theorem C154_refuted (s o : Sol K) (h : o.w.length < s.w.length) :
    (s.assign o).w.length = s.w.length ∧ (s.assign o).w ≠ o.w ∧
    ∀ i, o.w.length ≤ i → (s.assign o).w[i]? = s.w[i]? := by
  have e : (s.assign o).w = o.w ++ s.w.drop o.w.length := rfl
  refine ⟨by rw [e]; simp; omega, fun hc => ?_, fun i hi => ?_⟩
  · have := congrArg List.length hc
    rw [e] at this; simp at this; omega
  · rw [e, List.getElem?_append_right hi, List.getElem?_drop]
    congr 1; omega

/-- **C154 (constructors)** A perceptron constructed with a solution holds exactly that solution, the samples, the norm and
the rate it is given, and answers with the solution; constructed without one it holds none.  All other parameters have
their default values. -/
theorem C154_constructor_partial (d : DS K) (q rate : K) (s : Sol K) (x : List K) :
    (newPerceptron d q rate (some s)).cls.sol = s ∧ (newPerceptron d q rate none).cls.sol = Sol.new ∧
    (newPerceptron d q rate (some s)).evaluate x = primalEvaluate s.w x s.bias ∧
    ∀ i, (newPerceptron d q rate i).cls.base.samples = some d ∧ (newPerceptron d q rate i).q = q ∧
      (newPerceptron d q rate i).cls.base.rate = rate ∧
      SameSettings { newPerceptron d q rate i with q := 2 } ((Primal.new.setSamples d).setRate rate) := by
  have h : (newPerceptron d q rate (some s)).cls.sol = s := C154_solution_partial _ s (Nat.zero_le _) (Nat.zero_le _)
  refine ⟨h, rfl, ?_, fun i => ⟨rfl, rfl, rfl,
    ⟨rfl, rfl, ⟨rfl, rfl⟩, ⟨rfl, rfl⟩, ⟨rfl, rfl⟩, ⟨rfl, rfl, rfl⟩, rfl, rfl, rfl, rfl, ⟨rfl, rfl⟩, rfl, rfl⟩⟩⟩
  rw [Primal.evaluate, h]

/-- **C154 (constructors, dual)** A dual perceptron constructed with a solution holds that solution and its multipliers, the
samples and the rate it is given, and answers with that solution. -/
theorem C154_dual_constructor_partial (d : DS K) (rate : K) (s : Sol K) (x : List K) (k : Nat → K) :
    (newDual d rate (some s)).cls.sol = s ∧ (newDual d rate (some s)).alpha = s.alpha ∧
    (newDual d rate none).cls.sol = Sol.new ∧ (newDual d rate none).alpha = [] ∧
    (newDual d rate (some s)).evaluate x k = dualEvaluate d.dim s.alpha d.samples s.bias x k ∧
    ∀ i, (newDual d rate i).cls.base.samples = some d ∧ (newDual d rate i).cls.base.rate = rate := by
  have h : (newDual d rate (some s)).cls.sol = s := C154_solution_partial _ s (Nat.zero_le _) (Nat.zero_le _)
  refine ⟨h, rfl, rfl, rfl, ?_, fun i => ⟨rfl, rfl⟩⟩
  show dualEvaluate d.dim (newDual d rate (some s)).cls.sol.alpha d.samples (newDual d rate (some s)).cls.sol.bias x k = _
  rw [h]

/-- **C154 (constructors, dual)** Only the constructor without a kernel remembers that it was given a solution: training
the object keeps that solution's names and count of support vectors, while the other one's are lost. -/
theorem C154_dual_initial_partial (m : Libm K) (clock : Nat → Bool) (kv : Nat → Nat → K) (d : DS K) (rate : K) (s : Sol K)
    (ok : Bool) (t : Dual K) :
    ((newDualLinear d rate (some s)).train m clock kv = .ok (ok, t) →
      t.cls.sol.fnames = s.fnames ∧ t.cls.sol.svs = s.svs) ∧
    ((newDual d rate (some s)).train m clock kv = .ok (ok, t) → t.cls.sol.fnames = [] ∧ t.cls.sol.svs = 0) := by
  have aux : ∀ o : Dual K, o.cls.base.samples = some d → o.train m clock kv = .ok (ok, t) →
      t.cls.sol.fnames = (if o.initial then o.cls.sol.fnames else []) ∧
      t.cls.sol.svs = (if o.initial then o.cls.sol.svs else 0) := by
    intro o hs ht
    unfold Dual.train at ht
    rw [hs] at ht
    simp only at ht
    cases hr : dualTrain m ⟨o.cls.base.rate, o.cls.base.maxIt, o.cls.base.maxUp⟩ clock kv d.dim d.samples o.start with
    | error e => rw [hr] at ht; cases ht
    | ok r =>
      obtain ⟨b, s', w⟩ := r
      rw [hr] at ht
      cases ht
      cases ho : o.initial <;> simp [Dual.finish, ho, Sol.assign, Sol.new]
  exact ⟨fun h => by simpa [newDualLinear, newDual, Sol.assign] using aux _ rfl h,
    fun h => by simpa [newDual, Dual.new] using aux _ rfl h⟩

/-- **C154 refuted** (consequence): a classifier that held a solution of higher dimension answers 0 to every point of
the dimension of the solution it is given by `setSolution`, or of the weights it is given by `setW`. -/
theorem C154_set_refuted (o : Primal K) (s : Sol K) (h : s.w.length < o.cls.sol.w.length) (x : List K)
    (hx : x.length = s.w.length) :
    ({ o with cls := o.cls.setSolution s } : Primal K).evaluate x = 0 ∧ (o.setW s.w).evaluate x = 0 := by
  constructor
  · show primalEvaluate (pointAssign o.cls.sol.w s.w) x _ = 0
    rw [pointAssign_eq, primalEvaluate, if_pos]; simp; omega
  · show primalEvaluate (pointAssign o.cls.sol.w s.w) x _ = 0
    rw [pointAssign_eq, primalEvaluate, if_pos]; simp; omega

/-- **C154 (weights, partial)** `setW` with at least as many weights as before stores exactly these; nothing else of the
classifier changes. -/
theorem C154_weights_partial (o : Primal K) (w : List K) (h : o.cls.sol.w.length ≤ w.length) :
    (o.setW w).cls.sol.w = w ∧ (o.setW w).cls.sol.bias = o.cls.sol.bias ∧ SameSettings (o.setW w) o :=
  ⟨pointAssign_of_le h, rfl,
    ⟨rfl, rfl, ⟨rfl, rfl⟩, ⟨rfl, rfl⟩, ⟨rfl, rfl⟩, ⟨rfl, rfl, rfl⟩, rfl, rfl, rfl, rfl, ⟨rfl, rfl⟩, rfl, rfl⟩⟩

example : ((⟨[1, 2, 3], [], [], 0, [], 0, 0, 0⟩ : Sol ℚ).assign ⟨[7], [], [], 0, [], 0, 0, 0⟩).w = [7, 2, 3] := rfl

/-! ## C157 -/

theorem primalTrain_zero (m : Libm K) (cfg : Cfg K) (clock : Nat → Bool) (dim : Nat) (samples : List (Sample K))
    (index : List Nat) (b n b' n' : K) :
    primalTrain m cfg clock dim samples index ⟨List.replicate dim 0, b, n, 0, 0⟩ =
      primalTrain m cfg clock dim samples index ⟨[], b', n', 0, 0⟩ := by
  unfold primalTrain
  by_cases h : dim = 0
  · subst h; simp
  · simp [h]

/-- **C157 (partial)** Training is the training of a new object with the same parameters when the object's weights are
first set to zeros of the dimension of the samples and its counters to zero (and it held no longer weights before).
Missing: without these calls, see `C157_refuted`. -/
theorem C157_reset_partial (m : Libm K) (clock : Nat → Bool) (o : Primal K) (d : DS K)
    (h : o.cls.sol.w.length ≤ d.dim) :
    ∀ f : Primal K, SameSettings f ((((o.setSamples d).setSteps 0).setCtot 0).setW (List.replicate d.dim 0)) →
      Untouched f →
      ∀ ok t, f.train m clock = .ok (ok, t) →
      ∃ t', ((((o.setSamples d).setSteps 0).setCtot 0).setW (List.replicate d.dim 0)).train m clock = .ok (ok, t') ∧
        outcome t' = outcome t ∧ AnswersAlike t' t := by
  intro f hf hu ok t ht
  set o' := (((o.setSamples d).setSteps 0).setCtot 0).setW (List.replicate d.dim 0) with ho'
  have hsam : o'.cls.base.samples = some d := rfl
  have hfs : f.cls.base.samples = some d := hf.samples.trans hsam
  have hw : o'.cls.sol.w = List.replicate d.dim 0 := pointAssign_of_le (le_of_le_of_eq (show o.cls.sol.w.length ≤ d.dim from h) (List.length_replicate (a := (0 : K))).symm)
  have hst : o'.start = ⟨List.replicate d.dim 0, o.cls.sol.bias, o.cls.sol.norm, 0, 0⟩ := by
    show (⟨o'.cls.sol.w, _, _, _, _⟩ : PState K) = _
    rw [hw]; rfl
  have hfst : f.start = ⟨[], 0, 0, 0, 0⟩ := by
    show (⟨f.cls.sol.w, f.cls.sol.bias, f.cls.sol.norm, f.cls.base.ctot, f.cls.base.steps⟩ : PState K) = _
    rw [hu.1, hu.2.1, hu.2.2]; rfl
  have hcfg : (⟨o'.cls.base.rate, o'.cls.base.maxIt, o'.cls.base.maxUp⟩ : Cfg K) =
      ⟨f.cls.base.rate, f.cls.base.maxIt, f.cls.base.maxUp⟩ := by
    rw [hf.rate, hf.limits.1, hf.limits.2.1]
  unfold Primal.train at ht ⊢
  rw [hfs] at ht
  rw [hsam]
  simp only at ht ⊢
  rw [hcfg, hst, primalTrain_zero m _ clock d.dim d.samples d.index _ _ 0 0, ← hfst]
  cases hr : primalTrain m ⟨f.cls.base.rate, f.cls.base.maxIt, f.cls.base.maxUp⟩ clock d.dim d.samples d.index
      f.start with
  | error e => rw [hr] at ht; cases ht
  | ok r =>
    rw [hr] at ht
    cases ht
    exact ⟨_, rfl, rfl, fun x => rfl⟩

/-- **C157 refuted** for samples of higher dimension than before: training fails although a new object would train. -/
theorem C157_dimension_refuted (m : Libm K) (clock : Nat → Bool) (hc : clock 0 = true) (o : Primal K) (d : DS K)
    (h0 : o.cls.sol.w ≠ []) (h : o.cls.sol.w.length < d.dim) :
    (o.setSamples d).train m clock = .error .outOfBounds := by
  have hin : inRange d.dim d.samples d.index o.cls.sol.w = false := by
    rw [Bool.eq_false_iff, ne_eq, inRange_iff]
    intro hh
    have := hh.2.2.2
    omega
  have e : primalTrain m ⟨o.cls.base.rate, o.cls.base.maxIt, o.cls.base.maxUp⟩ clock d.dim d.samples d.index
      (o.setSamples d).start = .error .outOfBounds := by
    unfold primalTrain
    have hw : (o.setSamples d).start.w = o.cls.sol.w := rfl
    simp only [hw, if_neg h0]
    rw [if_pos ⟨hc, hin⟩]
  unfold Primal.train
  have hsam : (o.setSamples d).cls.base.samples = some d := rfl
  rw [hsam]
  simp only
  have hcfg : (⟨(o.setSamples d).cls.base.rate, (o.setSamples d).cls.base.maxIt, (o.setSamples d).cls.base.maxUp⟩ : Cfg K) =
      ⟨o.cls.base.rate, o.cls.base.maxIt, o.cls.base.maxUp⟩ := rfl
  rw [hcfg, e]

/-- **C157 refuted** for the dual perceptron and more samples than before: it reads multipliers that do not exist. -/
theorem C157_dual_larger_refuted (m : Libm K) (clock : Nat → Bool) (kv : Nat → Nat → K) (o : Dual K) (d : DS K)
    (h0 : o.alpha ≠ []) (h : o.alpha.length < d.samples.length) :
    (o.setSamples d).train m clock kv = .error .outOfBounds := by
  unfold Dual.train
  have hsam : (o.setSamples d).cls.base.samples = some d := rfl
  rw [hsam]
  simp only
  unfold dualTrain
  have hw : (o.setSamples d).start.alpha = o.alpha := rfl
  simp only [hw, if_neg h0]
  rw [if_pos (Or.inl h)]

/-- **C157 (dual weights, partial)** The weights a training of the dual perceptron leaves are those it held before,
cut or extended to the dimension, plus the combination of the samples: for a new object exactly the combination. -/
theorem C157_dual_weights_partial (m : Libm K) (clock : Nat → Bool) (kv : Nat → Nat → K) (o t : Dual K) (d : DS K)
    (hs : o.cls.base.samples = some d) (ok : Bool) (ht : o.train m clock kv = .ok (ok, t)) :
    t.cls.sol.w.length = d.dim ∧ t.cls.sol.alpha = t.alpha ∧
    ∀ j, j < d.dim → t.cls.sol.w.getD j 0 = o.cls.sol.w.getD j 0 + combo t.alpha d.samples j := by
  unfold Dual.train at ht
  rw [hs] at ht
  simp only at ht
  cases hr : dualTrain m ⟨o.cls.base.rate, o.cls.base.maxIt, o.cls.base.maxUp⟩ clock kv d.dim d.samples o.start with
  | error e => rw [hr] at ht; cases ht
  | ok r =>
    obtain ⟨b, s, w⟩ := r
    rw [hr] at ht
    cases ht
    refine ⟨by simp [Dual.finish, addWeights], rfl, fun j hj => ?_⟩
    have hw : (if o.initial then o.cls.sol else o.cls.sol.assign Sol.new).w = o.cls.sol.w := by
      split
      · rfl
      · simp [Sol.assign, Sol.new, pointAssign_eq]
    show (addWeights d.dim s.alpha d.samples
      (resizeTo (if o.initial then o.cls.sol else o.cls.sol.assign Sol.new).w d.dim)).getD j 0 = _ + combo s.alpha d.samples j
    rw [hw]
    have hg : (resizeTo o.cls.sol.w d.dim).getD j 0 = o.cls.sol.w.getD j 0 := by
      simp only [resizeTo, List.getD_eq_getElem?_getD]
      by_cases hl : j < o.cls.sol.w.length
      · rw [List.getElem?_append_left (by simp; omega), List.getElem?_take_of_lt hj]
      · rw [List.getElem?_append_right (by simp; omega), List.getElem?_eq_none (by omega : o.cls.sol.w.length ≤ j)]
        simp only [List.length_take, Option.getD_none]
        rw [List.getElem?_replicate]
        split <;> rfl
    rw [addWeights, List.getD_eq_getElem?_getD, List.getElem?_map, List.getElem?_range hj, Option.map_some,
      Option.getD_some, hg, foldl_range_sum, combo]

end

/-- The hypotheses of `C157_reset_partial` are met by a perceptron with other weights and a new one. -/
example : SameSettings demoPerc ((((({ demoPerc with cls := { demoPerc.cls with
      sol := { demoPerc.cls.sol with w := [5] }, base := { demoPerc.cls.base with steps := 7, ctot := 3 } } } :
      Primal ℚ)).setSamples ⟨1, [⟨[1], 1⟩, ⟨[-1], -1⟩], [0, 1]⟩).setSteps 0).setCtot 0 |>.setW (List.replicate 1 0)) ∧
    Untouched demoPerc :=
  ⟨⟨rfl, rfl, ⟨rfl, rfl⟩, ⟨rfl, rfl⟩, ⟨rfl, rfl⟩, ⟨rfl, rfl, rfl⟩, rfl, rfl, rfl, rfl, ⟨rfl, rfl⟩, rfl, rfl⟩, rfl, rfl, rfl⟩

/-- The object a training leaves (the default one if it fails). -/
def trained {α : Type} (d : α) (r : Res (Bool × α)) : α :=
  match r with
  | .ok p => p.2
  | .error _ => d

theorem trained_ok {α : Type} (d : α) (r : Res (Bool × α))
    (h : (match r with | .ok p => p.1 | .error _ => false) = true) : r = .ok (true, trained d r) := by
  cases r with
  | error e => cases h
  | ok p => obtain ⟨b, a⟩ := p; cases h; rfl

/-- **C157 refuted.**  A perceptron trained on one set of samples and then on another one that it separates too is not the
perceptron trained on the second set: both trainings report success and the answers to a third point differ. -/
theorem C157_refuted :
    ∃ (a b : DS ℚ) (t1 t2 t : Primal ℚ) (x : List ℚ),
      (newPerceptron a 2 (1 / 2) none).train dummyLibm (fun _ => true) = .ok (true, t1) ∧
      (t1.setSamples b).train dummyLibm (fun _ => true) = .ok (true, t2) ∧
      (newPerceptron b 2 (1 / 2) none).train dummyLibm (fun _ => true) = .ok (true, t) ∧
      t2.evaluate x ≠ t.evaluate x := by
  let a : DS ℚ := ⟨2, [⟨[1, 0], 1⟩, ⟨[-1, 0], -1⟩], [0, 1]⟩
  let b : DS ℚ := ⟨2, [⟨[0, 1], 1⟩, ⟨[0, -1], -1⟩], [0, 1]⟩
  let n (d : DS ℚ) : Primal ℚ := newPerceptron d 2 (1 / 2) none
  let t1 := trained Primal.new ((n a).train dummyLibm (fun _ => true))
  refine ⟨a, b, t1, trained Primal.new ((t1.setSamples b).train dummyLibm (fun _ => true)),
    trained Primal.new ((n b).train dummyLibm (fun _ => true)), [-3, 1], trained_ok _ _ ?_, trained_ok _ _ ?_,
    trained_ok _ _ ?_, ?_⟩ <;> decide +kernel

/-- **C157 refuted** for the dual perceptron: training twice on the same samples doubles the reported weights although
the multipliers and the bias, and so the decision function, are the same. -/
theorem C157_dual_refuted :
    ∃ (a : DS ℚ) (kv : Nat → Nat → ℚ) (t1 t2 : Dual ℚ),
      (newDual a 1 none).train dummyLibm (fun _ => true) kv = .ok (true, t1) ∧
      t1.train dummyLibm (fun _ => true) kv = .ok (true, t2) ∧
      t2.alpha = t1.alpha ∧ t2.cls.sol.bias = t1.cls.sol.bias ∧ t1.cls.sol.w = [2] ∧ t2.cls.sol.w = [4] := by
  let a : DS ℚ := ⟨1, [⟨[1], 1⟩, ⟨[-1], -1⟩], [0, 1]⟩
  let kv (i j : Nat) : ℚ := if i = j then 1 else -1
  let t1 := trained Dual.new ((newDual a 1 none).train dummyLibm (fun _ => true) kv)
  refine ⟨a, kv, t1, trained Dual.new (t1.train dummyLibm (fun _ => true) kv), trained_ok _ _ ?_, trained_ok _ _ ?_,
    ?_, ?_, ?_, ?_⟩ <;> decide +kernel

end MLTK.Props
