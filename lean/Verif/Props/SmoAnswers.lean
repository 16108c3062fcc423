import Verif.Props.Smo
import Verif.Props.Perceptron
/-!
# C213: what a trained SMO answers
-/
namespace MLTK.Props
open MLTK.Spec MLTK.Smo MLTK.Dll
open MLTK.Perc (Sample dualDecision dualEvaluate)
open MLTK.Data (Res_bind_ok Res_bind_error Res_pure)

section
variable {K : Type} [Field K] [LinearOrder K] [IsStrictOrderedRing K]

omit [LinearOrder K] [IsStrictOrderedRing K] in
private theorem dualDecision_sum (n : Nat) (alpha : List K) (samples : List (Sample K)) (k : Nat → K) (b : K) :
    dualDecision n alpha samples k b =
      (∑ r ∈ Finset.range n, alpha.getD r 0 * (samples.getD r default).y * k r) + b := by
  unfold dualDecision
  induction n with
  | zero => simp
  | succ n ih => rw [List.range_succ, List.foldl_append, ih, Finset.sum_range_succ]; simp only [List.foldl_cons, List.foldl_nil]; ring

/-- **C213.**  After `train`, `evaluate` at a training sample gives the side of the decision function training worked with, and
if `train` reported success then every sample that is answered wrongly has its multiplier at the limit `C` or takes part in no
pair step any more.  The samples carry the labels `c.y` and the kernel values of sample `i` against the samples are column `i`
of the matrix. -/
theorem C213_answers_partial {c : Cfg K} (hy : TwoClass c) (hsym : SymmetricM c) (heps : 0 < c.eps)
    (h : Heap) (hh : ∀ p, h.cells p = none) (alpha0 : Nat → K) (dim : Nat) (samples : List (Sample K))
    (hn : samples.length = c.n) (hlab : ∀ i < c.n, (samples.getD i default).y = (c.y i : K))
    (hdim : ∀ i < c.n, (samples.getD i default).x.length = dim) :
    ∃ t s, train c h alpha0 = .ok t ∧ SmoReachable c s ∧ t.alpha = (List.range c.n).map s.alpha ∧ t.bias = s.bias ∧
      (∀ i < c.n, dualEvaluate dim t.alpha samples t.bias (samples.getD i default).x (fun r => c.M r i) =
        .ok (if 0 ≤ decisionValue c s.alpha s.bias i then 1 else -1)) ∧
      (t.ret = true → ∀ i < c.n,
        dualEvaluate dim t.alpha samples t.bias (samples.getD i default).x (fun r => c.M r i) = .ok (c.y i) ∨
        s.alpha i = 9999 ∨ ∀ k < c.n, k ≠ i → ∃ s', takeStep c s i k = .ok (false, s')) := by
  obtain ⟨t, s, h1, h2, h3, h4, h5⟩ := C75_stop hy hsym heps h hh alpha0
  have hev : ∀ i < c.n, dualEvaluate dim t.alpha samples t.bias (samples.getD i default).x (fun r => c.M r i) =
      .ok (if 0 ≤ decisionValue c s.alpha s.bias i then 1 else -1) := by
    intro i hi
    have hd : dualDecision samples.length t.alpha samples (fun r => c.M r i) t.bias = decisionValue c s.alpha s.bias i := by
      rw [dualDecision_sum, hn, h4]
      unfold decisionValue
      congr 1
      apply Finset.sum_congr rfl
      intro r hr
      have hr' := Finset.mem_range.1 hr
      rw [hlab r hr', h3]
      simp [List.getD_eq_getElem?_getD, hr']
    unfold dualEvaluate
    rw [if_neg (by rw [hdim i hi]; simp), if_neg (by rw [h3]; simp [hn]), hd]
  refine ⟨t, s, h1, h2, h3, h4, hev, fun hret i hi => ?_⟩
  rcases h5 hret i hi with ⟨ha, _⟩ | hb
  · by_cases hC : s.alpha i < 9999
    · left
      have hpos := ha hC
      rw [hev i hi]
      have h0 : (0 : K) < 1 - 1 / 10000 := by norm_num
      rcases hy i hi with hyi | hyi
      · rw [hyi] at hpos ⊢
        rw [if_pos (by push_cast at hpos; linarith)]
      · rw [hyi] at hpos ⊢
        rw [if_neg (by push_cast at hpos; intro hc; linarith)]
    · right; left
      exact le_antisymm ((C39_feasible hy hsym heps h2).1 i hi).2 (not_lt.1 hC)
  · right; right; exact hb

end

/-- Two samples on a line, at `1e7` and `-1e7`, with the inner product and the default settings. -/
def farApart : Cfg ℚ where
  n := 2
  y := fun i => if i = 0 then 1 else -1
  M := fun i j => if i = j then 100000000000000 else -100000000000000
  eps := 1 / 10000000
  maxEpoch := 1000000000
  k0 := 1

/-- The samples of `farApart`. -/
def farSamples : List (Sample ℚ) := [⟨[10000000], 1⟩, ⟨[-10000000], -1⟩]

/-- The hypotheses of the theorem above are met by samples near each other, which are answered rightly. -/
example : TwoClass ex2 ∧ SymmetricM ex2 ∧ 0 < ex2.eps ∧
    (train ex2 emptyHeap (fun _ => 5)).map (fun t => (t.ret, (List.range 2).map (fun i =>
      (dualEvaluate 2 t.alpha [⟨[1, 0], 1⟩, ⟨[0, 1], -1⟩] t.bias (if i = 0 then [1, 0] else [0, 1]) (fun r => ex2.M r i)).toOption))) =
      .ok (true, [some 1, some (-1)]) := by
  refine ⟨?_, ?_, by norm_num [ex2], by decide +kernel⟩
  · intro i _; unfold ex2; simp only; split_ifs <;> simp
  · intro i _ j _; simp [ex2, eq_comm]

/-- **C213, negation.**  A linearly separable training set, the kernel matrix of its inner products, success reported, and a
training sample answered wrongly: for features this large the first step is taken for no change, and the solution is zero. -/
theorem C213_large_features_refuted :
    (∀ i < 2, ∀ j < 2, farApart.M i j = ip 1 (farSamples.getD i default).x (farSamples.getD j default).x) ∧
    SeparatesAll 1 [(1 : ℚ)] 0 farSamples ∧
    (train farApart emptyHeap (fun _ => 0)).map (fun t => (t.ret,
      (dualEvaluate 1 t.alpha farSamples t.bias [-10000000] (fun r => farApart.M r 1)).toOption)) = .ok (true, some 1) := by
  refine ⟨?_, ?_, by decide +kernel⟩
  · intro i hi j hj
    interval_cases i <;> interval_cases j <;> simp [farApart, farSamples, ip] <;> norm_num
  · intro p hp
    simp only [farSamples, List.mem_cons, List.not_mem_nil, or_false] at hp
    rcases hp with rfl | rfl <;> simp [affine, ip]

end MLTK.Props
