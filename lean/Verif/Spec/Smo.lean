import Mathlib.Algebra.BigOperators.Group.Finset.Basic
import Verif.Spec.Dll
import Verif.Model.Smo
/-!
# What SMO training must maintain
-/
namespace MLTK.Spec
open MLTK.Dll MLTK.Smo

variable {K : Type} [Field K] [LinearOrder K]

/-- Two-class problem: every label is `1` or `-1`. -/
def TwoClass (c : Cfg K) : Prop := ∀ i < c.n, c.y i = 1 ∨ c.y i = -1

/-- The kernel matrix is symmetric. -/
def SymmetricM (c : Cfg K) : Prop := ∀ i < c.n, ∀ j < c.n, c.M i j = c.M j i

/-- Decision value of sample `i`: `Σ_j α_j y_j k(x_j, x_i) + bias`, over all samples. -/
def decisionValue (c : Cfg K) (alpha : Nat → K) (bias : K) (i : Nat) : K :=
  (∑ j ∈ Finset.range c.n, alpha j * (c.y j : K) * c.M j i) + bias

/-- Feasibility for the dual problem. -/
structure Feasible (c : Cfg K) (alpha : Nat → K) : Prop where
  nonneg : ∀ i < c.n, 0 ≤ alpha i
  le_C : ∀ i < c.n, alpha i ≤ 9999
  balance : ∑ i ∈ Finset.range c.n, (c.y i : K) * alpha i = 0

/-- The cached error of every sample with `0 < α < C` is its decision value minus its label. -/
def CacheExact (c : Cfg K) (s : St K) : Prop :=
  ∀ i < c.n, 0 < s.alpha i → s.alpha i < 9999 → s.err i = decisionValue c s.alpha s.bias i - (c.y i : K)

/-- Behind its sentinel the list holds each sample number in `P` exactly once and nothing else,
`sv` is the address of a sample's node, and no other node is allocated. -/
def SvHolds (c : Cfg K) (P : Nat → Prop) (s : St K) : Prop :=
  ∃ hd l, s.head = some hd ∧ IsDll s.heap s.head ((hd, -1) :: l) ∧ (l.map Prod.snd).Nodup ∧
    (∀ i : Int, i ∈ l.map Prod.snd ↔ ∃ k : Nat, k < c.n ∧ i = k ∧ P k) ∧
    (∀ k < c.n, ∀ p, s.sv k = some p ↔ (p, (k : Int)) ∈ l) ∧
    (∀ p, s.heap.cells p ≠ none → p ∈ ((hd, -1) :: l).map Prod.fst)

/-- The SVM dual objective `Σ α_i − ½ Σ_i Σ_j α_i α_j y_i y_j k(x_i, x_j)`. -/
def dualObjective (c : Cfg K) (alpha : Nat → K) : K :=
  (∑ i ∈ Finset.range c.n, alpha i) -
    (1 / 2) * ∑ i ∈ Finset.range c.n, ∑ j ∈ Finset.range c.n,
      alpha i * alpha j * ((c.y i : K) * (c.y j : K)) * c.M i j

/-- `‖φ(x_i) − φ(x_j)‖² ≥ 0`, which every positive semidefinite kernel satisfies. -/
def NonnegDist (c : Cfg K) : Prop :=
  ∀ i < c.n, ∀ j < c.n, 0 ≤ c.M i i + c.M j j - 2 * c.M i j

/-- Everything SMO training maintains. -/
structure SmoInv (c : Cfg K) (s : St K) : Prop where
  feasible : Feasible c s.alpha
  svs : SvHolds c (fun k => 0 < s.alpha k) s
  cache : CacheExact c s

/-- State in which `training_routine` starts searching: no multiplier, empty list behind the sentinel. -/
structure SmoStart (c : Cfg K) (s : St K) : Prop where
  alpha : ∀ i < c.n, s.alpha i = 0
  bias : s.bias = 0
  sv : ∀ i < c.n, s.sv i = none
  list : ∃ hd, s.head = some hd ∧ IsDll s.heap s.head [(hd, -1)] ∧ ∀ p, s.heap.cells p ≠ none → p = hd

/-- States training goes through: the start, any sequence of `take_step` calls on two different
samples, and changes of the `done` marks. -/
inductive SmoReachable (c : Cfg K) : St K → Prop
  | start {s} : SmoStart c s → SmoReachable c s
  | marks {s} (d : Nat → Bool) : SmoReachable c s → SmoReachable c { s with done := d }
  | step {s s' : St K} {r : Bool} {i1 i2 : Nat} : SmoReachable c s → i1 < c.n → i2 < c.n → i1 ≠ i2 →
      takeStep c s i1 i2 = .ok (r, s') → SmoReachable c s'

end MLTK.Spec
