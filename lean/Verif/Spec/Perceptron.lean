import Mathlib.Algebra.BigOperators.Group.Finset.Basic
import Mathlib.Analysis.SpecialFunctions.Pow.Real
import Verif.Model.Perceptron
/-!
# Specification vocabulary for linear classifiers
-/
namespace MLTK.Spec
open MLTK.Perc

section
variable {K : Type} [Field K] [LinearOrder K]

/-- `w · x` in dimension `dim`. -/
def ip (dim : Nat) (w x : List K) : K := ∑ j ∈ Finset.range dim, w.getD j 0 * x.getD j 0

/-- The value `w · x + b`. -/
def affine (dim : Nat) (w : List K) (b : K) (x : List K) : K := ip dim w x + b

/-- The hyperplane has every sample strictly on the side of its label. -/
def SeparatesAll (dim : Nat) (w : List K) (b : K) (samples : List (Sample K)) : Prop :=
  ∀ p ∈ samples, 0 < p.y * affine dim w b p.x

/-- Labels are `+1` and `-1`. -/
def PlusMinus (samples : List (Sample K)) : Prop := ∀ p ∈ samples, p.y = 1 ∨ p.y = -1

/-- `Σ αᵢ yᵢ xᵢ`, component `j`. -/
def combo (alpha : List K) (samples : List (Sample K)) (j : Nat) : K :=
  ∑ i ∈ Finset.range samples.length,
    alpha.getD i 0 * (samples.getD i default).y * (samples.getD i default).x.getD j 0

end

/-- The norms the fixed-margin trainers claim to use. -/
noncomputable def qnorm (q : QNorm ℝ) (dim : Nat) (w : List ℝ) : ℝ :=
  match q with
  | .one => ∑ j ∈ Finset.range dim, |w.getD j 0|
  | .two => Real.sqrt (∑ j ∈ Finset.range dim, w.getD j 0 ^ 2)
  | .inf => ((List.range dim).map (fun j => |w.getD j 0|)).foldl max 0
  | .other q => (∑ j ∈ Finset.range dim, |w.getD j 0| ^ q) ^ (1 / q)

/-- `<cmath>` on the reals. -/
noncomputable def realLibm : Libm ℝ := { sqrt := Real.sqrt, pow := fun a b => a ^ b }

end MLTK.Spec
