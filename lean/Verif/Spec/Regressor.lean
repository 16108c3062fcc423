import Mathlib.Algebra.Order.AbsoluteValue.Basic
import Verif.Spec.Perceptron
/-!
# Specification vocabulary for linear regression
-/
namespace MLTK.Spec
open MLTK.Perc (Sample)

section
variable {K : Type} [Field K]

/-- A linear function: slopes and intercept. -/
structure Line (K : Type) where
  w : List K
  b : K
  deriving DecidableEq, Repr

/-- The value of the target minus the value of the linear function. -/
def residualOf (dim : Nat) (l : Line K) (p : Sample K) : K := p.y - affine dim l.w l.b p.x

/-- The correction of a linear function for one sample: the slopes move by `rate` times the residual times the features,
the intercept by `brate` times the residual.  The Widrow-Hoff rule is the case `brate = rate`. -/
def correctedBy (dim : Nat) (rate brate : K) (l : Line K) (p : Sample K) : Line K :=
  ⟨List.zipWith (fun a x => a + rate * residualOf dim l p * x) l.w p.x, l.b + brate * residualOf dim l p⟩

/-- The linear function after one pass over the samples. -/
def afterPass (dim : Nat) (rate brate : K) (samples : List (Sample K)) (l : Line K) : Line K :=
  samples.foldl (correctedBy dim rate brate) l

/-- The linear function after `k` passes. -/
def afterPasses (dim : Nat) (rate brate : K) (samples : List (Sample K)) (l : Line K) (k : Nat) : Line K :=
  (afterPass dim rate brate samples)^[k] l

/-- The sum of the squared residuals met during one pass. -/
def squaredErrors (dim : Nat) (rate brate : K) : List (Sample K) → Line K → K
  | [], _ => 0
  | p :: rest, l => residualOf dim l p ^ 2 + squaredErrors dim rate brate rest (correctedBy dim rate brate l p)

/-- Half the sum of the squared residuals met during pass number `k`. -/
def passCost (dim : Nat) (rate brate : K) (samples : List (Sample K)) (l : Line K) (k : Nat) : K :=
  squaredErrors dim rate brate samples (afterPasses dim rate brate samples l k) / 2

/-- The linear function fits every sample exactly. -/
def Fits (dim : Nat) (l : Line K) (samples : List (Sample K)) : Prop :=
  ∀ p ∈ samples, affine dim l.w l.b p.x = p.y

/-- Squared distance of two linear functions, the intercept counted `brate` times. -/
def lineDist (dim : Nat) (brate : K) (l m : Line K) : K :=
  ∑ j ∈ Finset.range dim, (l.w.getD j 0 - m.w.getD j 0) ^ 2 + brate * (l.b - m.b) ^ 2

/-- Squared length of a feature vector. -/
def sqLength (dim : Nat) (x : List K) : K := ∑ j ∈ Finset.range dim, x.getD j 0 ^ 2

end
end MLTK.Spec
