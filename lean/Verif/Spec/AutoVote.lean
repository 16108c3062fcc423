import Mathlib.Algebra.Order.Field.Basic
import Mathlib.Algebra.BigOperators.Group.List.Basic
/-!
# What weights of an ensemble should be

Words of this file: the *simplex* is the set of the lists without negative numbers whose sum is 1; the *accuracy* of weights is the
percentage of the samples of a test set that the ensemble with these weights gets right.
-/
namespace MLTK.Spec
variable {K : Type} [Field K] [LinearOrder K]

/-- No number is negative and the sum is 1. -/
def OnSimplex (x : List K) : Prop := (∀ v ∈ x, 0 ≤ v) ∧ x.sum = 1

/-- The square of the distance. -/
def weightDist (x y : List K) : K := (List.zipWith (fun a b => (a - b) ^ 2) x y).sum

/-- `x` is the point of the simplex nearest to `y`. -/
def NearestOnSimplex (y x : List K) : Prop :=
  OnSimplex x ∧ x.length = y.length ∧ ∀ z, OnSimplex z → z.length = y.length → weightDist y x ≤ weightDist y z

/-- The percentage of the samples that are answered with their label. -/
def accuracyOf (vote : List K → List K → Int) (test : List (List K × Int)) (w : List K) : K :=
  100 * ((test.countP (fun p => vote w p.1 = p.2) : K) / (test.length : K))

/-- Every number below `n` comes up again and again. -/
def FairDraws (n : Nat) (d : Nat → Nat) : Prop := ∀ k < n, ∀ pos, ∃ j, pos ≤ j ∧ d j % n = k

end MLTK.Spec
