import Mathlib.Analysis.SpecialFunctions.Pow.Real
import Verif.Model.Kernel
/-!
# Specification vocabulary for kernels
-/
namespace MLTK.Spec
open MLTK.Kernel

/-- Inner product of two vectors of dimension `n`. -/
noncomputable def innerProd (n : Nat) (x y : List ℝ) : ℝ := ∑ d ∈ Finset.range n, x.getD d 0 * y.getD d 0
/-- Squared Euclidean distance of two vectors of dimension `n`. -/
noncomputable def sqDist (n : Nat) (x y : List ℝ) : ℝ := ∑ d ∈ Finset.range n, (x.getD d 0 - y.getD d 0) ^ 2

/-- The value of the built-in kernels: `⟨x,y⟩`, `⟨x,y⟩^param` (for `param > 1`), `exp(-param·‖x-y‖²)`. -/
noncomputable def kernelValue (t : KType) (param : ℝ) (n : Nat) (x y : List ℝ) : ℝ :=
  match t with
  | .innerProduct => innerProd n x y
  | .polynomial => if param > 1 then innerProd n x y ^ param else innerProd n x y
  | .gaussian => Real.exp (-(param * sqDist n x y))
  | _ => 0

/-- `M` is the matrix of the kernel on the samples `xs`. -/
def IsKernelMatrix (t : KType) (param : ℝ) (n : Nat) (xs : List (List ℝ)) (M : List (List ℝ)) : Prop :=
  M.length = xs.length ∧ (∀ row ∈ M, row.length = xs.length) ∧
  ∀ (i j : Nat) (x y : List ℝ), xs[i]? = some x → xs[j]? = some y →
    get2 M i j = .ok (kernelValue t param n x y)

/-- `M`, of order `n`, is positive semidefinite. -/
def PosSemidefinite (n : Nat) (M : List (List ℝ)) : Prop :=
  ∀ (c : Nat → ℝ) (m : Nat → Nat → ℝ), (∀ i j, i < n → j < n → get2 M i j = .ok (m i j)) →
    0 ≤ ∑ i ∈ Finset.range n, ∑ j ∈ Finset.range n, c i * c j * m i j

end MLTK.Spec
