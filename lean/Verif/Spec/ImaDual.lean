import Verif.Spec.Kernel
import Verif.Spec.Perceptron
/-!
# Specification vocabulary for dual classifiers
-/
namespace MLTK.Spec
open MLTK.Perc

section
variable {K : Type} [Field K]

/-- The value `b + Σ αᵢ yᵢ k(i, r)` at training sample `r`. -/
def dualValueAt (alpha : List K) (b : K) (samples : List (Sample K)) (kv : Nat → Nat → K) (r : Nat) : K :=
  b + ∑ i ∈ Finset.range samples.length, alpha.getD i 0 * (samples.getD i default).y * kv i r

/-- The linear kernel on the samples. -/
def linearKernel (dim : Nat) (samples : List (Sample K)) (i j : Nat) : K :=
  ∑ d ∈ Finset.range dim, (samples.getD i default).x.getD d 0 * (samples.getD j default).x.getD d 0

end

/-- `Σᵢⱼ αᵢ αⱼ yᵢ yⱼ k(xᵢ, xⱼ)` for a kernel `k` of vectors. -/
noncomputable def dualForm (k : List ℝ → List ℝ → ℝ) (xs : List (List ℝ)) (ys alpha : List ℝ) : ℝ :=
  ∑ i ∈ Finset.range xs.length, ∑ j ∈ Finset.range xs.length,
    alpha.getD i 0 * alpha.getD j 0 * (ys.getD i 0 * ys.getD j 0) * k (xs.getD i []) (xs.getD j [])

/-- The relevance of feature `d` (Guyon et al.): by how much the quadratic form drops when the feature is blanked out. -/
noncomputable def relevance (k : List ℝ → List ℝ → ℝ) (xs : List (List ℝ)) (ys alpha : List ℝ) (d : Nat) : ℝ :=
  dualForm k xs ys alpha - dualForm k (xs.map (fun x => x.set d 0)) ys alpha

end MLTK.Spec
