import Mathlib.Analysis.SpecialFunctions.Exponential
import Verif.Lemmas.Kernel
import Verif.Spec.Kernel
namespace MLTK.Kernel
open MLTK.Spec

theorem psd_iff_sum {n : Nat} {A : Matrix (Fin n) (Fin n) ℝ} (h : A.PosSemidef) (c : Fin n → ℝ) :
    0 ≤ ∑ i, ∑ j, c i * c j * A i j := by
  have := h.dotProduct_mulVec_nonneg c
  simp only [dotProduct, Matrix.mulVec, Pi.star_apply, star_trivial, Finset.mul_sum] at this
  refine le_of_le_of_eq this ?_
  exact Finset.sum_congr rfl fun i _ => Finset.sum_congr rfl fun j _ => by ring

/-- Gram matrix. -/
noncomputable def gram (n dim : Nat) (X : Fin n → List ℝ) : Matrix (Fin n) (Fin n) ℝ :=
  Matrix.of fun i j => innerProd dim (X i) (X j)

theorem gram_psd (n dim : Nat) (X : Fin n → List ℝ) : (gram n dim X).PosSemidef := by
  have h := Matrix.posSemidef_self_mul_conjTranspose
    (Matrix.of fun (i : Fin n) (d : Fin dim) => (X i).getD d 0 : Matrix (Fin n) (Fin dim) ℝ)
  convert h using 1
  ext i j
  simp only [gram, Matrix.of_apply, Matrix.mul_apply, Matrix.conjTranspose_apply, star_trivial, innerProd]
  rw [Finset.sum_range]

theorem gram_pow_psd (n dim : Nat) (X : Fin n → List ℝ) (d : Nat) :
    (Matrix.of fun i j => (innerProd dim (X i) (X j)) ^ d : Matrix (Fin n) (Fin n) ℝ).PosSemidef := by
  induction d with
  | zero =>
    have h := Matrix.posSemidef_self_mul_conjTranspose
      (Matrix.of fun (_ : Fin n) (_ : Fin 1) => (1 : ℝ) : Matrix (Fin n) (Fin 1) ℝ)
    convert h using 1
    ext i j
    simp [Matrix.mul_apply]
  | succ d ih =>
    have h := ih.hadamard (gram_psd n dim X)
    have e : (Matrix.of fun i j => (innerProd dim (X i) (X j)) ^ (d + 1) : Matrix (Fin n) (Fin n) ℝ) =
        Matrix.hadamard (Matrix.of fun i j => (innerProd dim (X i) (X j)) ^ d) (gram n dim X) := by
      ext i j
      simp [Matrix.hadamard, gram, pow_succ]
    rw [e]; exact h

theorem gauss_form (n dim : Nat) (X : Fin n → List ℝ) (γ : ℝ) (hγ : 0 ≤ γ) (c : Fin n → ℝ) :
    0 ≤ ∑ i, ∑ j, c i * c j * Real.exp (-(γ * sqDist dim (X i) (X j))) := by
  set c' : Fin n → ℝ := fun i => c i * Real.exp (-(γ * innerProd dim (X i) (X i)))
  have hsplit : ∀ i j, c i * c j * Real.exp (-(γ * sqDist dim (X i) (X j))) =
      c' i * c' j * Real.exp (2 * γ * innerProd dim (X i) (X j)) := by
    intro i j
    have : sqDist dim (X i) (X j) = innerProd dim (X i) (X i) + innerProd dim (X j) (X j) - 2 * innerProd dim (X i) (X j) := by
      simp only [sqDist, innerProd, Finset.mul_sum, ← Finset.sum_add_distrib, ← Finset.sum_sub_distrib]
      exact Finset.sum_congr rfl fun d _ => by ring
    simp only [c']
    rw [this, show -(γ * (innerProd dim (X i) (X i) + innerProd dim (X j) (X j) - 2 * innerProd dim (X i) (X j))) =
      -(γ * innerProd dim (X i) (X i)) + -(γ * innerProd dim (X j) (X j)) + 2 * γ * innerProd dim (X i) (X j) by ring,
      Real.exp_add, Real.exp_add]
    ring
  simp only [hsplit]
  have hs : HasSum (fun m : ℕ => ∑ i, ∑ j, c' i * c' j * ((2 * γ * innerProd dim (X i) (X j)) ^ m / m.factorial))
      (∑ i, ∑ j, c' i * c' j * Real.exp (2 * γ * innerProd dim (X i) (X j))) := by
    refine hasSum_sum fun i _ => hasSum_sum fun j _ => HasSum.mul_left _ ?_
    rw [Real.exp_eq_exp_ℝ]
    exact NormedSpace.expSeries_div_hasSum_exp _
  refine hs.nonneg fun m => ?_
  have h := psd_iff_sum (gram_pow_psd n dim X m) c'
  have : ∑ i, ∑ j, c' i * c' j * ((2 * γ * innerProd dim (X i) (X j)) ^ m / m.factorial) =
      ((2 * γ) ^ m / m.factorial) * ∑ i, ∑ j, c' i * c' j *
        (Matrix.of fun i j => (innerProd dim (X i) (X j)) ^ m : Matrix (Fin n) (Fin n) ℝ) i j := by
    simp only [Finset.mul_sum, Matrix.of_apply]
    refine Finset.sum_congr rfl fun i _ => Finset.sum_congr rfl fun j _ => ?_
    rw [mul_pow]; ring
  rw [this]
  exact mul_nonneg (by positivity) h

end MLTK.Kernel
