import Mathlib.Analysis.SpecialFunctions.Pow.Real
import Verif.Spec.Data
/-!
# Specification vocabulary for normalisation and columns
-/
namespace MLTK.Spec

/-- All pointers are live, the size counter is right and every sample has `n` features: a rectangular table. -/
structure Rectangular {T : Type} (m : Mem T) (d : Data) (n : Nat) : Prop where
  live : ∀ r ∈ d.points, ∃ p, m[r]? = some p
  msize : d.msize = d.points.length
  dims : ∀ p ∈ samples m d, p.x.length = n

/-- `|x₁|^p + … + |xₙ|^p`, the `p`-th power of the `p`-norm. -/
noncomputable def powerSum (p : ℝ) (x : List ℝ) : ℝ := (x.map (fun v => |v| ^ p)).sum

end MLTK.Spec
