import Mathlib.Analysis.SpecialFunctions.Pow.Real
import Verif.Model.Point
/-!
# Real-valued norms of points (Point.hpp)

Simplification: `double` is the real numbers, `std::pow` is `Real.rpow`.
-/
namespace MLTK.PointM

/-- `Point::norm(p)` for a positive `p` and the norm computed by `normalize`: Point.hpp 655, 664. -/
noncomputable def normP (q : ℝ) (p : List ℝ) : ℝ := (psum (fun v => |v| ^ q) p) ^ (1 / q)

/-- `normalize(p, q)`: Point.hpp 662-667. -/
noncomputable def normalize (p : List ℝ) (q : ℝ) : List ℝ := p.map (fun v => v / normP q p)

end MLTK.PointM
