import Verif.Model.Double
import Verif.Model.Basic
/-!
# The Minkowski distances in `double` arithmetic

`Manhattan`, `Chebyshev` and `Euclidean` with every operation carried out as in `Model/Double`.  `std::pow(v, 2)` is taken to
be the correctly rounded square, `std::sqrt` is a parameter.
-/
namespace MLTK.Fp

/-- The components of `p1 - p2`.  An empty point takes the size of the other one and is then read outside its bounds; other
different sizes fail an assertion.  Models ExprOps.hpp:36-40, 105-107. -/
def minus (p q : List Dbl) : Res (List Dbl) :=
  if p.length = q.length then .ok (List.zipWith Dbl.sub p q)
  else if p = [] ∨ q = [] then .error .outOfBounds
  else .error .assertFail

/-- `Point::sum()`.  Models Point.hpp:285-293. -/
def total (x : List Dbl) : Dbl := x.foldl Dbl.add (.fin 0)

/-- `std::numeric_limits<double>::min()`, the least normal number.  Models Point.hpp:545. -/
def least : ℚ := two (-1022)

/-- `mltk::max(p)`.  Models Point.hpp:544-550. -/
def maxOf (x : List Dbl) : Dbl := x.foldl (fun m v => if m.lt v then v else m) (.fin least)

/-- `Manhattan`.  Models DistanceMetric.hpp:51-53. -/
def manhattan (p q : List Dbl) : Res Dbl := do
  let d ← minus p q
  return total (d.map Dbl.abs)

/-- `Chebyshev`.  Models DistanceMetric.hpp:63-65. -/
def chebyshev (p q : List Dbl) : Res Dbl := do
  let d ← minus p q
  return maxOf (d.map Dbl.abs)

/-- `Euclidean`.  Models DistanceMetric.hpp:35-41. -/
def euclidean (sqrt : Dbl → Dbl) (p q : List Dbl) : Res Dbl := do
  let d ← minus p q
  return sqrt (total (d.map (fun v => v.mul v)))

end MLTK.Fp
