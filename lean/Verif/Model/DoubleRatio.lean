import Verif.Model.DoubleMetric
/-!
# The distances made of quotients in `double` arithmetic

The functors of `DistanceMetric.hpp` that divide component by component, with every operation carried out as in `Model/Double`.
`std::pow(v, 2)` is taken to be the correctly rounded square.
-/
namespace MLTK.Fp

/-- The components of an expression in two points: `t` is the expression for one component.  Different sizes fail as in `minus`.
Models ExprOps.hpp:36-40, 105-107. -/
def pointwise (t : Dbl → Dbl → Dbl) (p q : List Dbl) : Res (List Dbl) :=
  if p.length = q.length then .ok (List.zipWith t p q)
  else if p = [] ∨ q = [] then .error .outOfBounds
  else .error .assertFail

/-- `std::pow(v, 2)`. -/
def squareD (v : Dbl) : Dbl := v.mul v

/-- `Canberra`.  Models DistanceMetric.hpp:85-87. -/
def canberra (p q : List Dbl) : Res Dbl := do
  let d ← pointwise (fun a b => (a.sub b).abs.div (a.abs.add b.abs)) p q
  return total d

/-- `Clark`.  Models DistanceMetric.hpp:236-238. -/
def clark (p q : List Dbl) : Res Dbl := do
  let d ← pointwise (fun a b => squareD ((a.sub b).div (a.abs.add b.abs))) p q
  return total d

/-- `Squared`.  Models DistanceMetric.hpp:272-274. -/
def squaredChi (p q : List Dbl) : Res Dbl := do
  let d ← pointwise (fun a b => (squareD (a.sub b)).div (a.add b)) p q
  return total d

/-- `ProbabilisticSymmetric`.  Models DistanceMetric.hpp:284-286. -/
def probSymmetric (p q : List Dbl) : Res Dbl := do
  let d ← pointwise (fun a b => (squareD (a.sub b)).div (a.add b)) p q
  return (Dbl.fin 2).mul (total d)

/-- `Divergence`.  Models DistanceMetric.hpp:296-298. -/
def divergence (p q : List Dbl) : Res Dbl := do
  let d ← pointwise (fun a b => (squareD (a.sub b)).div (squareD (a.add b))) p q
  return (Dbl.fin 2).mul (total d)

/-- `SquaredChiSquared`.  Models DistanceMetric.hpp:340-342. -/
def squaredChiSquared (p q : List Dbl) : Res Dbl := do
  let d ← pointwise (fun a b => (squareD (a.sub b)).div (a.add b).abs) p q
  return total d

/-- `AvgManhattan`.  Models DistanceMetric.hpp:101-103. -/
def avgManhattan (p q : List Dbl) : Res Dbl := do
  let d ← pointwise (fun a b => (a.sub b).abs) p q
  return (total d).div (Dbl.ofNat p.length)

/-- `SquaredEuclidean`.  Models DistanceMetric.hpp:224-226. -/
def squaredEuclidean (p q : List Dbl) : Res Dbl := do
  let d ← pointwise (fun a b => squareD (a.sub b)) p q
  return total d

end MLTK.Fp
