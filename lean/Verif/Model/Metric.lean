import Mathlib.Analysis.SpecialFunctions.Log.Basic
import Mathlib.Analysis.SpecialFunctions.Pow.Real
import Verif.Model.Point
/-!
# Model of the distance functors (DistanceMetric.hpp)

Simplifications: `T = double` is the real numbers; `pow(x, 2)` is `x ^ 2`, `pow(x, 0.5)` and `sqrt` are
`Real.sqrt`, `log` is `Real.log`, a division by zero gives zero.  Integer divisions are kept.
The `m_family`/`m_name` strings are not modelled.
-/
namespace MLTK.Metric
open MLTK.PointM
open MLTK.PointM.Expr

/-- `e.sum()` of an expression: Point.hpp 285-293. -/
noncomputable def esum (e : Expr ℝ) : Res ℝ := do let x ← e.construct; return psum id x

/-- `mltk::pow(e, 2)`: Point.hpp 642-648. -/
def sq (e : Expr ℝ) : Expr ℝ := .un (fun v => v ^ 2) e
/-- `mltk::pow(e, 0.5)`: Point.hpp 642-648. -/
noncomputable def root (e : Expr ℝ) : Expr ℝ := .un Real.sqrt e
/-- `mltk::abs(e)`: Point.hpp 612-615. -/
noncomputable def ab (e : Expr ℝ) : Expr ℝ := .un (fun v => |v|) e
/-- `mltk::log(e)`: Point.hpp 632-635. -/
noncomputable def lg (e : Expr ℝ) : Expr ℝ := .un Real.log e

/-- The integer constant expression `1/2`: DistanceMetric.hpp 110, 403, 415. -/
def oneHalfInt : ℝ := (((1 : Int) / 2 : Int) : ℝ)

/-- `Euclidean`: DistanceMetric.hpp 35-41. -/
noncomputable def euclidean (p q : List ℝ) : Res ℝ := do
  let x ← (sq (.sub (.pt p) (.pt q))).construct
  return Real.sqrt (psum id x)

/-- `Manhattan`: DistanceMetric.hpp 51-53. -/
noncomputable def manhattan (p q : List ℝ) : Res ℝ := esum (ab (.sub (.pt p) (.pt q)))

/-- `Chebyshev`: DistanceMetric.hpp 63-65; `lo` is `std::numeric_limits<T>::min()`. -/
noncomputable def chebyshev (lo : ℝ) (p q : List ℝ) : Res ℝ := do
  let x ← (ab (.sub (.pt p) (.pt q))).construct
  return pmax lo x

/-- `Lorentzian`: DistanceMetric.hpp 77-79. -/
noncomputable def lorentzian (p q : List ℝ) : Res ℝ :=
  esum (lg (.sub (.sc 1) (ab (.sub (.pt p) (.pt q)))))

/-- `Canberra`: DistanceMetric.hpp 85-87. -/
noncomputable def canberra (p q : List ℝ) : Res ℝ :=
  esum (.div (ab (.sub (.pt p) (.pt q))) (.add (ab (.pt p)) (ab (.pt q))))

/-- `Sorensen`: DistanceMetric.hpp 93-95. -/
noncomputable def sorensen (p q : List ℝ) : Res ℝ := do
  let a ← esum (ab (.sub (.pt p) (.pt q)))
  let b ← esum (.add (.pt p) (.pt q))
  return a / b

/-- `AvgManhattan`: DistanceMetric.hpp 101-103. -/
noncomputable def avgManhattan (p q : List ℝ) : Res ℝ := do
  let a ← esum (ab (.sub (.pt p) (.pt q)))
  return a / p.length

/-- `NonIntersection`: DistanceMetric.hpp 109-111. -/
noncomputable def nonIntersection (p q : List ℝ) : Res ℝ := do
  let a ← esum (ab (.sub (.pt p) (.pt q)))
  return oneHalfInt * a

/-- `Jaccard`: DistanceMetric.hpp 123-126. -/
noncomputable def jaccard (p q : List ℝ) : Res ℝ := do
  let a ← esum (sq (.sub (.pt p) (.pt q)))
  let b ← esum (sq (.pt p))
  let c ← esum (sq (.pt q))
  let d ← esum (.mul (.pt p) (.pt q))
  return a / (b + c - d)

/-- `Cosine`: DistanceMetric.hpp 136-138. -/
noncomputable def cosine (p q : List ℝ) : Res ℝ := do
  let d ← esum (.mul (.pt p) (.pt q))
  let b ← esum (sq (.pt p))
  let c ← esum (sq (.pt q))
  return 1 - d / (Real.sqrt b * Real.sqrt c)

/-- `Dice`: DistanceMetric.hpp 148-150. -/
noncomputable def dice (p q : List ℝ) : Res ℝ := do
  let d ← esum (.mul (.pt p) (.pt q))
  let b ← esum (sq (.pt p))
  let c ← esum (sq (.pt q))
  return 1 - 2 * d / (b + c)

/-- `Chord`: DistanceMetric.hpp 160-162. -/
noncomputable def chord (p q : List ℝ) : Res ℝ := do
  let d ← esum (.mul (.pt p) (.pt q))
  let b ← esum (sq (.pt p))
  let c ← esum (sq (.pt q))
  return Real.sqrt (2 - 2 * (d / (b * c)))

/-- `Bhattacharyya`: DistanceMetric.hpp 174-176. -/
noncomputable def bhattacharyya (p q : List ℝ) : Res ℝ := do
  let a ← esum (root (.mul (.pt p) (.pt q)))
  return - Real.sqrt a

/-- `SquaredChord`: DistanceMetric.hpp 186-188. -/
noncomputable def squaredChord (p q : List ℝ) : Res ℝ := esum (sq (.sub (root (.pt p)) (root (.pt q))))

/-- `Matusita`: DistanceMetric.hpp 198-200. -/
noncomputable def matusita (p q : List ℝ) : Res ℝ := do
  let a ← esum (sq (.sub (root (.pt p)) (root (.pt q))))
  return Real.sqrt a

/-- `Hellinger`: DistanceMetric.hpp 210-212. -/
noncomputable def hellinger (p q : List ℝ) : Res ℝ := do
  let a ← esum (sq (.sub (root (.pt p)) (root (.pt q))))
  return Real.sqrt (2 * a)

/-- `SquaredEuclidean`: DistanceMetric.hpp 224-226. -/
noncomputable def squaredEuclidean (p q : List ℝ) : Res ℝ := esum (sq (.sub (.pt p) (.pt q)))

/-- `Clark`: DistanceMetric.hpp 236-238. -/
noncomputable def clark (p q : List ℝ) : Res ℝ :=
  esum (sq (.div (.sub (.pt p) (.pt q)) (.add (ab (.pt p)) (ab (.pt q)))))

/-- `Neyman`: DistanceMetric.hpp 248-250. -/
noncomputable def neyman (p q : List ℝ) : Res ℝ := esum (.div (sq (.sub (.pt p) (.pt q))) (.pt p))

/-- `Pearson`: DistanceMetric.hpp 260-262. -/
noncomputable def pearson (p q : List ℝ) : Res ℝ := esum (.div (sq (.sub (.pt p) (.pt q))) (.pt q))

/-- `Squared`: DistanceMetric.hpp 272-274. -/
noncomputable def squared (p q : List ℝ) : Res ℝ :=
  esum (.div (sq (.sub (.pt p) (.pt q))) (.add (.pt p) (.pt q)))

/-- `ProbabilisticSymmetric`: DistanceMetric.hpp 284-286. -/
noncomputable def probabilisticSymmetric (p q : List ℝ) : Res ℝ := do
  let a ← esum (.div (sq (.sub (.pt p) (.pt q))) (.add (.pt p) (.pt q)))
  return 2 * a

/-- `Divergence`: DistanceMetric.hpp 296-298. -/
noncomputable def divergence (p q : List ℝ) : Res ℝ := do
  let a ← esum (.div (sq (.sub (.pt p) (.pt q))) (sq (.add (.pt p) (.pt q))))
  return 2 * a

/-- `AdditiveSymmetric`: DistanceMetric.hpp 308-310. -/
noncomputable def additiveSymmetric (p q : List ℝ) : Res ℝ := do
  let a ← esum (.div (.mul (sq (.sub (.pt p) (.pt q))) (.add (.pt p) (.pt q))) (.mul (.pt p) (.pt q)))
  return 2 * a

/-- `Average`: DistanceMetric.hpp 320-322; `1/p1.size()` is an unsigned integer division. -/
noncomputable def average (p q : List ℝ) : Res ℝ := do
  if p.length = 0 then .error .divByZero
  let a ← esum (sq (.sub (.pt p) (.pt q)))
  return Real.sqrt (((1 / p.length : Nat) : ℝ) * a)

/-- `SquaredChiSquared`: DistanceMetric.hpp 340-342. -/
noncomputable def squaredChiSquared (p q : List ℝ) : Res ℝ :=
  esum (.div (sq (.sub (.pt p) (.pt q))) (ab (.add (.pt p) (.pt q))))

/-- `KullbackLeibler`: DistanceMetric.hpp 354-356. -/
noncomputable def kullbackLeibler (p q : List ℝ) : Res ℝ :=
  esum (.mul (.pt p) (lg (.div (.pt p) (.pt q))))

/-- `Jeffreys`: DistanceMetric.hpp 366-368. -/
noncomputable def jeffreys (p q : List ℝ) : Res ℝ :=
  esum (.mul (.sub (.pt p) (.pt q)) (lg (.div (.pt p) (.pt q))))

/-- `(p1 * log((2 * p1)/(p1 + p2))).sum()`, `KDivergence`: DistanceMetric.hpp 378-380. -/
noncomputable def kDivergence (p q : List ℝ) : Res ℝ :=
  esum (.mul (.pt p) (lg (.div (.mul (.sc 2) (.pt p)) (.add (.pt p) (.pt q)))))

/-- The second summand of `Topsoe`: DistanceMetric.hpp 391. -/
noncomputable def kDivergence' (p q : List ℝ) : Res ℝ :=
  esum (.mul (.pt q) (lg (.div (.mul (.sc 2) (.pt q)) (.add (.pt p) (.pt q)))))

/-- `Topsoe`: DistanceMetric.hpp 390-392. -/
noncomputable def topsoe (p q : List ℝ) : Res ℝ := do
  let a ← kDivergence p q
  let b ← kDivergence' p q
  return a + b

/-- `JensenShannon`: DistanceMetric.hpp 402-404. -/
noncomputable def jensenShannon (p q : List ℝ) : Res ℝ := do
  let a ← kDivergence p q
  let b ← kDivergence' p q
  return oneHalfInt * a + b

/-- `JensenDifference`: DistanceMetric.hpp 414-416. -/
noncomputable def jensenDifference (p q : List ℝ) : Res ℝ := do
  let m : Expr ℝ := .div (.add (.pt p) (.pt q)) (.sc 2)
  let a ← esum (.sub (.div (.add (.mul (.pt p) (lg (.pt p))) (.mul (.pt q) (lg (.pt q)))) (.sc 2))
    (.mul m (lg m)))
  return oneHalfInt * a

/-- `MaxSymmetric`: DistanceMetric.hpp 432-434. -/
noncomputable def maxSymmetric (p q : List ℝ) : Res ℝ := do
  let a ← esum (.div (sq (.sub (.pt p) (.pt q))) (.pt p))
  let b ← esum (.div (sq (.sub (.pt p) (.pt q))) (.pt q))
  return max a b

/-- `MinSymmetric`: DistanceMetric.hpp 440-442 (calls `std::max`). -/
noncomputable def minSymmetric (p q : List ℝ) : Res ℝ := do
  let a ← esum (.div (sq (.sub (.pt p) (.pt q))) (.pt p))
  let b ← esum (.div (sq (.sub (.pt p) (.pt q))) (.pt q))
  return max a b

/-- `AverageL1Linf`: DistanceMetric.hpp 454-456; `lo` is `std::numeric_limits<T>::min()`. -/
noncomputable def averageL1Linf (lo : ℝ) (p q : List ℝ) : Res ℝ := do
  let a ← esum (ab (.sub (.pt p) (.pt q)))
  let x ← (ab (.sub (.pt p) (.pt q))).construct
  return (a + pmax lo x) / 2

/-- `KumarJohnson`: DistanceMetric.hpp 466-468; `3/2` is the integer `1`. -/
noncomputable def kumarJohnson (p q : List ℝ) : Res ℝ :=
  esum (.div (sq (.add (sq (.pt p)) (sq (.pt q))))
    (.mul (.sc 2) (.un (fun v => v ^ (3 / 2 : Nat)) (.mul (.pt p) (.pt q)))))

/-- `Taneja`: DistanceMetric.hpp 478-480. -/
noncomputable def taneja (p q : List ℝ) : Res ℝ :=
  esum (.mul (.div (.add (.pt p) (.pt q)) (.sc 2))
    (lg (.div (.add (.pt p) (.pt q)) (.mul (.sc 2) (root (.mul (.pt p) (.pt q)))))))

/-- One summand of `Hassanat`: DistanceMetric.hpp 493-499. -/
noncomputable def hassanatTerm (a b : ℝ) : ℝ :=
  if min a b ≥ 0 then 1 - (1 + min a b) / (1 + max a b)
  else 1 - (1 + min a b + |min a b|) / (1 + max a b + |max a b|)

/-- Loop of `Hassanat`: DistanceMetric.hpp 491-501; `p2[i]` is not checked. -/
noncomputable def hassanatLoop : List ℝ → List ℝ → ℝ → Res ℝ
  | [], _, s => .ok s
  | _ :: _, [], _ => .error .outOfBounds
  | a :: p, b :: q, s => hassanatLoop p q (s + hassanatTerm a b)

/-- `Hassanat`: DistanceMetric.hpp 490-502. -/
noncomputable def hassanat (p q : List ℝ) : Res ℝ := hassanatLoop p q 0

end MLTK.Metric
