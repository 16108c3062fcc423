import Verif.Model.DoubleStats
/-!
# Radius, distance of the class centres and covariance in `double` arithmetic

A dataset of `size` samples with `dim` features is given by the value `x i j` of feature `j` in sample `i`, the name `names j` of feature
`j` and the label `y i` of sample `i`; that the containers hold these elements is `Model/Stats`.  `std::sqrt` is a parameter,
`std::pow(v, 2)` is the correctly rounded square.
-/
namespace MLTK.Fp

/-- `std::pow(v, 2)`.  Models Statistics.hpp:208, 256, 291. -/
def pow2 (v : Dbl) : Dbl := v.mul v

/-- The features that take part.  Models Statistics.hpp:195, 207, 217, 255. -/
def partake (names : ℕ → ℤ) (feat : ℤ) (dim : ℕ) : List ℕ :=
  (List.range dim).filter (fun j => decide (feat < 0) || decide (names j ≠ feat))

/-- The average of a feature; `size` is not tested.  Models Statistics.hpp:196-200. -/
def avgAt (x : ℕ → ℕ → Dbl) (size j : ℕ) : Dbl := (total ((List.range size).map (fun i => x i j))).div (.ofNat size)

/-- `norm` before the root.  Models Statistics.hpp:206-210. -/
def normAt (x : ℕ → ℕ → Dbl) (size : ℕ) (js : List ℕ) (i : ℕ) : Dbl :=
  js.foldl (fun s j => s.add (pow2 ((avgAt x size j).sub (x i j)))) (.fin 0)

/-- `radius(data, feat, q)`.  Models Statistics.hpp:185-226. -/
def radiusOf (sqrt : Dbl → Dbl) (x : ℕ → ℕ → Dbl) (names : ℕ → ℤ) (size dim : ℕ) (feat : ℤ) (q : Dbl) : Dbl :=
  let js := partake names feat dim
  if q.eq (.fin 2) then
    (List.range size).foldl (fun mx i => let norm := sqrt (normAt x size js i); if mx.lt norm then norm else mx) (.fin 0)
  else if q.eq (.fin 1) then
    (List.range size).foldl (fun mx i => js.foldl (fun mx j => if mx.lt (x i j).abs then (x i j).abs else mx) mx) (.fin 0)
  else .fin 1

/-- `size_pos` (for `true`) or `size_neg`.  Models Statistics.hpp:236-239, 270-273. -/
def sideSize (y : ℕ → Dbl) (size : ℕ) (side : Bool) : ℕ := ((List.range size).filter (fun i => (y i).eq (.fin 1) == side)).length

/-- `avg_pos[j]` (for `true`) or `avg_neg[j]`.  Models Statistics.hpp:241-252, 275-286. -/
def sideAvg (x : ℕ → ℕ → Dbl) (y : ℕ → Dbl) (size : ℕ) (side : Bool) (j : ℕ) : Dbl :=
  (total (((List.range size).filter (fun i => (y i).eq (.fin 1) == side)).map (fun i => x i j))).div (.ofNat (sideSize y size side))

/-- The argument of the root in `distCenters(data, feat)`.  Models Statistics.hpp:254-257. -/
def gapOf (x : ℕ → ℕ → Dbl) (y : ℕ → Dbl) (names : ℕ → ℤ) (size dim : ℕ) (feat : ℤ) : Dbl :=
  (partake names feat dim).foldl (fun s j => s.add (pow2 ((sideAvg x y size true j).sub (sideAvg x y size false j)))) (.fin 0)

/-- `distCenters(data, feat)`.  Models Statistics.hpp:228-260. -/
def distCentersOf (sqrt : Dbl → Dbl) (x : ℕ → ℕ → Dbl) (y : ℕ → Dbl) (names : ℕ → ℤ) (size dim : ℕ) (feat : ℤ) : Dbl :=
  sqrt (gapOf x y names size dim feat)

/-- `covar(p, p1)`; the divisor is computed as a `double`.  Models Statistics.hpp:179-183. -/
def covarPoint (p p1 : List Dbl) : Res Dbl :=
  if p.length = p1.length then do
    let m ← meanPoint p
    let m1 ← meanPoint p1
    return (total (List.zipWith (fun a b => (a.sub m).mul (b.sub m1)) p p1)).div ((Dbl.ofNat p1.length).sub (.fin 1))
  else .error .assertFail

end MLTK.Fp
