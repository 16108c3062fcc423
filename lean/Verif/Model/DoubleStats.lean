import Verif.Model.DoubleMetric
/-!
# Mean and deviation in `double` arithmetic

A feature is given by the list of its values, one per sample; that it exists in every sample is `Model/Stats`.  `std::sqrt` is a
parameter, `std::pow(v, 2)` is the correctly rounded square.
-/
namespace MLTK.Fp

/-- `mean(data, feat)`.  Models Statistics.hpp:108-116. -/
def meanOf (xs : List Dbl) : Dbl := if xs.length > 0 then (total xs).div (.ofNat xs.length) else .fin 0

/-- `sd` after the loop.  Models Statistics.hpp:134-136. -/
def squares (avg : Dbl) (xs : List Dbl) : Dbl :=
  xs.foldl (fun sd x => sd.add ((x.sub avg).mul (x.sub avg))) (.fin 0)

/-- The argument of the root in `std_dev(data, feat)`; `data.size() - 1` is unsigned.  Models Statistics.hpp:132-138. -/
def spread (xs : List Dbl) : Dbl :=
  (squares (meanOf xs) xs).div (.ofNat ((xs.length + (2 ^ 64 - 1)) % 2 ^ 64))

/-- `std_dev(data, feat)`.  Models Statistics.hpp:124-139. -/
def stdDevOf (sqrt : Dbl → Dbl) (xs : List Dbl) : Dbl := if xs.length = 1 then .fin 0 else sqrt (spread xs)

/-- `mean(p)`.  Models Statistics.hpp:102-106. -/
def meanPoint (xs : List Dbl) : Res Dbl :=
  if xs.length > 0 then .ok ((total xs).div (.ofNat xs.length)) else .error .assertFail

/-- `var(p)`.  Models Statistics.hpp:141-145. -/
def varPoint (xs : List Dbl) : Res Dbl := do
  let m ← meanPoint xs
  return (total (xs.map (fun x => (x.sub m).mul (x.sub m)))).div (.ofNat xs.length)

end MLTK.Fp
