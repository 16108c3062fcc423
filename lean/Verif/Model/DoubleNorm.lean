import Verif.Model.DoubleMetric
/-!
# Normalising in `double` arithmetic

`power` is `std::pow(·, q)` and `root` is `std::pow(·, 1.0/q)`; both are parameters.
-/
namespace MLTK.Fp

/-- The norm computed by `normalize(p, q)` and `Point::norm(q)`.  Models Point.hpp:655, 664. -/
def normBy (power root : Dbl → Dbl) (p : List Dbl) : Dbl := root (total (p.map (fun v => power v.abs)))

/-- `normalize(p, q)`.  Models Point.hpp:663-677 and `operator/=`, Point.hpp:491-497. -/
def normalizeBy (power root : Dbl → Dbl) (p : List Dbl) : List Dbl := p.map (fun v => v.div (normBy power root p))

/-- What `Data::normalize(q)` does to the features of one sample: a feature one is added before dividing.
Models Data.hpp:1651-1663. -/
def normalizeSample (power root : Dbl → Dbl) (p : List Dbl) : List Dbl :=
  let n := root ((total (p.map (fun v => power v.abs))).add (power (Dbl.fin 1).abs))
  (p ++ [Dbl.fin 1]).map (fun v => v.div n)

end MLTK.Fp
