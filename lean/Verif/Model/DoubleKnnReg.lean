import Verif.Model.DoubleMetric
import Verif.Model.Neighbors
/-!
# `KNNRegressor` in `double` arithmetic

`KNNRegressor::evaluate` of `Model/Neighbors` with distances compared and targets summed as in `Model/Double`.
-/
namespace MLTK.Fp
open MLTK.Knn (RSample)

/-- `for (j < k) sum += points[idx[j]]->Y();` starting from `0.0`.  Models KNNRegressor.hpp:53-58. -/
def targetSum (samples : List (RSample Dbl)) (idx : List Nat) : Nat → Res Dbl
  | 0 => .ok (.fin 0)
  | j+1 => do
    let s ← targetSum samples idx j
    let i ← vget idx j
    let q ← vget samples i
    pure (s.add q.y)

/-- `KNNRegressor::evaluate`.  `std::stable_sort` with `distances[i1] < distances[i2]` is the stable insertion sort, which is what
the standard requires when no distance is NaN; `sum / k` converts `k` to `double`.  Models KNNRegressor.hpp:34-60. -/
def knnRegress (k : Nat) (dist : List Dbl → List Dbl → Res Dbl) (samples : List (RSample Dbl)) (p : List Dbl) : Res Dbl := do
  let ds ← samples.mapM (fun q => dist p q.x)
  let idx := (List.range samples.length).insertionSort (fun i j => (ds.getD j (.fin 0)).lt (ds.getD i (.fin 0)) = false)
  let s ← targetSum samples idx k
  pure (s.div (Dbl.ofNat k))

end MLTK.Fp
