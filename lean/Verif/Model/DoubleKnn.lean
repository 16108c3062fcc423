import Verif.Model.DoubleMetric
import Verif.Model.Neighbors
/-!
# `KNNClassifier` in `double` arithmetic

The brute-force search of `Model/Neighbors` with distances computed at the call and compared as in `Model/Double`.
Simplifications as there; precomputed distances are not modelled here.
-/
namespace MLTK.Fp
open MLTK.Knn (NthFn frequency)

/-- The indices of the `k` samples `nth_element` puts first.  Models KNNClassifier.hpp:74-86. -/
def nearestIdx (nth : NthFn) (k : Nat) (dist : List Dbl → List Dbl → Res Dbl) (samples : List (Pt Dbl)) (p : Pt Dbl) :
    Res (List Nat) := do
  let keys ← samples.mapM (fun q => dist p.x q.x)
  if samples.length < k then .error .outOfBounds
  else .ok ((nth (fun i j => (keys.getD i (.fin 0)).lt (keys.getD j (.fin 0))) k (List.range samples.length)).take k)

/-- The smoothing constant `0.0001`.  Models KNNClassifier.hpp:129. -/
def smoothing : Dbl := rnd (1 / 10000)

/-- The loop over the classes.  Models KNNClassifier.hpp:127-144. -/
def classScan (freq : Int → Nat) (k n : Nat) : List Int → Nat → Nat × Nat × Dbl → Nat × Nat × Dbl
  | [], _, st => st
  | c :: cs, i, st =>
    classScan freq k n cs (i + 1)
      (if freq c > st.1 then
        (freq c, i, ((Dbl.ofNat (freq c)).add smoothing).div ((Dbl.ofNat k).add ((Dbl.ofNat n).mul smoothing)))
       else st)

/-- `1E-7`.  Models KNNClassifier.hpp:146. -/
def tiny : Dbl := rnd (1 / 10000000)

/-- `KNNClassifier::evaluate(p)`: the class and the value left in `pred_prob`.  Models KNNClassifier.hpp:63-149. -/
def knnEvaluate (nth : NthFn) (k : Nat) (dist : List Dbl → List Dbl → Res Dbl) (dim : Nat) (samples : List (Pt Dbl))
    (classes : List Int) (p : Pt Dbl) : Res (Int × Dbl) :=
  if dim ≠ p.x.length then .error .assertFail
  else do
    let near ← nearestIdx nth k dist samples p
    let st := classScan (frequency true samples near) k classes.length classes 0 (0, 0, .fin 0)
    let r ← vget classes st.2.1
    pure (r, if tiny.lt ((Dbl.fin 1).sub st.2.2) then .fin 1 else st.2.2)

end MLTK.Fp
