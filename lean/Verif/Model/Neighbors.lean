import Mathlib.Algebra.Order.Field.Basic
import Mathlib.Data.List.Sort
import Verif.Model.Data
/-!
# Nearest-neighbour classifier and regressor

`KNNClassifier::evaluate` (ufjfmltk-classifier/include/ufjfmltk/classifier/KNNClassifier.hpp) and
`KNNRegressor::evaluate` (ufjfmltk-regressor/include/ufjfmltk/regressor/KNNRegressor.hpp).

Simplifications: `double` is an ordered field `K`; the training set is the list of its points (the
pointers are only read); the metric is a function that may fault (`Res`); `std::nth_element` is a
parameter, described by its postcondition in `Spec/Neighbors.lean`.  A comparator that would read
outside the distance matrix faults at once, whether or not the sort happens to call it.
-/
namespace MLTK.Knn

/-- The standard's `nth_element(first, first + n, last, comp)` on a vector of indices, as a function
of the comparator, `n` and the vector. -/
abbrev NthFn := (Nat → Nat → Bool) → Nat → List Nat → List Nat

/-- `BaseMatrix`: `rows` and `isDiagonal`.  DistanceMatrix.hpp:9-31. -/
structure Matrix (K : Type) where
  rows : List (List K) := []
  diagonal : Bool := false

/-- Settings of a `KNNClassifier`: `k`, whether `algorithm == "brute"`, whether `precomputed`, and
the stored matrix.  KNNClassifier.hpp:24-30. -/
structure Cfg (K : Type) where
  k : Nat := 3
  brute : Bool := true
  precomputed : Bool := false
  distances : Matrix K := {}

section
variable {T K : Type} [Field K] [LinearOrder K]

/-- `setPrecomputedDistances`: KNNClassifier.hpp:49-52. -/
def setPrecomputed (c : Cfg K) (m : Matrix K) : Cfg K := { c with distances := m, precomputed := true }

/-- `precomputeDistances`: KNNClassifier.hpp:54-58; the matrix is returned, not stored. -/
def precompute (c : Cfg K) (mk : Matrix K) : Cfg K × Matrix K := ({ c with precomputed := true }, mk)

/-- `this->distances[a][b]`: BaseMatrix::operator[], Point::operator[]. -/
def entry (m : Matrix K) (a b : Nat) : Res K := do
  let row ← vget m.rows a
  vget row b

/-- Value by which the sample with id `id` is compared: the distance to the query (77-80, 85), the
matrix entry of the query's row (88-93), or the entry below the diagonal (97-109; the entry of the
query itself is not read: 101).  `id - 1` is `size_t` arithmetic. -/
def keyOf (c : Cfg K) (dist : List T → List T → Res K) (p q : Pt T) : Res K :=
  if c.precomputed = false then dist p.x q.x
  else if c.distances.diagonal = false then entry c.distances (decSize p.id) (decSize q.id)
  else if decSize p.id = decSize q.id then .ok 0
  else entry c.distances (max (decSize p.id) (decSize q.id)) (min (decSize p.id) (decSize q.id))

/-- The comparator handed to `nth_element`: KNNClassifier.hpp:84-86, 89-94, 96-110. -/
def less (c : Cfg K) (p : Pt T) (samples : List (Pt T)) (keys : List K) (i j : Nat) : Bool :=
  if c.precomputed = true ∧ c.distances.diagonal = true ∧
      (some (decSize p.id) = (samples[i]?).map (fun q => decSize q.id) ∨
       some (decSize p.id) = (samples[j]?).map (fun q => decSize q.id)) then false
  else decide (keys.getD i 0 < keys.getD j 0)

/-- `calculateFrequency(c)`: KNNClassifier.hpp:114-124; with another algorithm `neigh` is empty. -/
def frequency (brute : Bool) (samples : List (Pt T)) (near : List Nat) (c : Int) : Nat :=
  if brute then near.countP (fun i => decide ((samples[i]?).map (·.y) = some c)) else 0

/-- The loop over the classes: `(maxDetails.first, maxDetails.second, max_prob)`.
KNNClassifier.hpp:127-144; `s` is the smoothing constant of line 129. -/
def scan (freq : Int → Nat) (k n : Nat) (s : K) :
    List Int → Nat → Nat × Nat × K → Nat × Nat × K
  | [], _, st => st
  | c :: cs, i, st =>
    scan freq k n s cs (i + 1)
      (if freq c > st.1 then (freq c, i, ((freq c : K) + s) / ((k : K) + (n : K) * s)) else st)

/-- The smoothing constant `0.0001`: KNNClassifier.hpp:129. -/
def smooth : K := 1 / 10000

/-- The reported probability: KNNClassifier.hpp:146. -/
def reported (maxProb : K) : K := if 1 - maxProb > 1 / 10000000 then 1 else maxProb

/-- The range `idx.begin() … idx.begin() + k` after `nth_element` (`neigh`, empty, with another
algorithm).  KNNClassifier.hpp:65-112, 116, 120. -/
def neighbours (nth : NthFn) (c : Cfg K) (dist : List T → List T → Res K) (samples : List (Pt T))
    (p : Pt T) : Res (List Nat) :=
  if c.brute then do
    let keys ← samples.mapM (keyOf c dist p)
    if samples.length < c.k then .error .outOfBounds
    else .ok ((nth (less c p samples keys) c.k (List.range samples.length)).take c.k)
  else .ok []

/-- The class and the value left in `pred_prob`: KNNClassifier.hpp:126-148. -/
def decideClass (c : Cfg K) (samples : List (Pt T)) (classes : List Int) (near : List Nat) : Res (Int × K) := do
  let st := scan (frequency c.brute samples near) c.k classes.length smooth classes 0 (0, 0, (0 : K))
  let r ← vget classes st.2.1
  pure (r, reported st.2.2)

/-- `KNNClassifier::evaluate(p)`: the class and the value left in `pred_prob`.
KNNClassifier.hpp:63-149; `dim` is `samples->dim()`. -/
def evaluate (nth : NthFn) (c : Cfg K) (dist : List T → List T → Res K) (dim : Nat)
    (samples : List (Pt T)) (classes : List Int) (p : Pt T) : Res (Int × K) :=
  if dim ≠ p.x.length then .error .assertFail
  else do
    let near ← neighbours nth c dist samples p
    decideClass c samples classes near

/-! ### Regression -/

/-- A regression sample: features and target (`Y()` is a `double`). -/
structure RSample (K : Type) where
  x : List K
  y : K
  deriving DecidableEq, Repr

/-- `for (j < k) sum += points[idx[j]]->Y();`: KNNRegressor.hpp:53-58. -/
def sumTargets (samples : List (RSample K)) (idx : List Nat) : Nat → Res K
  | 0 => .ok 0
  | j+1 => do
    let s ← sumTargets samples idx j
    let i ← vget idx j
    let q ← vget samples i
    pure (s + q.y)

/-- `KNNRegressor::evaluate`: KNNRegressor.hpp:34-60.  `std::stable_sort` is the stable insertion
sort; `sum / 0` is not a finite number. -/
def regress (dist : List K → List K → Res K) (k : Nat) (samples : List (RSample K)) (p : List K) : Res K := do
  let ds ← samples.mapM (fun q => dist p q.x)
  let idx := (List.range samples.length).insertionSort (fun i j => ds.getD i 0 ≤ ds.getD j 0)
  let s ← sumTargets samples idx k
  if k = 0 then .error .nonFinite
  pure (s / (k : K))

end
end MLTK.Knn
