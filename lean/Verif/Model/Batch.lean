import Mathlib.Algebra.Order.Floor.Ring
import Verif.Model.Lifecycle
import Verif.Model.Neighbors
import Verif.Model.Voting
/-!
# Model of `batchEvaluate` and `batchEvaluateProbability`

Sources: ufjfmltk-core/include/ufjfmltk/core/Learner.hpp 217-224,
ufjfmltk-classifier/include/ufjfmltk/classifier/Classifier.hpp 42-43, 82-89.

A learner is a state `S` and a function `ev` that answers a point and leaves a new state (`evaluate` is not `const`).
`std::transform` may apply its operation in any order (C++ standard), so the order is a parameter.
-/
namespace MLTK.Batch
variable {S K X : Type}

/-- One application of the operation of `std::transform`, at position `i`.  Models Learner.hpp 220-222. -/
def visit (ev : S → X → Res (K × S)) (points : List X) (st : List K × S) (i : Nat) : Res (List K × S) := do
  let x ← vget points i
  let (y, s) ← ev st.2 x
  let preds ← vset st.1 i y
  return (preds, s)

/-- `batchEvaluate`: the positions of the result are filled in the order `order`.  Models Learner.hpp 217-224. -/
def batchEvaluate [Zero K] (ev : S → X → Res (K × S)) (order : List Nat) (s : S) (points : List X) : Res (List K × S) :=
  order.foldlM (visit ev points) (List.replicate points.length 0, s)

/-- Conversion of a `double` to `int`: towards zero. -/
def toInt {F : Type} [Ring F] [LinearOrder F] [FloorRing F] (x : F) : Int := if 0 ≤ x then ⌊x⌋ else ⌈x⌉

/-- `batchEvaluateProbability` of a class whose `evaluateProbability` is `prob`: the result is a `Point<int>`.
Models Classifier.hpp 82-89. -/
def batchProbability {F : Type} [Ring F] [LinearOrder F] [FloorRing F] (prob : X → F) (points : List X) : List Int :=
  points.map (fun x => toInt (prob x))

/-- `evaluateProbability`; no class overrides it.  Models Classifier.hpp 42. -/
def evaluateProbability {F : Type} [Zero F] (_ : X) : F := 0

/-- A trained primal classifier as a learner.  Models PrimalClassifier.hpp 42-57. -/
def primalLearner {F : Type} [Field F] [LinearOrder F] (o : Life.Primal F) (x : List F) : Res (Int × Life.Primal F) :=
  .ok (o.evaluate x, o)

/-- A nearest-neighbour classifier as a learner; its state is `pred_prob`.  Models KNNClassifier.hpp 63-149. -/
def knnLearner {T F : Type} [Field F] [LinearOrder F] (nth : Knn.NthFn) (c : Knn.Cfg F) (dist : List T → List T → Res F)
    (dim : Nat) (samples : List (Pt T)) (classes : List Int) (_ : F) (p : Pt T) : Res (Int × F) :=
  Knn.evaluate nth c dist dim samples classes p

/-- A voting ensemble as a learner; `answers` are those of its members.  Models VotingClassifier.hpp 38-57. -/
def votingLearner {F : Type} [Field F] [LinearOrder F] (classes : List Int) (answers : X → List Int)
    (v : Vote.Voter F) (x : X) : Res (Int × Vote.Voter F) := do
  let (v', c) ← Vote.evaluateVoting v classes (answers x)
  return (c, v')

end MLTK.Batch
