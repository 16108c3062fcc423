import Verif.Model.DoubleVote
/-!
# `AdaBoostClassifier::train` in `double` arithmetic

The rounds of `Model/BoostTrain` with every operation carried out as in `Model/Double`.  `std::log` and `std::exp` are
parameters; a base estimator is the function `fit` that makes a trained estimator of a seed and the samples.
-/
namespace MLTK.Fp
variable {T : Type}

/-- `errors`: the weight of each sample the estimator gets wrong, 0 for the others.  Models AdaBoostClassifier.hpp:43-48. -/
def missWeights (weights : List Dbl) (miss : List Bool) : List Dbl :=
  List.zipWith (fun w (b : Bool) => if b then w else .fin 0) weights miss

/-- `mltk::dot(p, p1)`.  Models Point.hpp:528-537. -/
def pointDot (p q : List Dbl) : Dbl := (List.zipWith Dbl.mul p q).foldl Dbl.add (.fin 0)

/-- `alpha[m]`; `nc` is the number of classes, `nc - 1` is computed as `size_t`.  Models AdaBoostClassifier.hpp:52. -/
def estimatorWeight (log : Dbl → Dbl) (nc : Nat) (err : Dbl) : Dbl :=
  (if (Dbl.fin 0).lt err then log (((Dbl.fin 1).sub err).div err) else .fin 1).add (log (Dbl.ofNat (decSize nc)))

/-- One round: the new weights of the samples and the weight of the estimator.  Models AdaBoostClassifier.hpp:43-55. -/
def adaRound (log exp : Dbl → Dbl) (nc : Nat) (weights : List Dbl) (miss : List Bool) : List Dbl × Dbl :=
  let errors := missWeights weights miss
  let a := estimatorWeight log nc ((pointDot weights errors).div (total weights))
  let ws := List.zipWith (fun w e => w.mul (exp (a.mul e))) weights errors
  (ws.map (fun w => w.div (total ws)), a)

/-- The rounds from round `i` on: the trained estimators, their weights and the final weights of the samples.
Models AdaBoostClassifier.hpp:37-56. -/
def adaLoop (log exp : Dbl → Dbl) (fit : Nat → List (Pt T) → List T → Int) (seed nc : Nat) (samples : List (Pt T)) :
    Nat → Nat → List Dbl → List (List T → Int) × List Dbl × List Dbl
  | 0, _, ws => ([], [], ws)
  | n + 1, i, ws =>
    let learner := fit (seed + i) samples
    let r := adaRound log exp nc ws (samples.map (fun p => decide (p.y ≠ learner p.x)))
    let rest := adaLoop log exp fit seed nc samples n (i + 1) r.1
    (learner :: rest.1, r.2 :: rest.2.1, rest.2.2)

/-- `train`.  Models AdaBoostClassifier.hpp:30-60. -/
def adaTrain (log exp : Dbl → Dbl) (fit : Nat → List (Pt T) → List T → Int) (seed n nc : Nat) (samples : List (Pt T)) :
    List (List T → Int) × List Dbl × List Dbl :=
  adaLoop log exp fit seed nc samples n 0 (List.replicate samples.length ((Dbl.fin 1).div (Dbl.ofNat samples.length)))

/-- `evaluate`.  Models AdaBoostClassifier.hpp:62-74. -/
def adaEvaluate (learners : List (List T → Int)) (alpha : List Dbl) (classes : List Int) (x : List T) : Res Int :=
  boostEvaluate learners.length alpha classes (learners.map (fun l => l x))

end MLTK.Fp
