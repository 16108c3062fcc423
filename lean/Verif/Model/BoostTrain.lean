import Verif.Model.Voting
/-!
# `AdaBoostClassifier` with its base estimators

Source: ufjfmltk-ensemble/include/ufjfmltk/ensemble/AdaBoostClassifier.hpp.

Simplifications: those of `Model/Voting`; a base estimator is the function `fit` that makes a trained estimator of a seed and the
samples (what it holds from earlier trainings is not modelled, `Model/Ensemble` and `Model/Reuse` do that).
-/
namespace MLTK.Vote

section
variable {T : Type}

/-- The rounds from round `i` on: `setSeed(seed + i)`, `setSamples`, `train`, the samples the estimator gets wrong, the weights.
Models AdaBoostClassifier.hpp:37-56. -/
noncomputable def adaLoop (fit : Nat → List (Pt T) → List T → Int) (seed nc : Nat) (samples : List (Pt T)) :
    Nat → Nat → List ℝ → Res (List (List T → Int) × List ℝ)
  | 0, _, _ => .ok ([], [])
  | n + 1, i, ws => do
    let learner := fit (seed + i) samples
    let r ← boostRound nc ws (samples.map (fun p => decide (p.y ≠ learner p.x)))
    let rest ← adaLoop fit seed nc samples n (i + 1) r.1
    pure (learner :: rest.1, r.2 :: rest.2)

/-- `train`: the trained estimators and their weights.  Models AdaBoostClassifier.hpp:30-60. -/
noncomputable def adaTrain (fit : Nat → List (Pt T) → List T → Int) (seed n nc : Nat) (samples : List (Pt T)) :
    Res (List (List T → Int) × List ℝ) :=
  adaLoop fit seed nc samples n 0 (List.replicate samples.length (1 / (samples.length : ℝ)))

/-- `evaluate`.  Models AdaBoostClassifier.hpp:62-74. -/
noncomputable def adaEvaluate (learners : List (List T → Int)) (alpha : List ℝ) (classes : List Int) (x : List T) : Res Int :=
  evaluateBoost learners.length alpha classes (learners.map (fun l => l x))

end
end MLTK.Vote
