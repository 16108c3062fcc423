import Verif.Model.DoubleMetric
import Verif.Model.Voting
/-!
# Votes counted in `double` arithmetic

The voting ensembles of `Model/Voting` with the votes added and compared as in `Model/Double`.  Simplifications as there.
-/
namespace MLTK.Fp

/-- Loop of `std::max_element` over `double`s. -/
def maxLoop : List Dbl → Nat → Nat → Dbl → Nat
  | [], _, best, _ => best
  | x :: l, i, best, v => if v.lt x then maxLoop l (i + 1) i x else maxLoop l (i + 1) best v

/-- `std::max_element(v.begin(), v.end()) - v.begin()`.  Models VotingClassifier.hpp:55, AdaBoostClassifier.hpp:72,
OneVsAll.hpp:98. -/
def maxElement : List Dbl → Nat
  | [] => 0
  | x :: l => maxLoop l 1 0 x

/-- The loop of `VotingClassifier::evaluate` from learner `i` on: `votes[pred_pos] += weights[i]`.
Models VotingClassifier.hpp:46-54. -/
def tally (classes : List Int) (weights : List Dbl) : List Int → Nat → List Dbl → Res (List Dbl)
  | [], _, votes => .ok votes
  | pred :: preds, i, votes => do
    let w ← vget weights i
    let v ← vget votes (classes.findIdx (· == pred))
    let votes ← vset votes (classes.findIdx (· == pred)) (v.add w)
    tally classes weights preds (i + 1) votes

/-- `VotingClassifier::evaluate`; hard voting overwrites the weights by ones.  Models VotingClassifier.hpp:38-57. -/
def voteEvaluate (soft : Bool) (weights : List Dbl) (classes : List Int) (preds : List Int) : Res Int := do
  let ws ← if soft then (if weights = [] then .error .assertFail else .ok weights)
    else .ok (List.replicate preds.length (.fin 1))
  let votes ← tally classes ws preds 0 (List.replicate classes.length (.fin 0))
  vget classes (maxElement votes)

/-- `prob[c]` after the inner loop of `AdaBoostClassifier::evaluate`.  Models AdaBoostClassifier.hpp:66-70. -/
def boostScore (alpha : List Dbl) (preds : List Int) (c : Int) : Nat → Res Dbl
  | 0 => .ok (.fin 0)
  | m+1 => do
    let s ← boostScore alpha preds c m
    let q ← vget preds m
    if q = c then do
      let a ← vget alpha m
      pure (s.add a)
    else pure s

/-- `AdaBoostClassifier::evaluate`.  Models AdaBoostClassifier.hpp:62-74. -/
def boostEvaluate (nEst : Nat) (alpha : List Dbl) (classes : List Int) (preds : List Int) : Res Int := do
  let prob ← classes.mapM (fun c => boostScore alpha preds c nEst)
  vget classes (maxElement prob)

/-- `OneVsAll::evaluate`; `vals` are the answers `learner->evaluate(p, true)`.  Models OneVsAll.hpp:87-101. -/
def oneVsAll (classes : List Int) (vals : List Dbl) : Res Int := vget classes (maxElement vals)

end MLTK.Fp
