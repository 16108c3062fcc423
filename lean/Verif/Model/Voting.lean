import Mathlib.Algebra.Order.Field.Basic
import Mathlib.Analysis.SpecialFunctions.Log.Basic
import Verif.Model.Data
import Verif.Model.Perceptron
/-!
# Combining classifiers

One-vs-one and one-vs-all (ufjfmltk-classifier/include/ufjfmltk/classifier/OneVsOne.hpp,
OneVsAll.hpp) and the ensembles (ufjfmltk-ensemble/include/ufjfmltk/ensemble/*.hpp).

Simplifications: the base learners are arbitrary: a learner is what it answers for the query point
(the virtual call `evaluate`), a training is the dataset it is given; labels are integers; `double`
is an ordered field `K` (ℝ where `exp` and `log` occur).  The optional over-sampling method is absent.
-/
namespace MLTK.Vote

/-- Loop of `std::max_element`: `best` is the position of the largest so far, `i` that of the head. -/
def maxLoop {K : Type} [LinearOrder K] : List K → Nat → Nat → K → Nat
  | [], _, best, _ => best
  | x :: l, i, best, v => if v < x then maxLoop l (i + 1) i x else maxLoop l (i + 1) best v

/-- `std::max_element(v.begin(), v.end()) - v.begin()`: the first largest element, the end for an
empty range. -/
def maxElement {K : Type} [LinearOrder K] : List K → Nat
  | [] => 0
  | x :: l => maxLoop l 1 0 x

/-- `votes[pos] += w`. -/
def addAt {K : Type} [Add K] (votes : List K) (pos : Nat) (w : K) : Res (List K) := do
  let v ← vget votes pos
  vset votes pos (v + w)

/-! ### Training of the multi-class wrappers -/
section
variable {T : Type}

/-- `temp_samples[k]->Y() = (temp_samples[k]->Y() == c) ? 1 : -1` for the given pointers.
OneVsAll.hpp:66-68, OneVsOne.hpp:101-103. -/
def relabel (c : Int) : Mem T → List Nat → Res (Mem T)
  | m, [] => .ok m
  | m, r :: rs => do
    let p ← deref m r
    relabel c (m.set r { p with y := if p.y = c then 1 else -1 }) rs

/-- The loop of `classesCopy`: new points for the samples whose label is one of the classes.
Data.hpp:1526-1536. -/
def classesCopyPoints (cs : List Int) : Mem T → List Nat → List Nat → Res (Mem T × List Nat)
  | m, acc, [] => .ok (m, acc)
  | m, acc, r :: rs => do
    let p ← deref m r
    if p.y ∈ cs then classesCopyPoints cs (m ++ [p]) (acc ++ [m.length]) rs
    else classesCopyPoints cs m acc rs

/-- The fields set by `classesCopy`: Data.hpp:1538-1547. -/
def copiedData (d : Data) (cs : List Int) (pts : List Nat) : Data :=
  { points := pts, fnames := d.fnames, msize := pts.length, classes := cs, mdim := d.mdim,
    type := d.type, index := d.index, isEmpty := d.isEmpty, normalized := d.normalized,
    timeMult := d.timeMult, cdistComputed := false }

/-- `Data::classesCopy(data, classes)` on a default constructed dataset: Data.hpp:1519-1548. -/
def classesCopy (m : Mem T) (d : Data) (cs : List Int) : Res (Mem T × Data) := do
  let (m, pts) ← classesCopyPoints cs m [] d.points
  return (m, copiedData d cs pts)

/-- `OneVsAll::train`: the dataset each base learner is trained on.  OneVsAll.hpp:55-85. -/
def trainOvA (d : Data) : Mem T → List Int → Res (Mem T × List Data)
  | m, [] => .ok (m, [])
  | m, c :: cs => do
    let (m, t) ← Data.copy m d
    let t := Data.setClasses t [-1, 1]
    let m ← relabel c m t.points
    let (m, ts) ← trainOvA d m cs
    return (m, t :: ts)

/-- The inner loop of `OneVsOne::train` for class `ci`: the dataset of each learner `[i][j]`, `none`
where no learner exists.  OneVsOne.hpp:91-115. -/
def trainRow (d : Data) (ci : Int) : Mem T → List Int → Res (Mem T × List (Option Data))
  | m, [] => .ok (m, [])
  | m, cj :: cs =>
    if ci ≠ cj then do
      let (m, t) ← classesCopy m d [ci, cj]
      let t := Data.setClasses t [-1, 1]
      let m ← relabel ci m t.points
      let (m, ts) ← trainRow d ci m cs
      return (m, some t :: ts)
    else do
      let (m, ts) ← trainRow d ci m cs
      return (m, none :: ts)

/-- `OneVsOne::train`: OneVsOne.hpp:85-119. -/
def trainOvO (d : Data) : Mem T → List Int → Res (Mem T × List (List (Option Data)))
  | m, [] => .ok (m, [])
  | m, c :: cs => do
    let (m, r) ← trainRow d c m d.classes
    let (m, rs) ← trainOvO d m cs
    return (m, r :: rs)

end

/-! ### Prediction -/
section
variable {K : Type} [Field K] [LinearOrder K]

/-- The vote of the learner `[i][j]`, whose answer for the query is `ans i j`.  OneVsOne.hpp:129-135. -/
def duel (classes : List Int) (ans : Nat → Nat → K) (votes : List Nat) (ij : Nat × Nat) : Res (List Nat) := do
  let ci ← vget classes ij.1
  let cj ← vget classes ij.2
  if ci ≠ cj then
    if ans ij.1 ij.2 = 1 then addAt votes ij.1 1 else addAt votes ij.2 1
  else .ok votes

/-- The votes: OneVsOne.hpp:124-137; the learner matrix has one row and column per class. -/
def votesOvO (classes : List Int) (ans : Nat → Nat → K) : Res (List Nat) :=
  ((List.range classes.length).flatMap (fun i => (List.range classes.length).map (fun j => (i, j)))).foldlM
    (duel classes ans) (List.replicate classes.length 0)

/-- `OneVsOne::evaluate`: OneVsOne.hpp:121-142. -/
def evaluateOvO (classes : List Int) (ans : Nat → Nat → K) : Res Int := do
  let votes ← votesOvO classes ans
  vget classes (maxElement votes)

/-- `OneVsAll::evaluate`; `vals` are the answers `learner->evaluate(p, true)`.  OneVsAll.hpp:87-101. -/
def evaluateOvA (classes : List Int) (vals : List K) : Res Int := vget classes (maxElement vals)

/-- `PrimalClassifier::evaluate(p, raw_value)`, also used by `PerceptronPrimal`: the second argument is
ignored.  PrimalClassifier.hpp:42-57, Perceptron.hpp:229-231. -/
def primalEvaluate (w : List K) (b : K) (p : List K) (_raw : Bool) : K :=
  if p.length ≠ w.length then 0
  else if Perc.decision w.length w p b ≥ 0 then 1 else -1

/-- `IMAp::evaluate(p, raw_value)`: IMA.hpp:350-365 (the same in IMApFixedMargin, IMA.hpp:506-522). -/
def imaEvaluate (w : List K) (b margin norm : K) (p : List K) (raw : Bool) : K :=
  if p.length ≠ w.length then 0
  else
    let f := Perc.decision w.length w p b
    if raw then f else if f ≥ margin * norm then 1 else -1

/-! ### Ensembles -/

/-- A `VotingClassifier`: `weights` and whether `voting_type == "soft"`.  VotingClassifier.hpp:15-16. -/
structure Voter (K : Type) where
  weights : List K := []
  soft : Bool := false
  deriving DecidableEq, Repr

/-- `setWeights`: VotingClassifier.hpp:59-63; `n` is the number of learners. -/
def setWeights (v : Voter K) (n : Nat) (ws : List K) : Res (Voter K) :=
  if ws.length = n then .ok { v with weights := ws } else .error .assertFail

/-- The loop of `evaluate` from learner `i` on: VotingClassifier.hpp:46-54 (the same, with weight
one, in PerceptronCommittee.hpp:34-43). -/
def tally (classes : List Int) (weights : List K) : List Int → Nat → List K → Res (List K)
  | [], _, votes => .ok votes
  | pred :: preds, i, votes => do
    let w ← vget weights i
    let votes ← addAt votes (classes.findIdx (· == pred)) w
    tally classes weights preds (i + 1) votes

/-- `VotingClassifier::evaluate`; `preds` are the answers of the learners.  The ensemble is returned
because hard voting overwrites its weights (line 44).  VotingClassifier.hpp:38-57. -/
def evaluateVoting (v : Voter K) (classes : List Int) (preds : List Int) : Res (Voter K × Int) := do
  let v ← if v.soft then (if v.weights = [] then .error .assertFail else .ok v)
    else .ok { v with weights := List.replicate preds.length 1 }
  let votes ← tally classes v.weights preds 0 (List.replicate classes.length 0)
  let c ← vget classes (maxElement votes)
  return (v, c)

/-- `PerceptronCommittee::evaluate`: PerceptronCommittee.hpp:30-46. -/
def evaluateCommittee (classes : List Int) (preds : List Int) : Res Int := do
  let votes ← tally classes (List.replicate preds.length (1 : K)) preds 0 (List.replicate classes.length 0)
  vget classes (maxElement votes)

/-- `BaggingClassifier::evaluate`: BaggingClassifier.hpp:44-53; the first `n_estimators` learners vote. -/
def evaluateBagging (nEst : Nat) (classes : List Int) (preds : List Int) : Res Int := do
  let votes ← (List.range nEst).foldlM (fun (votes : List Int) (i : Nat) => do
      let pred ← vget preds i
      addAt votes (classes.findIdx (· == pred)) 1) (List.replicate classes.length 0)
  vget classes (maxElement votes)

/-- `prob[c]` after the inner loop of `AdaBoostClassifier::evaluate`: AdaBoostClassifier.hpp:66-70. -/
def boostScore (alpha : List K) (preds : List Int) (c : Int) : Nat → Res K
  | 0 => .ok 0
  | m+1 => do
    let s ← boostScore alpha preds c m
    let q ← vget preds m
    if q = c then do
      let a ← vget alpha m
      pure (s + a)
    else pure s

/-- `AdaBoostClassifier::evaluate`: AdaBoostClassifier.hpp:62-74. -/
def evaluateBoost (nEst : Nat) (alpha : List K) (classes : List Int) (preds : List Int) : Res Int := do
  let prob ← classes.mapM (fun c => boostScore alpha preds c nEst)
  vget classes (maxElement prob)

end

/-! ### AdaBoost training -/

/-- `std::log`: minus infinity at zero and undefined below. -/
noncomputable def logC (x : ℝ) : Res ℝ := if 0 < x then .ok (Real.log x) else .error .nonFinite

/-- `errors[i]`: the weight of a misclassified sample, else zero.  AdaBoostClassifier.hpp:43-48. -/
noncomputable def errorsOf (weights : List ℝ) (miss : List Bool) : List ℝ :=
  List.zipWith (fun w b => if b then w else 0) weights miss

/-- `err[m]`: AdaBoostClassifier.hpp:50. -/
noncomputable def errOf (weights errors : List ℝ) : Res ℝ :=
  if weights.sum = 0 then .error .nonFinite
  else .ok ((List.zipWith (· * ·) weights errors).sum / weights.sum)

/-- `alpha[m]`: AdaBoostClassifier.hpp:52; `nc` is the number of classes, `nc - 1` is `size_t` arithmetic. -/
noncomputable def alphaOf (err : ℝ) (nc : Nat) : Res ℝ := do
  let a ← if 0 < err then logC ((1 - err) / err) else .ok 1
  let b ← logC ((decSize nc : Nat) : ℝ)
  pure (a + b)

/-- One boosting round; `miss i` tells whether the trained learner misclassifies sample `i`.
AdaBoostClassifier.hpp:38-55. -/
noncomputable def boostRound (nc : Nat) (weights : List ℝ) (miss : List Bool) : Res (List ℝ × ℝ) := do
  let errors := errorsOf weights miss
  let err ← errOf weights errors
  let a ← alphaOf err nc
  let ws := List.zipWith (fun w e => w * Real.exp (a * e)) weights errors
  if ws.sum = 0 then .error .nonFinite
  else pure (ws.map (· / ws.sum), a)

/-- The rounds: AdaBoostClassifier.hpp:37-56. -/
noncomputable def boostLoop (nc : Nat) : List ℝ → List (List Bool) → Res (List ℝ × List ℝ)
  | ws, [] => .ok (ws, [])
  | ws, miss :: rest => do
    let (ws, a) ← boostRound nc ws miss
    let (ws, as) ← boostLoop nc ws rest
    pure (ws, a :: as)

/-- `AdaBoostClassifier::train` on `n` samples: the final sample weights and the estimator weights.
AdaBoostClassifier.hpp:30-60; with no samples `1.0/0` is assigned zero times. -/
noncomputable def boostTrain (n nc : Nat) (outcomes : List (List Bool)) : Res (List ℝ × List ℝ) :=
  boostLoop nc (List.replicate n (1 / (n : ℝ))) outcomes

end MLTK.Vote
