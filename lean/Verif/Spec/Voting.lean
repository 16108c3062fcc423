import Mathlib.Algebra.BigOperators.Group.Finset.Basic
import Verif.Spec.Data
import Verif.Spec.Neighbors
import Verif.Model.Voting
/-!
# What the combined classifiers should compute
-/
namespace MLTK.Spec
open MLTK

/-- `i` is the first index below `n` with the greatest score. -/
def FirstMax {K : Type} [LinearOrder K] (n : Nat) (score : Nat → K) (i : Nat) : Prop :=
  i < n ∧ (∀ j < n, score j ≤ score i) ∧ ∀ j < i, score j < score i

/-- Duels won by class `i` among `n` classes: its own classifiers `(i, j)` that answer 1 and the others'
`(j, i)` that do not. -/
def duelsWon {K : Type} [One K] [DecidableEq K] (n : Nat) (ans : Nat → Nat → K) (i : Nat) : Nat :=
  ((Finset.range n).filter (fun j => j ≠ i ∧ ans i j = 1)).card +
  ((Finset.range n).filter (fun j => j ≠ i ∧ ans j i ≠ 1)).card

/-- Total weight of the voters whose prediction is `c`. -/
def support {K : Type} [AddCommMonoid K] (weights : List K) (preds : List Int) (c : Int) : K :=
  ∑ i ∈ (Finset.range preds.length).filter (fun i => preds[i]? = some c), weights.getD i 0

/-- Positive numbers that add up to one. -/
def Distribution (ws : List ℝ) : Prop := (∀ w ∈ ws, 0 < w) ∧ ws.sum = 1

/-- The samples with label 1 where the label is `c` and -1 elsewhere. -/
def oneAgainst {T : Type} (c : Int) (l : List (Pt T)) : List (Pt T) :=
  l.map (fun p => { p with y := if p.y = c then 1 else -1 })

/-- Weighted error of a classifier: the total weight of the samples it gets wrong. -/
def weightedError (ws : List ℝ) (miss : List Bool) : ℝ :=
  ∑ i ∈ (Finset.range ws.length).filter (fun i => miss[i]? = some true), ws.getD i 0

/-- What the classifier for class `ci` against class `cj` is trained on, out of the samples `l`: none
exists for a class against itself; otherwise a dataset `t` with classes -1 and 1 whose points are new
(no address below `base`) and which holds the samples of the two classes, those of `ci` with label 1. -/
def TrainedOn {T : Type} (m : Mem T) (base : Nat) (l : List (Pt T)) (ci cj : Int) (o : Option Data) : Prop :=
  if ci = cj then o = none
  else ∃ t, o = some t ∧ t.classes = [-1, 1] ∧ (∀ r ∈ t.points, ∃ p, m[r]? = some p) ∧
    (∀ r ∈ t.points, base ≤ r) ∧
    samples m t = oneAgainst ci (l.filter (fun p => decide (p.y ∈ [ci, cj])))

end MLTK.Spec
