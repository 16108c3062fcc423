import Verif.Model.Seeds
import Verif.Spec.Data
/-!
# Specification: repeated and reproducible splits
-/
namespace MLTK.Spec
open MLTK MLTK.Data
variable {T : Type}

/-- The pairs of execution number `e`. -/
def ofExecution (e : Nat) (prs : List TrainTest) : List TrainTest := prs.filter (fun pr => pr.execution = e)

/-- `prs` are the pairs of `qtde` cross-validations of the samples of `d` with `k` folds each. -/
structure RepeatedFolds (m : Mem T) (d : Data) (k qtde : Nat) (m' : Mem T) (prs : List TrainTest) : Prop where
  /-- the executions come one after the other, in each of them the folds in order -/
  order : prs.map (fun pr => (pr.execution, pr.fold)) =
    (List.range qtde).flatMap (fun e => (List.range k).map (fun i => (e + 1, i + 1)))
  /-- in each pair training and test set together hold every sample exactly once -/
  pair : ∀ pr ∈ prs, ((samples m' pr.train ++ samples m' pr.test).map content).Perm ((samples m d).map content)
  /-- in each execution every sample is tested exactly once -/
  tests : ∀ e, e < qtde →
    (((ofExecution (e + 1) prs).flatMap (fun pr => samples m' pr.test)).map content).Perm ((samples m d).map content)
  /-- training and test set of a pair share no sample -/
  disjoint : ∀ pr ∈ prs, ∀ r ∈ pr.train.points, r ∉ pr.test.points
  /-- two executions share no sample -/
  apart : ∀ pr ∈ prs, ∀ pr' ∈ prs, pr.execution ≠ pr'.execution →
    ∀ r ∈ pr.train.points ++ pr.test.points, r ∉ pr'.train.points ++ pr'.test.points
  consistent : ∀ pr ∈ prs, Consistent m' pr.train ∧ Consistent m' pr.test
  source : samples m' d = samples m d

/-- The outcome does not depend on the random device, and nothing is read from it. -/
def Reproducible {α : Type} (x : Draw α) : Prop := ∃ a, ∀ s, x s = (a, s)

/-- The ids of the samples in the training and the test set of each pair. -/
def idsOfPairs (r : Res (Mem T × List TrainTest)) : Option (List (List Nat × List Nat)) :=
  r.toOption.map (fun r => r.2.map (fun p => ((samples r.1 p.train).map Pt.id, (samples r.1 p.test).map Pt.id)))

end MLTK.Spec
