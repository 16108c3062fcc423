import Verif.Model.DoubleBalanced
import Verif.Model.DoubleVote
/-!
# `PerceptronCommittee` in `double` arithmetic

The committee of `Model/Committee` with its members trained as in `Model/DoubleBalanced` and the votes counted in `double`.
Simplifications: member `i` sees the common samples in the order the earlier shuffles and its own have left and starts from
random weights; both are parameters.
-/
namespace MLTK.Fp
open MLTK.Perc (Sample)

/-- `train`: member `i` gets the order of the samples and the start weights `runs[i]`; what the members answer is not looked at.
The result also tells it, for the statements.  Models PerceptronCommittee.hpp:20-28. -/
def comTrain (rate : Dbl) (maxEpoch maxUp : Nat) (late : Nat → Nat → Bool) (runs : List (List (Sample Dbl) × List Dbl)) :
    Res (List (Bool × List Dbl × Dbl)) :=
  runs.zipIdx.mapM (fun r => balTrain rate maxEpoch maxUp (late r.2) r.1.1 r.1.2)

/-- What a member answers, as an `int` class.  Models PerceptronCommittee.hpp:35, Perceptron.hpp:147-153. -/
def comAnswer (x : List Dbl) (m : Bool × List Dbl × Dbl) : Res Int := do
  let f ← balEvaluate m.2.1 m.2.2 x false
  pure (if f = .fin 1 then 1 else -1)

/-- `evaluate`: every member adds one to the votes of its answer.  Models PerceptronCommittee.hpp:30-46. -/
def comEvaluate (classes : List Int) (members : List (Bool × List Dbl × Dbl)) (x : List Dbl) : Res Int := do
  let preds ← members.mapM (comAnswer x)
  voteEvaluate false [] classes preds

end MLTK.Fp
