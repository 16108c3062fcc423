import Verif.Model.Ensemble
import Verif.Model.Validation
/-!
# Model of cross-validation with a classifier object

Source: ufjfmltk-valid/include/ufjfmltk/valid/Validation.hpp 311-411.

`kfold` takes the classifier by reference and trains the same object for one fold after the other.  A class of learners is
a `Kind`, as in Model/Ensemble.lean.  The folds are given (Model/Split.lean computes them); a fold is its training dataset
and its test samples.
-/
namespace MLTK.Valid
open MLTK.Ens (Kind)
variable {D M X K : Type}

/-- One fold: the object `m` is trained and asked for the test samples.  Models Validation.hpp 337-363. -/
def foldOne (k : Kind D M X) (seed : Nat) (m : M) (f : D × List (X × Int)) : Res (List Outcome × M) := do
  let (m, d) ← k.fit seed m f.1
  let os ← f.2.mapM (fun t => do
    let r ← k.ans m d t.1
    return (⟨t.2, r⟩ : Outcome))
  return (os, m)

/-- The loop over the folds: the object goes from fold to fold.  Models Validation.hpp 323-407. -/
def foldRun (k : Kind D M X) (seed : Nat) : M → List (D × List (X × Int)) → Res (List (List Outcome) × M)
  | m, [] => .ok ([], m)
  | m, f :: fs => do
    let (os, m) ← foldOne k seed m f
    let (rest, m) ← foldRun k seed m fs
    return (os :: rest, m)

/-- `kfold(sample, classifier, fold)` for a classifier that is not a dual one: the report and the object it leaves.
Models Validation.hpp 311-411. -/
def crossValidate [Field K] [LinearOrder K] (two : Bool) (k : Kind D M X) (seed : Nat) (m : M)
    (folds : List (D × List (X × Int))) : Res (KFold K × M) := do
  let (os, m) ← foldRun k seed m folds
  return (kfold two os, m)

/-- `PerceptronPrimal` as a class of learners.  Models Perceptron.hpp 179-231. -/
def primalKind [Field K] [LinearOrder K] (lm : Perc.Libm K) (clock : Nat → Bool) :
    Kind (Life.DS K) (Life.Primal K) (List K) where
  fit _ o d := do
    let (_, o) ← (o.setSamples d).train lm clock
    return (o, d)
  ans o _ x := .ok (o.evaluate x)

end MLTK.Valid
