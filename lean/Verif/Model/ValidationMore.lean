import Verif.Model.Validation
import Verif.Model.KernelOwner
/-!
# The rates of `kfold` and the final validation of `kkfold`

Source: ufjfmltk-valid/include/ufjfmltk/valid/Validation.hpp.

Simplification: a double that is not a number is `none`.
-/
namespace MLTK.Valid

section
variable {K : Type} [Field K] [LinearOrder K]

/-- The members `precision`, `recall` and `tnrate` of a report. -/
structure Rates (K : Type) where
  precision : Option K
  recall : Option K
  tnrate : Option K
  deriving DecidableEq, Repr

/-- `solution.x += (double)a/(double)(a + b)`.  Models Validation.hpp:399-401. -/
def addRate (s : Option K) (a b : Nat) : Option K := do
  let s ← s
  let r ← fdiv (a : K) ((a + b : Nat) : K)
  pure (s + r)

/-- What one fold does to the counters and to the rates: the counters carry over (line 323).  Models Validation.hpp:323-407. -/
def rateStep (two : Bool) (st : Tally × Rates K) (test : List Outcome) : Tally × Rates K :=
  let c := (test.foldl (testOne two) (0, st.1)).2
  (c, if two then ⟨addRate st.2.precision c.tp c.fp, addRate st.2.recall c.tp c.fn, addRate st.2.tnrate c.tn c.fp⟩ else st.2)

/-- The rates in the report of `kfold`: they are not divided by the number of folds.  Models Validation.hpp:320, 323-410. -/
def kfoldRates (two : Bool) (tests : List (List Outcome)) : Rates K :=
  (tests.foldl (rateStep two) ({}, ⟨some 0, some 0, some 0⟩)).2

/-- The rates in the report of `kkfold`: of the reports of the executions only the error is used.  Models Validation.hpp:210, 215-233. -/
def kkfoldRates (qtde fold : Nat) (_runs : List (Rates K)) : Rates K :=
  if qtde > 0 then ⟨fdiv 0 ((qtde * fold : Nat) : K), fdiv 0 ((qtde * fold : Nat) : K), fdiv 0 ((qtde * fold : Nat) : K)⟩
  else ⟨some 0, some 0, some 0⟩

end

/-- What the classifier of the final validation is trained on.  Models Validation.hpp:243-244, 276-282. -/
def finalTrainingSet {T : Type} (m : Mem T) (dual : Bool) (classes : List Int) (train test : Data) : Res (Mem T × Data) :=
  if dual then do
    let r ← Data.join m (Data.assign Data.empty test) train
    pure (r.1, Data.setClasses r.2 classes)
  else Data.copy m (Data.setClasses train classes)

/-- What one fold of `kfold` does with a dual classifier, object 0: `train` is its training set, `all` the test samples followed by the training
samples.  Models Validation.hpp:337, 367-378. -/
def foldOps (f : KOwn.KData × KOwn.KData) : List KOwn.Op :=
  [.setSamples 0 f.1, .setSamples 0 f.2, .recompute 0, .train 0, .evaluate 0]

/-- What `kkfold` does with a dual classifier: all the folds of all its executions and the final validation, where the kernel is not
recomputed.  Models Validation.hpp:217-221, 243-288. -/
def kkfoldOps (folds : List (KOwn.KData × KOwn.KData)) (final : KOwn.KData × KOwn.KData) : List KOwn.Op :=
  folds.flatMap foldOps ++ [.setSamples 0 final.1, .setSamples 0 final.2, .train 0, .evaluate 0]

end MLTK.Valid
