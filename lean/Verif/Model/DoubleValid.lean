import Verif.Model.Double
import Verif.Model.Validation
/-!
# Accuracies and cross-validation errors in `double` arithmetic

The computations of `Model/Validation` with every operation carried out as in `Model/Double`.  The counters are below `2^53`
where theorems say so; they do not overflow.
-/
namespace MLTK.Fp
open MLTK.Valid (Outcome)

/-- `acc++` for every correct answer.  Models Validation.hpp:522-528. -/
def hitsLoop (os : List Outcome) : Dbl :=
  os.foldl (fun (acc : Dbl) o => if o.pred = o.y then acc.add (.fin 1) else acc) (.fin 0)

/-- `accuracy(data, model)` of a trained model.  Models Validation.hpp:517-530. -/
def accuracy (os : List Outcome) : Dbl := (hitsLoop os).div (.ofNat os.length)

/-- One row of `confusionMatrixAccuracy`.  Models Validation.hpp:507-512. -/
def accRow (i : Nat) : List Nat → Nat → Dbl × Dbl → Dbl × Dbl
  | [], _, et => et
  | x :: row, j, et =>
    accRow i row (j + 1) (if i ≠ j then et.1.add (.ofNat x) else et.1, et.2.add (.ofNat x))

/-- The rows.  Models Validation.hpp:506-513. -/
def accRows : List (List Nat) → Nat → Dbl × Dbl → Dbl × Dbl
  | [], _, et => et
  | row :: m, i, et => accRows m (i + 1) (accRow i row 0 et)

/-- `confusionMatrixAccuracy`.  Models Validation.hpp:504-515. -/
def confusionAccuracy (m : List (List Nat)) : Dbl :=
  let et := accRows m 0 (.fin 0, .fin 0)
  ((Dbl.fin 1).sub (et.1.div et.2)).mul (.fin 100)

/-- `error_arr[j]` after the test samples of a fold.  Models Validation.hpp:347-362, 381-390. -/
def foldErrors (test : List Outcome) : Nat :=
  test.foldl (fun n o => if o.y ≠ o.pred then n + 1 else n) 0

/-- `error` after the folds.  Models Validation.hpp:396. -/
def errorSum (tests : List (List Outcome)) : Dbl :=
  tests.foldl (fun (e : Dbl) t => e.add (((Dbl.ofNat (foldErrors t)).div (.ofNat t.length)).mul (.fin 100))) (.fin 0)

/-- `solution.error` of `kfold`.  Models Validation.hpp:408. -/
def kfoldError (tests : List (List Outcome)) : Dbl := (errorSum tests).div (.ofNat tests.length)

/-- `solution.accuracy` of `kfold`.  Models Validation.hpp:409. -/
def kfoldAccuracy (tests : List (List Outcome)) : Dbl := (Dbl.fin 100).sub (kfoldError tests)

/-- `errocross` after the executions.  Models Validation.hpp:217-221. -/
def crossSum (runs : List (List (List Outcome))) : Dbl := runs.foldl (fun e r => e.add (kfoldError r)) (.fin 0)

/-- `solution.accuracy` of `kkfold` with at least one execution.  Models Validation.hpp:223. -/
def kkfoldAccuracy (runs : List (List (List Outcome))) : Dbl := (Dbl.fin 100).sub ((crossSum runs).div (.ofNat runs.length))

/-- `solution.error` of `kkfold` with at least one execution.  Models Validation.hpp:224. -/
def kkfoldErr (runs : List (List (List Outcome))) : Dbl := (Dbl.fin 100).sub (kkfoldAccuracy runs)

/-- `report.accuracy` and `report.error` of `metricsReport`, `tp` of `size` samples.  Models Validation.hpp:569-570. -/
def reportRates (tp size : Nat) : Dbl × Dbl :=
  let a := (Dbl.ofNat tp).div (.ofNat size)
  (a, (Dbl.fin 1).sub a)

end MLTK.Fp
