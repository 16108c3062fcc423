import Mathlib.Algebra.Order.Field.Basic
import Verif.Model.Data
/-!
# Validation

ufjfmltk-valid/include/ufjfmltk/valid/Validation.hpp: confusion matrices, accuracies, reports and the
cross-validation loop (the splitting functions are in Model/Split.lean).

Simplifications: the classifier is what it answers: for every sample the label and the answer are given
as integers; `double` is an ordered field `K`; a `double` division by zero has the result `none` (not a
finite number), an integer division by zero is the fault `divByZero`; counters do not overflow.
-/
namespace MLTK.Valid

/-- A sample of an evaluation: its label and the classifier's answer. -/
structure Outcome where
  y : Int
  pred : Int
  deriving DecidableEq, Repr

/-! ### Confusion matrix -/

/-- The loop over `j` that finds `idp` and `idy`: Validation.hpp:590-598.  Both start at zero; the loop
ends early when both are not zero. -/
def findLoop (o : Outcome) : List Int → Nat → Nat × Nat → Nat × Nat
  | [], _, ids => ids
  | c :: cs, j, ids =>
    let ids := (if c = o.pred then j else ids.1, if c = o.y then j else ids.2)
    if ids.1 ≠ 0 ∧ ids.2 ≠ 0 then ids else findLoop o cs (j + 1) ids

/-- `confusion_m[a][b]++`. -/
def bump (m : List (List Nat)) (a b : Nat) : Res (List (List Nat)) := do
  let row ← vget m a
  let x ← vget row b
  let row ← vset row b (x + 1)
  vset m a row

/-- One sample: Validation.hpp:589-599. -/
def confStep (classes : List Int) (m : List (List Nat)) (o : Outcome) : Res (List (List Nat)) :=
  let ids := findLoop o classes 0 (0, 0)
  bump m ids.1 ids.2

/-- `generateConfusionMatrix`: Validation.hpp:581-602. -/
def confusion (classes : List Int) (os : List Outcome) : Res (List (List Nat)) :=
  os.foldlM (confStep classes) (List.replicate classes.length (List.replicate classes.length 0))

section
variable {K : Type} [Field K] [LinearOrder K]

/-- `double / double`. -/
def fdiv (a b : K) : Option K := if b = 0 then none else some (a / b)

/-- One row of `confusionMatrixAccuracy`: Validation.hpp:507-512. -/
def accRow (i : Nat) : List Nat → Nat → K × K → K × K
  | [], _, et => et
  | x :: row, j, et =>
    accRow i row (j + 1) (if i ≠ j then et.1 + (x : K) else et.1, et.2 + (x : K))

/-- The rows: Validation.hpp:506-513. -/
def accRows : List (List Nat) → Nat → K × K → K × K
  | [], _, et => et
  | row :: m, i, et => accRows m (i + 1) (accRow i row 0 et)

/-- `confusionMatrixAccuracy`: Validation.hpp:504-515. -/
def confusionAccuracy (m : List (List Nat)) : Option K :=
  let et : K × K := accRows m 0 (0, 0)
  (fdiv et.1 et.2).map (fun r => (1 - r) * 100)

/-- `accuracy(data, model)` of a trained model: Validation.hpp:517-530. -/
def accuracy (os : List Outcome) : Option K :=
  fdiv (os.foldl (fun (acc : K) o => if o.pred = o.y then acc + 1 else acc) 0) (os.length : K)

/-! ### Reports -/

/-- The counters `tp`, `tn`, `fp`, `fn`: Validation.hpp:33, 323. -/
structure Tally where
  tp : Nat := 0
  tn : Nat := 0
  fp : Nat := 0
  fn : Nat := 0
  deriving DecidableEq, Repr

/-- `ValidationReport`, the fields set by the reports: Validation.hpp:21-45. -/
structure Report (K : Type) where
  counts : Tally
  errors : Nat
  accuracy : Option K
  error : Option K
  sensitivity : Option K
  specificity : Option K
  precision : Option K
  recall : Option K
  fscore : Option K
  deriving DecidableEq, Repr

/-- `ValidationReport::print`, the lines written: Validation.hpp:47-56. -/
def printed (r : Report K) : List (String × Option K) :=
  [("True positives", some (r.counts.tp : K)), ("True negatives", some (r.counts.tn : K)),
   ("False positives", some (r.counts.fp : K)), ("False negatives", some (r.counts.fn : K)),
   ("Precision", r.precision), ("Recall", r.precision), ("F1-score", r.precision), ("Accuracy", r.accuracy)]

/-- `is_positive[pos] = true` for the given labels: Validation.hpp:544-548. -/
def markPositive (classes : List Int) : List Int → List Bool → Res (List Bool)
  | [], is => .ok is
  | l :: ls, is =>
    if classes.findIdx (· == l) < classes.length then
      markPositive classes ls (is.set (classes.findIdx (· == l)) true)
    else .error .assertFail

/-- `is_positive`: Validation.hpp:538-549. -/
def isPositive (classes positive : List Int) : Res (List Bool) :=
  if positive = [] then .ok (List.replicate classes.length true)
  else markPositive classes positive (List.replicate classes.length false)

/-- One entry of the matrix: Validation.hpp:553-565. -/
def countEntry (cfm : List (List Nat)) (is : List Bool) (r : Tally) (ij : Nat × Nat) : Res Tally := do
  let row ← vget cfm ij.1
  let x ← vget row ij.2
  let pos ← vget is ij.1
  if ij.1 = ij.2 then
    if pos then .ok { r with tp := r.tp + x } else .ok { r with tn := r.tn + x }
  else
    if pos then .ok { r with fn := r.fn + x } else .ok { r with fp := r.fp + x }

/-- `2*precision*recall/(precision + recall)`: Validation.hpp:576, 635. -/
def fscoreOf (p r : Option K) : Option K := do
  let p ← p
  let r ← r
  fdiv (2 * p * r) (p + r)

/-- The derived fields: Validation.hpp:569-576. -/
def finish (size : Nat) (r : Tally) : Report K where
  counts := r
  errors := r.fp + r.fn
  accuracy := fdiv (r.tp : K) (size : K)
  error := (fdiv (r.tp : K) (size : K)).map (1 - ·)
  sensitivity := fdiv (r.tp : K) ((r.tp + r.fn : Nat) : K)
  specificity := fdiv (r.tn : K) ((r.tn + r.fp : Nat) : K)
  precision := fdiv (r.tp : K) ((r.tp + r.fp : Nat) : K)
  recall := fdiv (r.tp : K) ((r.tp + r.fn : Nat) : K)
  fscore := fscoreOf (fdiv (r.tp : K) ((r.tp + r.fp : Nat) : K)) (fdiv (r.tp : K) ((r.tp + r.fn : Nat) : K))

/-- `metricsReport(data, cfm, positive_labels)`: Validation.hpp:532-579; `size` is `data.size()`. -/
def metricsReport (classes : List Int) (size : Nat) (cfm : List (List Nat)) (positive : List Int) :
    Res (Report K) := do
  let is ← isPositive classes positive
  let r ← ((List.range cfm.length).flatMap (fun i => (List.range cfm.length).map (fun j => (i, j)))).foldlM
    (countEntry cfm is) {}
  pure (finish size r)

/-- `size_t / size_t`. -/
def idiv (a b : Nat) : Res Nat := if b = 0 then .error .divByZero else .ok (a / b)

/-- The labels seen: Validation.hpp:607-611. -/
def labelsSeen (os : List Outcome) : List Int := (os.flatMap (fun o => [o.y, o.pred])).dedup

/-- One sample of `classificationReport`: Validation.hpp:612-629; `two` tells whether there are exactly
two labels; the number of correct answers is kept beside the counters. -/
def classify (two : Bool) (cr : Nat × Tally) (o : Outcome) : Nat × Tally :=
  if o.y = o.pred then
    (cr.1 + 1, if two then (if o.y = 1 then { cr.2 with tp := cr.2.tp + 1 } else { cr.2 with tn := cr.2.tn + 1 })
      else cr.2)
  else (cr.1, if two then (if o.y = 1 then { cr.2 with fn := cr.2.fn + 1 } else { cr.2 with fp := cr.2.fp + 1 })
      else cr.2)

/-- The derived fields of `classificationReport`; the quotients are integer divisions; `errors` and
`error` keep their initial zero.  Validation.hpp:630-635. -/
def finishClass (n : Nat) (correct : Nat) (r : Tally) : Res (Report K) := do
  let sens ← idiv r.tp (r.tp + r.fn)
  let spec ← idiv r.tn (r.fn + r.tn)
  let prec ← idiv r.tp (r.tp + r.fp)
  let recl ← idiv r.tp (r.tp + r.fn)
  pure { counts := r, errors := 0, error := some 0, accuracy := fdiv (correct : K) (n : K),
         sensitivity := some (sens : K), specificity := some (spec : K), precision := some (prec : K),
         recall := some (recl : K), fscore := fscoreOf (some (prec : K)) (some (recl : K)) }

/-- `classificationReport(real, predicted)`: Validation.hpp:604-637; the samples are given as pairs, that
is, for points of equal size (line 605). -/
def classificationReport (os : List Outcome) : Res (Report K) :=
  let cr := os.foldl (classify (decide ((labelsSeen os).length = 2))) (0, {})
  finishClass os.length cr.1 cr.2

/-! ### Cross-validation -/

/-- One test sample: Validation.hpp:353-362, 381-390; `two` is `classes.size() == 2`.  The number of
errors of the fold is kept beside the counters. -/
def testOne (two : Bool) (s : Nat × Tally) (o : Outcome) : Nat × Tally :=
  if o.y ≠ o.pred then
    (s.1 + 1, if two = true ∧ o.y = -1 then { s.2 with fp := s.2.fp + 1 } else { s.2 with fn := s.2.fn + 1 })
  else (s.1, if two = true ∧ o.y = -1 then { s.2 with tn := s.2.tn + 1 } else { s.2 with tp := s.2.tp + 1 })

/-- The result of `kfold`: error, accuracy and the totals `truePositive`, `trueNegative`,
`falsePositive`, `falseNegative`. -/
structure KFold (K : Type) where
  error : Option K
  accuracy : Option K
  totals : Tally
  deriving DecidableEq, Repr

/-- State of the loop of `kfold`: `error`, the counters and the totals in `solution`. -/
structure KState (K : Type) where
  error : Option K
  counts : Tally
  totals : Tally

/-- `solution.falseNegative += fn` etc.: Validation.hpp:402-405. -/
def addCounts (s c : Tally) : Tally :=
  { tp := s.tp + c.tp, tn := s.tn + c.tn, fp := s.fp + c.fp, fn := s.fn + c.fn }

/-- `error += errors/size * 100`: Validation.hpp:396. -/
def addError (e : Option K) (errors size : Nat) : Option K := do
  let e ← e
  let r ← fdiv (errors : K) (size : K)
  pure (e + r * 100)

/-- One fold: the counters carry over from fold to fold because they are declared in the head of the
loop (line 323).  Validation.hpp:323-407. -/
def foldStep (two : Bool) (st : KState K) (test : List Outcome) : KState K :=
  let s := test.foldl (testOne two) (0, st.counts)
  { error := addError st.error s.1 test.length, counts := s.2,
    totals := if two then addCounts st.totals s.2 else st.totals }

/-- `kfold`: Validation.hpp:311-411.  `tests` are the test samples of the folds with the answers of the
classifier trained for the fold.  The sums `precision`, `recall` and `tnrate` are left out. -/
def kfold (two : Bool) (tests : List (List Outcome)) : KFold K :=
  let st := tests.foldl (foldStep two) ({ error := some 0, counts := {}, totals := {} } : KState K)
  let err := st.error.bind (fun e => fdiv e (tests.length : K))
  { error := err, accuracy := err.map (100 - ·), totals := st.totals }

/-- Sum of the errors of the executions: Validation.hpp:220. -/
def sumErrors (errors : List (Option K)) : Option K :=
  errors.foldl (fun (s : Option K) (e : Option K) => s.bind (fun a => e.map (a + ·))) (some 0)

/-- `kkfold`: the average over the executions; with none the report keeps its initial values; no counts
are accumulated.  Validation.hpp:200-233, 308. -/
def kkfold (errors : List (Option K)) : KFold K :=
  if errors.length > 0 then
    let acc := ((sumErrors errors).bind (fun e => fdiv e (errors.length : K))).map (100 - ·)
    { error := acc.map (100 - ·), accuracy := acc, totals := {} }
  else { error := some 0, accuracy := some 0, totals := {} }

end

/-- What the classifier of a fold is trained on: Validation.hpp:337, 367-371.  A dual classifier gets a
copy of the test samples joined with the training samples. -/
def trainingSet {T : Type} (m : Mem T) (dual : Bool) (train test : Data) : Res (Mem T × Data) :=
  if dual then do
    let (m, t) ← Data.copy m test
    Data.join m t train
  else Data.copy m train

end MLTK.Valid
