import Mathlib.Algebra.Order.Field.Basic
import Mathlib.Data.Finset.Dedup
import Mathlib.Data.Finset.Card
import Verif.Model.Validation
/-!
# What the validation numbers should be
-/
namespace MLTK.Spec
open MLTK.Valid (Outcome)

/-- Number of samples with the given label and the given answer. -/
def predictedAs (os : List Outcome) (label answer : Int) : Nat :=
  os.countP (fun o => decide (o.y = label ∧ o.pred = answer))

/-- Number of correct answers. -/
def correct (os : List Outcome) : Nat := os.countP (fun o => decide (o.y = o.pred))

/-- Number of wrong answers. -/
def wrong (os : List Outcome) : Nat := os.countP (fun o => decide (o.y ≠ o.pred))

/-- Correct answers among the samples whose label satisfies `P`, and wrong ones. -/
def correctOn (P : Int → Bool) (os : List Outcome) : Nat := os.countP (fun o => P o.y && decide (o.y = o.pred))

def wrongOn (P : Int → Bool) (os : List Outcome) : Nat := os.countP (fun o => P o.y && decide (o.y ≠ o.pred))

/-- The counts of a binary decision, `P` being the positive labels. -/
def truePos (P : Int → Bool) (os : List Outcome) : Nat := os.countP (fun o => P o.y && P o.pred)

def trueNeg (P : Int → Bool) (os : List Outcome) : Nat := os.countP (fun o => !P o.y && !P o.pred)

def falsePos (P : Int → Bool) (os : List Outcome) : Nat := os.countP (fun o => !P o.y && P o.pred)

def falseNeg (P : Int → Bool) (os : List Outcome) : Nat := os.countP (fun o => P o.y && !P o.pred)

/-- The labels that occur, as labels or as answers. -/
def occurringLabels (os : List Outcome) : Finset Int := (os.map Outcome.y ++ os.map Outcome.pred).toFinset

/-- `m` is a square table over the classes with entry `f a b` in the row of class `a`, column of
class `b`. -/
def TableOf (classes : List Int) (f : Int → Int → Nat) (m : List (List Nat)) : Prop :=
  m.length = classes.length ∧
    ∀ (i : Nat) (a : Int), classes[i]? = some a → ∃ row, m[i]? = some row ∧ row.length = classes.length ∧
      ∀ (j : Nat) (b : Int), classes[j]? = some b → row[j]? = some (f a b)

/-- The confusion matrix: rows are labels, columns are answers. -/
def ConfusionMatrix (classes : List Int) (os : List Outcome) (m : List (List Nat)) : Prop :=
  TableOf classes (predictedAs os) m

/-- Labels and answers are among the classes. -/
def KnownLabels (classes : List Int) (os : List Outcome) : Prop :=
  ∀ o ∈ os, o.y ∈ classes ∧ o.pred ∈ classes

/-- Sum of all entries of a table. -/
def total (m : List (List Nat)) : Nat := (m.map List.sum).sum

/-- Error rate in percent. -/
def errorRate {K : Type} [Field K] (os : List Outcome) : K := (wrong os : K) / (os.length : K) * 100

/-- Mean of a list of numbers. -/
def mean {K : Type} [Field K] (l : List K) : K := l.sum / (l.length : K)

end MLTK.Spec
