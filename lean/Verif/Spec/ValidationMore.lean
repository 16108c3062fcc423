import Verif.Spec.Validation
/-!
# The rates of a binary classification with the labels 1 and -1
-/
namespace MLTK.Spec
open MLTK.Valid (Outcome)
variable {K : Type} [Field K]

/-- The positive label. -/
def isOne (l : Int) : Bool := decide (l = 1)

/-- Of the samples answered 1, the part whose label is 1. -/
def precisionOf (os : List Outcome) : K := (truePos isOne os : K) / ((truePos isOne os + falsePos isOne os : Nat) : K)

/-- Of the samples with label 1, the part answered 1. -/
def recallOf (os : List Outcome) : K := (truePos isOne os : K) / ((truePos isOne os + falseNeg isOne os : Nat) : K)

/-- Of the samples with label -1, the part answered -1. -/
def specificityOf (os : List Outcome) : K := (trueNeg isOne os : K) / ((trueNeg isOne os + falsePos isOne os : Nat) : K)

/-- The answers of the first `j` folds. -/
def firstFolds (tests : List (List Outcome)) (j : Nat) : List Outcome := (tests.take j).flatten

end MLTK.Spec
