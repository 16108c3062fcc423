import Mathlib.Algebra.Field.Basic
import Mathlib.Algebra.BigOperators.Group.List.Basic
/-!
# Textbook statistics of lists
-/
namespace MLTK.Spec
variable {K : Type} [Field K]

/-- Arithmetic mean. -/
def avg (l : List K) : K := l.sum / l.length

/-- Sum of squared deviations from the mean. -/
def sqDev (l : List K) : K := (l.map (fun x => (x - avg l) ^ 2)).sum

/-- Sum of products of deviations of two lists of the same length. -/
def coDev (l k : List K) : K := (List.zipWith (fun x y => (x - avg l) * (y - avg k)) l k).sum

/-- Feature `j` of all samples. -/
def column (rows : List (List K)) (j : Nat) : List K := rows.map (fun r => r.getD j 0)

end MLTK.Spec
