import Mathlib.Algebra.Order.Ring.Rat
import Verif.Model.Data
/-!
# Labels that are not whole numbers in a classification dataset

The labels of points are doubles, the classes of a dataset ints.  Elsewhere in the model labels are whole numbers; here they are
rationals, and only what concerns labels and classes is kept of a dataset.
-/
namespace MLTK.Frac
open MLTK.Data (incAt classPos)

/-- What a classification dataset knows of labels: those of its points, `m_classes` and `class_distribution`.  Simplification: the
rest of the dataset is left out; doubles are rationals.  Models Data.hpp 82-90. -/
structure DS where
  labels : List ℚ
  classes : List Int
  dist : List Nat
  deriving DecidableEq, Repr

/-- `int(y)`: the fraction is dropped; undefined if the result is not an int.  Models Data.hpp 1203, 1275, 1473, 1847, 2019
(C++ standard, conv.fpint). -/
def toInt (y : ℚ) : Res Int :=
  if -2 ^ 31 ≤ y.num.tdiv y.den ∧ y.num.tdiv y.den < 2 ^ 31 then .ok (y.num.tdiv y.den) else .error .overflow

/-- The part of `insertPoint` about classes: `std::find` compares ints with the double.  Models Data.hpp 1468-1478. -/
def insert (d : DS) (y : ℚ) : Res DS :=
  match d.classes.findIdx? (fun (c : Int) => decide ((c : ℚ) = y)) with
  | none => do
    let c ← toInt y
    .ok ⟨d.labels ++ [y], d.classes ++ [c], d.dist ++ [1]⟩
  | some k => do
    let dist ← incAt d.dist k
    .ok ⟨d.labels ++ [y], d.classes, dist⟩

/-- Points inserted one after the other.  Models Data.hpp 1468-1478. -/
def insertAll : DS → List ℚ → Res DS
  | d, [] => .ok d
  | d, y :: ys => do
    let d ← insert d y
    insertAll d ys

/-- The loop of `computeClassesDistribution`.  Models Data.hpp 1846-1851. -/
def countLoop (classes : List Int) : List Nat → List ℚ → Res (List Nat)
  | dist, [] => .ok dist
  | dist, y :: ys => do
    let c ← toInt y
    let dist ← incAt dist (classPos classes c)
    countLoop classes dist ys

/-- `computeClassesDistribution`, not computed before.  Models Data.hpp 1842-1852. -/
def recompute (d : DS) : Res DS := do
  let dist ← countLoop d.classes (List.replicate d.classes.length 0) d.labels
  .ok { d with dist := dist }

/-- `removePoint` of the point at position `i`.  Simplification: ids are positions.  Models Data.hpp 1183-1213. -/
def removeAt (d : DS) (i : Nat) : Res DS :=
  if d.labels.length = 1 then .ok d
  else do
    let y ← vget d.labels i
    let c ← toInt y
    let n ← vget d.dist (classPos d.classes c)
    .ok { d with labels := d.labels.eraseIdx i, dist := d.dist.set (classPos d.classes c) (decSize n) }

/-- The loop of `splitByClasses`: the labels in each part.  Models Data.hpp 2018-2021. -/
def splitLoop (classes : List Int) : List (List ℚ) → List ℚ → Res (List (List ℚ))
  | parts, [] => .ok parts
  | parts, y :: ys => do
    let c ← toInt y
    let part ← vget parts (classPos classes c)
    splitLoop classes (parts.set (classPos classes c) (part ++ [y])) ys

/-- `splitByClasses`: the labels in each part.  Models Data.hpp 2010-2028. -/
def split (d : DS) : Res (List (List ℚ)) := splitLoop d.classes (List.replicate d.classes.length []) d.labels

end MLTK.Frac
