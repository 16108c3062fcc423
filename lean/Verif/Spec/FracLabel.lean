import Mathlib.Data.Rat.Floor
import Verif.Model.FracLabel
/-!
# Labels and classes (C185)
-/
namespace MLTK.Spec

/-- A number without its fraction. -/
def whole (y : ℚ) : Int := if 0 ≤ y then ⌊y⌋ else ⌈y⌉

/-- The whole part is an int. -/
def IntRange (y : ℚ) : Prop := -2 ^ 31 ≤ whole y ∧ whole y < 2 ^ 31

/-- A label with a fraction. -/
def Fractional (y : ℚ) : Prop := ∀ c : Int, (c : ℚ) ≠ y

/-- The classes are the labels, each once, and the counts those of the samples. -/
structure LabelTable (labels : List ℚ) (classes : List Int) (dist : List Nat) : Prop where
  nodup : classes.Nodup
  mem : ∀ y : ℚ, y ∈ labels ↔ ∃ c ∈ classes, (c : ℚ) = y
  counts : dist = classes.map (fun (c : Int) => labels.count (c : ℚ))

end MLTK.Spec
