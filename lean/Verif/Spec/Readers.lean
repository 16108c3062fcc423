import Verif.Spec.Text
/-!
# What the lines of the text formats mean
-/
namespace MLTK.Spec

/-- A word: not empty, without white space and colons. -/
def Word (s : List Char) : Prop := s ≠ [] ∧ ∀ c ∈ s, ¬ IsBlank c ∧ c ≠ ':'

/-- A text without white space and commas, not empty. -/
def PlainText (s : List Char) : Prop := s ≠ [] ∧ ∀ c ∈ s, ¬ IsBlank c ∧ c ≠ ','

/-- A row of a `.data` file: the label and the features, each with its name and value. -/
structure DataRow where
  label : List Char
  cells : List (Int × ℚ)

/-- The text of a row: label and `name:value` items separated by single blanks, values written as decimals. -/
def IsDataLine (r : DataRow) (line : List Char) : Prop :=
  ∃ texts : List (List Char),
    List.Forall₂ (fun cell t => ∃ f v, IsNumeral cell.1 f ∧ Decimal v cell.2 ∧ t = f ++ ':' :: v) r.cells texts ∧
    line = List.intercalate [' '] (r.label :: texts)

/-- A file with these lines. -/
def fileOf (lines : List (List Char)) : List Char := (lines.map (fun l => l ++ ['\n'])).flatten

/-- A line of a `.txt` file: two words (the second is the id of the point), then the features, separated by single blanks. -/
def IsTxtLine (first id : List Char) (vs : List ℚ) (line : List Char) : Prop :=
  ∃ texts : List (List Char), List.Forall₂ (fun v t => Decimal t v) vs texts ∧ PlainText first ∧ PlainText id ∧
    line = List.intercalate [' '] (first :: id :: texts)

/-- A data row of an `.arff` file: the features and, last, the class, separated by commas. -/
def IsArffRow (vs : List ℚ) (cls : List Char) (line : List Char) : Prop :=
  ∃ texts : List (List Char), List.Forall₂ (fun v t => Decimal t v) vs texts ∧ PlainText cls ∧
    line = List.intercalate [','] (texts ++ [cls])

end MLTK.Spec
