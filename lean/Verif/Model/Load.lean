import Verif.Model.Readers
/-!
# `Data::load`: which reader, into which dataset

Source: ufjfmltk-core/include/ufjfmltk/core/Data.hpp.  `Model/Text` and `Model/Readers` model the readers on a new dataset;
here they read into a dataset that may have been used before.  The samples, the dimension, the feature names and the index
are replaced; the class table is not cleared.  The lines after the `switch` in `load` are never reached.
Simplifications as in `Model/Text`; the index (always 0, 1, ...) and the flag `is_empty` are left out.
-/
namespace MLTK.Text

/-- A dataset as far as loading reads or writes it. -/
structure Store where
  points : List LPt
  dim : Int
  fnames : List Int
  classes : Classes
  ty : DType
  name : List Char
  atEnd : Bool
  cdist : Bool
  deriving DecidableEq, Repr

/-- `Data()`: Data.hpp 76-109, 164. -/
def Store.empty : Store := ⟨[], 0, [], Classes.none, .classification, [], false, false⟩

/-- `std::iota(fnames.begin(), fnames.end(), 1)`. -/
def names1 (n : Nat) : List Int := (List.range n).map (fun (i : Nat) => (i : Int) + 1)

/-- `load_csv`; `none` is a file that cannot be opened.  Models Data.hpp 681-802. -/
def csvInto (s : Store) : Option (List Char) → Res (Bool × Store)
  | none => .ok (false, s)
  | some file =>
    let ls := (getlines '\n' file []).map Prod.fst
    let d := fileDelim ls
    match firstPass d ls 0 0 with
    | none => .ok (false, s)
    | some (dim, _) =>
      if dim < 0 then .error .exception else do
      let (ps, cl) ← readLines s.atEnd s.ty.isClass d dim.toNat ls 0 s.classes
      return (true, { s with points := ps, dim := dim, fnames := names1 dim.toNat, classes := cl })

/-- The type of the dataset when the first reading of a `.data` file stops, at its end or at a line of another dimension.
Models Data.hpp 818-860. -/
def typeAfterData : List (List Char) → Int → Nat → DType × Bool → DType
  | [], _, _, st => st.1
  | l :: ls, ldim, n, st =>
    let items := ((getlines ' ' (trim l) []).map Prod.fst).filter (· ≠ [])
    let dim : Int := (items.length : Int) - 1
    let st := if n > 0 then (List.zip (List.range items.length) items).foldl (detectItem ldim) st else st
    if ldim ≠ dim ∧ ldim ≠ 0 then st.1 else typeAfterData ls dim (n + 1) st

/-- `load_data`.  Models Data.hpp 804-931. -/
def dataInto (s : Store) : Option (List Char) → Res (Bool × Store)
  | none => .ok (false, s)
  | some file =>
    let ls := (getlines '\n' file []).map Prod.fst
    match firstPassData ls 0 0 (s.ty, false) with
    | none => .ok (false, { s with ty := typeAfterData ls 0 0 (s.ty, false) })
    | some (dim, _, ty) =>
      if dim < 0 then .error .exception else do
      let (ps, cl, fn) ← readDataLines ty.isClass dim.toNat ls 0 s.classes (names1 dim.toNat)
      return (true, { s with points := ps, dim := dim, fnames := fn, classes := cl,
                             ty := if cl.labels.length = 2 then .binClassification else .multiClassification })

/-- The first reading of an `.arff` file: an item that is a known class name and not a number does not count; the class
names come from earlier files.  Models Data.hpp 949-985. -/
def firstPassArffInto (names : List (List Char)) : List (List Char) → Int → Option Int
  | [], ldim => some ldim
  | l :: ls, ldim =>
    let dim : Int := (((getlines ',' (trim l) []).map Prod.fst).filter (fun i => isNumber i || decide (i ∉ names))).length
    if ldim ≠ dim ∧ ldim ≠ 0 then none else firstPassArffInto names ls dim

/-- `load_arff`.  Models Data.hpp 933-1045. -/
def arffInto (s : Store) : Option (List Char) → Res (Bool × Store)
  | none => .ok (false, s)
  | some file =>
    let ls := (getlines '\n' file []).map Prod.fst
    match firstPassArffInto s.classes.names ls 0 with
    | none => .ok (false, s)
    | some dim =>
      if dim < 1 then .error .exception else do
      let (ps, cl) ← readArffLines s.atEnd s.ty.isClass (dim - 1).toNat ls 0 s.classes
      return (true, { s with points := ps, dim := dim - 1, fnames := names1 (dim - 1).toNat, classes := cl })

/-- `load_txt`.  Models Data.hpp 1047-1135. -/
def txtInto (s : Store) : Option (List Char) → Res (Bool × Store)
  | none => .ok (false, s)
  | some file =>
    let ls := (getlines '\n' file []).map Prod.fst
    match firstPassTxt ls 0 0 with
    | none => .ok (false, s)
    | some (dim, _) => do
      let ps ← readTxtLines dim ls 0
      return (true, { s with points := ps, dim := dim, fnames := names1 dim })

/-- The `switch` of `load`.  Models Data.hpp 636-649, 663-675. -/
def readInto (t : FType) (s : Store) (file : Option (List Char)) : Res (Bool × Store) :=
  match t with
  | .arff => arffInto s file
  | .csv => csvInto s file
  | .data => dataInto s file
  | .txt => txtInto s file
  | .invalid => .ok (false, s)

/-- `load(file)`: the class is expected at the end in `.arff` files and at the beginning in others.
Models Data.hpp 629-653. -/
def load (s : Store) (path : List Char) (file : Option (List Char)) : Res (Bool × Store) := do
  let t ← identifyFileType path
  let name ← datasetName path
  readInto t { s with name := name, cdist := true, atEnd := match t with | .arff => true | _ => false } file

/-- `load(file, atEnd)`.  Models Data.hpp 656-679. -/
def loadAt (s : Store) (path : List Char) (atEnd : Bool) (file : Option (List Char)) : Res (Bool × Store) := do
  let t ← identifyFileType path
  let name ← datasetName path
  readInto t { s with name := name, cdist := true, atEnd := atEnd } file

/-- `Data(dataset)`: what loading makes of a new dataset, whether it succeeded or not.  Models Data.hpp 546-550. -/
def fromFile (path : List Char) (file : Option (List Char)) : Res Store := do
  let (_, s) ← load Store.empty path file
  return s

/-- `Data(dataset, atEnd)`.  Models Data.hpp 553-557. -/
def fromFileAt (path : List Char) (atEnd : Bool) (file : Option (List Char)) : Res Store := do
  let (_, s) ← loadAt { Store.empty with atEnd := atEnd } path atEnd file
  return s

end MLTK.Text
