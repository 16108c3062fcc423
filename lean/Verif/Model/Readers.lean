import Verif.Model.Text
/-!
# The other file readers of `Data`: `.data`, `.arff`, `.txt`

Text is handled as in `Model/Text`.  Every reader starts from an empty dataset.  Warnings and messages are left out.
-/
namespace MLTK.Text

/-- The values of `Data::type`. -/
inductive DType where
  | classification | binClassification | multiClassification | regression
  deriving DecidableEq, Repr

/-- `Data::isClassification`.  Models Data.hpp:198. -/
def DType.isClass : DType → Bool
  | .regression => false
  | _ => true

/-- What a dataset holds after one of these readers. -/
structure DLoaded where
  points : List LPt
  dim : Int
  fnames : List Int
  classes : Classes
  ty : DType
  deriving DecidableEq, Repr

/-! ### `.data` files -/

/-- The test that fixes the type of the dataset, on item `j` of a line; `det` is `type_detect`.  Only the first piece of the
item before a colon decides.  Models Data.hpp:836-849. -/
def detectItem (ldim : Int) (st : DType × Bool) (ji : Nat × List Char) : DType × Bool :=
  if st.2 = false ∧ (ji.1 : Int) = ldim then
    match (getlines ':' (trim ji.2) []).map Prod.fst with
    | [] => st
    | p :: _ => (if '.' ∈ p then .regression else .classification, true)
  else st

/-- The first reading of the file: dimension, number of lines and type; `none` when dimensions differ.  Empty items are
skipped.  Models Data.hpp:819-858. -/
def firstPassData : List (List Char) → Int → Nat → DType × Bool → Option (Int × Nat × DType)
  | [], ldim, n, st => some (ldim, n, st.1)
  | l :: ls, ldim, n, st =>
    let items := ((getlines ' ' (trim l) []).map Prod.fst).filter (· ≠ [])
    let dim : Int := (items.length : Int) - 1
    let st := if n > 0 then (List.zip (List.range items.length) items).foldl (detectItem ldim) st else st
    if ldim ≠ dim ∧ ldim ≠ 0 then none else firstPassData ls dim (n + 1) st

/-- State of reading a line: the components, the label, the class table, the feature names and `_dim`. -/
structure RowSt where
  x : List ℚ
  y : ℚ
  cl : Classes
  fnames : List Int
  j : Nat
  deriving DecidableEq, Repr

/-- The pieces of an item with a colon, alternately feature names and values; `isF` is `is_feature`.
Models Data.hpp:904-915. -/
def readPieces : List (List Char) → Bool → RowSt → Res RowSt
  | [], _, s => pure s
  | p :: ps, isF, s => do
    let p := p.filter (· ≠ '\r')
    if isF = false then do
      let f ← stoin p
      let fnames ← vset s.fnames s.j f
      readPieces ps true { s with fnames := fnames }
    else if isNumber p then do
      let x ← vset s.x s.j (atod p)
      readPieces ps false { s with x := x, j := s.j + 1 }
    else readPieces ps false s

/-- One item of a line; items are not skipped when empty.  Models Data.hpp:889-916. -/
def readDataItem (classification : Bool) (s : RowSt) (item : List Char) : Res RowSt :=
  let item := trim item
  if ':' ∉ item then
    if classification then do
      let (cl, c) ← processClass s.cl item
      pure { s with y := (c : ℚ), cl := cl }
    else pure { s with y := atod item }
  else readPieces ((getlines ':' item []).map Prod.fst) false s

/-- The second reading of the file; `n` lines read so far.  Models Data.hpp:878-920. -/
def readDataLines (classification : Bool) (dim : Nat) :
    List (List Char) → Nat → Classes → List Int → Res (List LPt × Classes × List Int)
  | [], _, cl, fn => pure ([], cl, fn)
  | l :: ls, n, cl, fn => do
    let s ← ((getlines ' ' (trim l) []).map Prod.fst).foldlM (readDataItem classification)
      { x := List.replicate dim 0, y := 0, cl := cl, fnames := fn, j := 0 }
    let (ps, cl, fn) ← readDataLines classification dim ls (n + 1) s.cl s.fnames
    pure ({ x := s.x, y := s.y, id := n + 1 } :: ps, cl, fn)

/-- `Data::load_data` on a file with this text, into an empty dataset of type `ty`; `none` when it returns false.
`fnames.assign(-1, 0)` throws `std::length_error`.  Models Data.hpp:804-931. -/
def loadData (ty : DType) (file : List Char) : Res (Option DLoaded) :=
  let ls := (getlines '\n' file []).map Prod.fst
  match firstPassData ls 0 0 (ty, false) with
  | none => pure none
  | some (dim, _, ty) =>
    if dim < 0 then .error .exception else do
    let (ps, cl, fn) ← readDataLines ty.isClass dim.toNat ls 0 Classes.none
      ((List.range dim.toNat).map (fun (i : Nat) => (i : Int) + 1))
    pure (some ⟨ps, dim, fn, cl, if cl.labels.length = 2 then .binClassification else .multiClassification⟩)

/-- `outstream << f` for an `int`.  Not in the repository: C++ standard library. -/
def showInt (v : Int) : List Char := if v < 0 then '-' :: natChars v.natAbs else natChars v.natAbs

/-- One line of `Data::write` with extension "data", for a sample of dimension at least one.  Models Data.hpp:1234-1238. -/
def writeDataLine (fnames : List Int) (p : Int × List Int) : List Char :=
  showDouble p.1 ++ ' ' :: (List.intercalate [' '] (List.zipWith (fun f v => showInt f ++ ':' :: showDouble v) fnames p.2)) ++
    ['\n']

/-- `Data::write(fname, "data")`: the text of the file, for integer-valued samples `(y, x)`.  Models Data.hpp:1214-1248. -/
def writeData (fnames : List Int) (points : List (Int × List Int)) : List Char :=
  (points.map (writeDataLine fnames)).flatten

/-! ### `.txt` files -/

/-- The first reading: dimension and number of lines; `none` when dimensions differ.  Models Data.hpp:1062-1085. -/
def firstPassTxt : List (List Char) → Nat → Nat → Option (Nat × Nat)
  | [], d, n => some (d, n)
  | l :: ls, d, n =>
    let dim := (getlines ' ' (trim l) []).length - 2
    if n ≠ 0 ∧ dim ≠ d then none else firstPassTxt ls dim (n + 1)

/-- The items of a line from number `n` on: item 0 is skipped, item 1 is an id that does not survive (Data.hpp:1127
overwrites it).  The label is 0.  Models Data.hpp:1114-1124. -/
def readTxtItems : List (List Char) → Nat → List ℚ → Res (List ℚ)
  | [], _, x => pure x
  | item :: rest, n, x =>
    if 2 ≤ n then
      if isNumber item then do
        let x ← vset x (n - 2) (atod item)
        readTxtItems rest (n + 1) x
      else readTxtItems rest (n + 1) x
    else readTxtItems rest (n + 1) x

/-- The second reading.  Models Data.hpp:1104-1129. -/
def readTxtLines (dim : Nat) : List (List Char) → Nat → Res (List LPt)
  | [], _ => pure []
  | l :: ls, n => do
    let x ← readTxtItems ((getlines ' ' (trim l) []).map Prod.fst) 0 (List.replicate dim 0)
    let ps ← readTxtLines dim ls (n + 1)
    pure ({ x := x, y := 0, id := n + 1 } :: ps)

/-- `Data::load_txt` on a file with this text.  Models Data.hpp:1047-1135. -/
def loadTxt (ty : DType) (file : List Char) : Res (Option DLoaded) :=
  let ls := (getlines '\n' file []).map Prod.fst
  match firstPassTxt ls 0 0 with
  | none => pure none
  | some (dim, _) => do
    let ps ← readTxtLines dim ls 0
    pure (some ⟨ps, dim, (List.range dim).map (fun (i : Nat) => (i : Int) + 1), Classes.none, ty⟩)

/-! ### `.arff` files -/

/-- The first reading: number of items per line and of lines; `none` when the numbers differ.  No line is skipped: neither
comments nor `@` declarations.  `class_names` is empty, so the branch at Data.hpp:957-960 is not taken.
Models Data.hpp:949-985. -/
def firstPassArff : List (List Char) → Nat → Nat → Option (Nat × Nat)
  | [], ldim, n => some (ldim, n)
  | l :: ls, ldim, n =>
    let dim := (getlines ',' (trim l) []).length
    if ldim ≠ dim ∧ ldim ≠ 0 then none else firstPassArff ls dim (n + 1)

/-- The items of a line; `j` is `_dim + 1`.  In a regression dataset the label is the initial value of `c`, 0.
Models Data.hpp:1015-1035. -/
def readArffItems (atEnd classification : Bool) :
    List (List Char × Bool) → Nat → List ℚ → ℚ → Classes → Res (List ℚ × ℚ × Classes)
  | [], _, x, y, cl => pure (x, y, cl)
  | (item, eof) :: rest, j, x, y, cl =>
    if (if atEnd then !eof else j ≠ 1) = true then
      if isNumber item then do
        let x ← vset x j (atod item)
        readArffItems atEnd classification rest (j + 1) x y cl
      else readArffItems atEnd classification rest (j + 1) x y cl
    else if classification then do
      let (cl, c) ← processClass cl item
      readArffItems atEnd classification rest (j + 1) x (c : ℚ) cl
    else readArffItems atEnd classification rest (j + 1) x 0 cl

/-- The second reading.  Models Data.hpp:1005-1040. -/
def readArffLines (atEnd classification : Bool) (dim : Nat) :
    List (List Char) → Nat → Classes → Res (List LPt × Classes)
  | [], _, cl => pure ([], cl)
  | l :: ls, n, cl => do
    let (x, y, cl) ← readArffItems atEnd classification (getlines ',' (trim l) []) 0 (List.replicate dim 0) 0 cl
    let (ps, cl) ← readArffLines atEnd classification dim ls (n + 1) cl
    pure ({ x := x, y := y, id := n + 1 } :: ps, cl)

/-- `Data::load_arff` on a file with this text.  A file whose last line is blank has dimension -1:
`std::length_error`.  Models Data.hpp:933-1045. -/
def loadArff (atEnd : Bool) (ty : DType) (file : List Char) : Res (Option DLoaded) :=
  let ls := (getlines '\n' file []).map Prod.fst
  match firstPassArff ls 0 0 with
  | none => pure none
  | some (0, _) => .error .exception
  | some (d+1, _) => do
    let (ps, cl) ← readArffLines atEnd ty.isClass d ls 0 Classes.none
    pure (some ⟨ps, d, (List.range d).map (fun (i : Nat) => (i : Int) + 1), cl, ty⟩)

/-! ### choosing the reader -/

/-- `mltk::Type` -/
inductive FType where
  | invalid | data | csv | arff | txt
  deriving DecidableEq, Repr

/-- The file types in the order of `mltk::types`, each with the value returned for it.  Models Data.hpp:56, 600-613. -/
def fileTypes : List (List Char × FType) :=
  [("data".toList, .data), ("csv".toList, .csv), ("arff".toList, .arff), ("txt".toList, .txt), ("plt".toList, .invalid)]

/-- The inner loop: compares a type name and the file name backwards, up to a dot; both lists are reversed.  Reading before
the file name is out of bounds.  Models Data.hpp:598-619. -/
def matchBack : List Char → List Char → Res Bool
  | [], _ => pure true
  | _ :: _, [] => .error .outOfBounds
  | t :: ts, c :: cs => if c = '.' then pure false else if t = c then matchBack ts cs else pure false

/-- The loop over the type names at one position.  Models Data.hpp:596-622. -/
def matchTypes (rev : List Char) : List (List Char × FType) → Res (Option FType)
  | [] => pure none
  | (t, r) :: ts => do
    if (← matchBack t.reverse rev) then pure (some r) else matchTypes rev ts

/-- The loop over the positions of the file name, from the end to the last dot; `k` is unsigned, so that without a dot the
name is read before its start.  The argument is the reversed name.  Models Data.hpp:595-625. -/
def identifyBack : List Char → Res FType
  | [] => .error .outOfBounds
  | c :: cs =>
    if c = '.' then pure .invalid
    else do
      match (← matchTypes (c :: cs) fileTypes) with
      | some r => pure r
      | none => identifyBack cs

/-- `Data::identifyFileType`.  Models Data.hpp:591-626. -/
def identifyFileType (file : List Char) : Res FType := identifyBack file.reverse

/-- `Data::discover_dataset_name`; `tokens.back()` of no tokens is out of bounds.  Models Data.hpp:2135-2139. -/
def datasetName (path : List Char) : Res (List Char) :=
  match (tokenize path '/').getLast? with
  | none => .error .outOfBounds
  | some t => pure ((tokenize t '.').headD [])

end MLTK.Text
