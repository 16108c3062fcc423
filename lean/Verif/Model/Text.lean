import Mathlib.Algebra.Order.Ring.Rat
import Verif.Model.Basic
/-!
# Text conversion and CSV files

Strings are lists of characters.  `double` values are rationals.  `int` arithmetic answers `overflow`
outside 32 bits.
-/
namespace MLTK.Text

/-- `std::isdigit` in the "C" locale. -/
def isDigit (c : Char) : Bool := 48 ≤ c.toNat && c.toNat ≤ 57

/-- `std::isspace` in the "C" locale. -/
def isSpace (c : Char) : Bool := c.toNat = 32 || (9 ≤ c.toNat && c.toNat ≤ 13)

/-- `c - '0'`. -/
def digitVal (c : Char) : Int := (c.toNat : Int) - 48

/-- `utils::is_number`.  Models Utils.cpp:15-18. -/
def isNumber (s : List Char) : Bool :=
  s ≠ [] && s.all (fun c => isDigit c || c = '.' || c = '-' || c = '+' || c = 'e')

/-! ### integers -/

/-- An `int` result. -/
def int32 (x : Int) : Res Int := if -2 ^ 31 ≤ x ∧ x < 2 ^ 31 then .ok x else .error .overflow

/-- `while (n1 != 0) { buffer[i++] = n1 % 10 + '0'; n1 = n1 / 10; }`, as character codes; an
`unsigned int` has at most ten digits, the first argument.  Models Utils.cpp:68-71. -/
def digitsLoop : Nat → Nat → List Nat
  | 0, _ => []
  | f+1, n => if n = 0 then [] else (n % 10 + 48) :: digitsLoop f (n / 10)

/-- The three `^=` assignments that exchange `buffer[t]` and `buffer[i-t-1]`.  Models Utils.cpp:80-82. -/
def xorSwap (b : List Nat) (t u : Nat) : List Nat :=
  let b1 := b.set t (b.getD t 0 ^^^ b.getD u 0)
  let b2 := b1.set u (b1.getD u 0 ^^^ b1.getD t 0)
  b2.set t (b2.getD t 0 ^^^ b2.getD u 0)

/-- `itos`.  Models Utils.cpp:60-92. -/
def itos (n : Int) : Res (List Char) := do
  let _ ← int32 n
  let isNeg := n < 0
  let n1 ← if isNeg then int32 (-n) else .ok n
  let b := digitsLoop 10 n1.toNat
  let b := if isNeg then b ++ ['-'.toNat] else b
  let b := (List.range (b.length / 2)).foldl (fun b t => xorSwap b t (b.length - t - 1)) b
  let b := if n = 0 then ['0'.toNat] else b
  pure (b.map Char.ofNat)

/-- `stoin`.  `str[0]` of an empty string is the terminating NUL.  Models Utils.cpp:20-38. -/
def stoin (str : List Char) : Res Int :=
  let c0 := str.getD 0 (Char.ofNat 0)
  if c0 = '0' then .ok 0
  else do
    let sign := if c0 = '-' then 1 else 0
    let m ← (List.range (str.length - (1 + sign))).foldlM (fun m _ => int32 (m * 10)) (1 : Int)
    let r ← (str.drop sign).foldlM (fun (st : Int × Int) c => do
      let t ← int32 (digitVal c * st.2)
      let num ← int32 (st.1 + t)
      pure (num, st.2 / 10)) ((0 : Int), m)
    if sign = 1 then int32 (r.1 * -1) else pure r.1

/-! ### decimal text -/

/-- `for (…; isdigit(s[i]); i++) val = 10.0 * val + (s[i] - '0');` returning the value, the number of
digits and the rest.  Models Utils.cpp:49-50, 53-56. -/
def readDigits : List Char → ℚ → Nat → ℚ × Nat × List Char
  | [], v, k => (v, k, [])
  | c :: cs, v, k => if isDigit c then readDigits cs (10 * v + digitVal c) (k + 1) else (v, k, c :: cs)

/-- `atod`.  Models Utils.cpp:40-58. -/
def atod (s : List Char) : ℚ :=
  let s := s.dropWhile isSpace
  let sign : ℚ := if s.head? = some '-' then -1 else 1
  let s := if s.head? = some '+' ∨ s.head? = some '-' then s.tail else s
  let (v, _, s) := readDigits s 0 0
  let s := if s.head? = some '.' then s.tail else s
  let (v, k, _) := readDigits s v 0
  sign * v / 10 ^ k

/-- `std::stoi`: optional white space and sign, then at least one digit; the rest is ignored.  Not in the
repository: C++ standard library (`std::invalid_argument`, `std::out_of_range` are uncaught). -/
def stoi (s : List Char) : Res Int :=
  let s := s.dropWhile isSpace
  let sign : Int := if s.head? = some '-' then -1 else 1
  let s := if s.head? = some '+' ∨ s.head? = some '-' then s.tail else s
  let ds := s.takeWhile isDigit
  if ds = [] then .error .exception
  else
    let v := sign * ds.foldl (fun v c => 10 * v + digitVal c) 0
    if -2 ^ 31 ≤ v ∧ v < 2 ^ 31 then .ok v else .error .exception

/-! ### tokenizing -/

/-- `str.find_first_not_of(delim, pos)` -/
def findFirstNot (d : Char) (s : List Char) (pos : Nat) : Option Nat :=
  ((s.drop pos).findIdx? (fun c => c ≠ d)).map (· + pos)

/-- `str.find(delim, pos)` -/
def findFrom (d : Char) (s : List Char) (pos : Nat) : Option Nat :=
  ((s.drop pos).findIdx? (fun c => c = d)).map (· + pos)

/-- The `while` of `tokenize`; `none` is `npos`; the first argument bounds the number of tokens.
Models Utils.cpp:203-207. -/
def tokenizeLoop (d : Char) (s : List Char) : Nat → Option Nat → List (List Char)
  | 0, _ => []
  | _+1, none => []
  | n+1, some e =>
    match findFirstNot d s e with
    | none => []
    | some start =>
      match findFrom d s start with
      | none => s.drop start :: tokenizeLoop d s n none
      | some e' => (s.drop start).take (e' - start) :: tokenizeLoop d s n (some e')

/-- `utils::tokenize`.  Models Utils.cpp:197-210. -/
def tokenize (s : List Char) (d : Char) : List (List Char) := tokenizeLoop d s (s.length + 1) (some 0)

/-! ### class names -/

/-- `class_names`, `m_classes`, `class_distribution`. -/
structure Classes where
  names : List (List Char)
  labels : List Int
  dist : List Nat
  deriving DecidableEq, Repr

/-- No class seen yet. -/
def Classes.none : Classes := ⟨[], [], []⟩

/-- `Data::process_class`: the label given to a class name.  Counting a label (lines 1169-1177) is `countLabel`.
`std::numeric_limits<int>::infinity()` is 0.  Models Data.hpp:1137-1180. -/
def processClass (st : Classes) (raw : List Char) : Res (Classes × Int) := do
  let pos := st.names.findIdx (· = raw)
  let item := raw.filter (fun c => !isSpace c)
  if item = [] then pure (st, 0)
  else
    let (names, c) ←
      if pos = st.names.length then do
        let names := st.names ++ [item]
        let c ← if ¬ ('-' :: ['1']) ∈ names then
            (if isNumber item then stoi item else pure ((names.findIdx (· = item) : Int) + 1))
          else pure 1
        let c : Int := if item = ['-', '1'] then -1 else c
        pure (names, c)
      else do
        let c ← if isNumber item then stoi item else pure ((pos : Int) + 1)
        pure (st.names, c)
    let labels := if c ∈ st.labels then st.labels else st.labels ++ [c]
    let dist := if c ∈ st.labels then st.dist else st.dist ++ [0]
    let i := labels.findIdx (· = c)
    pure (⟨names, labels, dist.set i (dist.getD i 0 + 1)⟩, c)

/-- Processing the class names of a file one after the other: the labels. -/
def processAll : Classes → List (List Char) → Res (Classes × List Int)
  | st, [] => pure (st, [])
  | st, s :: ss => do
    let (st, c) ← processClass st s
    let (st, cs) ← processAll st ss
    pure (st, c :: cs)

/-! ### CSV files -/

/-- `utils::trim_copy`.  Models Utils.hpp:66-102. -/
def trim (s : List Char) : List Char := ((s.dropWhile isSpace).reverse.dropWhile isSpace).reverse

/-- Repeated `std::getline(stream, item, d)`: the pieces, each with the stream's `eof()` after reading it
(a piece that is not followed by the delimiter). -/
def getlines (d : Char) : List Char → List Char → List (List Char × Bool)
  | [], [] => []
  | [], cur => [(cur.reverse, true)]
  | c :: cs, cur => if c = d then (cur.reverse, false) :: getlines d cs [] else getlines d cs (c :: cur)

/-- A loaded sample. -/
structure LPt where
  x : List ℚ
  y : ℚ
  id : Nat
  deriving DecidableEq, Repr

/-- The delimiter guessed from the first line.  Models Data.hpp:706-717. -/
def guessDelim : List Char → Char
  | [] => ','
  | c :: cs => if c = ',' then ',' else if c = ';' then ';' else guessDelim cs

/-- The delimiter of the file.  Models Data.hpp:686, 706-717. -/
def fileDelim : List (List Char) → Char
  | [] => ','
  | l :: _ => guessDelim (trim l)

/-- The first reading of the file: number of lines and dimension, `none` when dimensions differ (`ldim` is the
dimension of the previous line).  Models Data.hpp:699-742. -/
def firstPass (d : Char) : List (List Char) → Int → Nat → Option (Int × Nat)
  | [], ldim, n => some (ldim, n)
  | l :: ls, ldim, n =>
    let dim : Int := (getlines d (trim l) []).length - 1
    if ldim ≠ dim ∧ ldim ≠ 0 then none else firstPass d ls dim (n + 1)

/-- Reading the items of a line; `j` is `_dim + 1`.  Models Data.hpp:774-796. -/
def readItems (atEnd classification : Bool) :
    List (List Char × Bool) → Nat → List ℚ → ℚ → Classes → Res (List ℚ × ℚ × Classes)
  | [], _, x, y, cl => pure (x, y, cl)
  | (item, eof) :: rest, j, x, y, cl =>
    if (if atEnd then !eof else j ≠ 0) = true then
      if isNumber item then do
        let x' ← vset x (if atEnd then j else j - 1) (atod item)
        readItems atEnd classification rest (j + 1) x' y cl
      else readItems atEnd classification rest (j + 1) x y cl
    else if classification then do
      let (cl', c) ← processClass cl item
      readItems atEnd classification rest (j + 1) x (c : ℚ) cl'
    else readItems atEnd classification rest (j + 1) x (atod item) cl

/-- The second reading of the file; `n` lines read so far.  Models Data.hpp:762-800. -/
def readLines (atEnd classification : Bool) (d : Char) (dim : Nat) :
    List (List Char) → Nat → Classes → Res (List LPt × Classes)
  | [], _, cl => pure ([], cl)
  | l :: ls, n, cl => do
    let (x, y, cl) ← readItems atEnd classification (getlines d (trim l) []) 0 (List.replicate dim 0) 0 cl
    let (ps, cl) ← readLines atEnd classification d dim ls (n + 1) cl
    pure ({ x := x, y := y, id := n + 1 } :: ps, cl)

/-- What a dataset holds after `load`. -/
structure Loaded where
  points : List LPt
  dim : Int
  fnames : List Nat
  classes : Classes
  deriving DecidableEq, Repr

/-- `Data::load_csv` on a file with this text, into an empty dataset; `none` when it returns false.
`fnames.assign(-1, 0)` throws `std::length_error`.  Models Data.hpp:681-802. -/
def loadCsv (atEnd classification : Bool) (file : List Char) : Res (Option Loaded) :=
  let ls := (getlines '\n' file []).map Prod.fst
  let d := fileDelim ls
  match firstPass d ls 0 0 with
  | none => pure none
  | some (dim, _) =>
    if dim < 0 then .error .exception else do
    let (ps, cl) ← readLines atEnd classification d dim.toNat ls 0 Classes.none
    pure (some { points := ps, dim := dim, fnames := (List.range dim.toNat).map (· + 1), classes := cl })

/-- Digits of a natural number, most significant first. -/
def natChars (n : Nat) : List Char := (Nat.toDigits 10 n)

/-- Six significant digits and the exponent of a number with at least seven digits, ties rounded to even. -/
def sciParts (a : Nat) : Nat × Nat :=
  let e := (natChars a).length - 1
  let p := 10 ^ (e - 5)
  let q := a / p
  let r := a % p
  let q := if 2 * r > p ∨ (2 * r = p ∧ q % 2 = 1) then q + 1 else q
  if q = 10 ^ 6 then (10 ^ 5, e + 1) else (q, e)

/-- `d.ddddde+XX`, without trailing zeros. -/
def sciText (q e : Nat) : List Char :=
  let ds := natChars q
  let frac := (ds.tail.reverse.dropWhile (· = '0')).reverse
  ds.take 1 ++ (if frac = [] then [] else '.' :: frac) ++ ['e', '+'] ++ (if e < 10 then ['0'] else []) ++ natChars e

/-- `outstream << v` for an integer-valued `double`: at most six significant digits (`%g`), scientific
notation from 10⁶ on.  Not in the repository: C++ standard library. -/
def showDouble (v : Int) : List Char :=
  let a := v.natAbs
  let body := if a < 10 ^ 6 then natChars a else sciText (sciParts a).1 (sciParts a).2
  if v < 0 then '-' :: body else body

/-- One line of `Data::write` with extension "csv", for a sample of dimension at least one.
Models Data.hpp:1240-1244. -/
def writeLine (p : Int × List Int) : List Char :=
  showDouble p.1 ++ ',' :: (List.intercalate [','] (p.2.map showDouble)) ++ ['\n']

/-- `Data::write(fname, "csv")`: the text of the file, for integer-valued samples `(y, x)`.
Models Data.hpp:1214-1248. -/
def writeCsv (points : List (Int × List Int)) : List Char := (points.map writeLine).flatten

end MLTK.Text
