import Verif.Model.Text
/-!
# Printing points, datasets and confusion matrices

`str` is the text `operator<<` makes of a number (six significant digits by default): a parameter.
-/
namespace MLTK.Print

/-- Text. -/
abbrev Str := List Char

/-- What `operator<<` reads of a point: its number, its components and its label; `none` is the value
`-std::numeric_limits<double>::max()` a point has before it is given a label (a label that is not a
number is left out).  Models Point.hpp:44-49. -/
structure PPoint (K : Type) where
  id : Nat
  x : List K
  y : Option K

/-- `operator<<` of an `int`. -/
def intChars (c : Int) : Str := if c < 0 then '-' :: Text.natChars c.natAbs else Text.natChars c.natAbs

/-- The opening of the text.  Models Point.hpp:694-697. -/
def opening (id : Nat) : Str := if id > 0 then Text.natChars id ++ [':', '['] else ['[']

/-- The loop over all components but the last; it ends with `i = max 0 (dim - 1)`.
Models Point.hpp:699-701. -/
def leading {K : Type} (str : K → Str) (x : List K) : Str :=
  (x.take (x.length - 1)).flatMap (fun v => str v ++ [',', ' '])

/-- `operator<<(ostream, Point)`.  Models Point.hpp:690-709: `p.x[i]` after the loop is outside an empty
point. -/
def point {K : Type} (str : K → Str) (p : PPoint K) : Res Str := do
  let last ← vget p.x (p.x.length - 1)
  match p.y with
  | some y => pure (opening p.id ++ leading str p.x ++ str last ++ [',', ' '] ++ str y ++ [']'])
  | none => pure (opening p.id ++ leading str p.x ++ str last ++ [']'])

/-- `operator<<(ostream, Data)`: every point and a line end.  Models Data.hpp:536-543. -/
def dataset {K : Type} (str : K → Str) : List (PPoint K) → Res Str
  | [] => pure []
  | p :: ps => do
    let l ← point str p
    let r ← dataset str ps
    pure (l ++ '\n' :: r)

/-- What heads row and column `i`: the class or its name.  Models Utils.cpp:172-176, 185-189. -/
def heading (classes : List Int) (names : List Str) (showNames : Bool) (i : Nat) : Res Str :=
  if showNames then vget names i else do pure (intChars (← vget classes i))

/-- A row of the table after its heading.  Models Utils.cpp:190-192. -/
def cells (row : List Nat) (n : Nat) : Res Str := do
  pure (← (List.range n).mapM (fun j => do pure (Text.natChars (← vget row j) ++ ['\t']))).flatten

/-- A line of the table.  Models Utils.cpp:184-194. -/
def tableRow (classes : List Int) (names : List Str) (m : List (List Nat)) (showNames : Bool) (i : Nat) :
    Res Str := do
  let h ← heading classes names showNames i
  let r ← vget m i
  let c ← cells r classes.length
  pure (h ++ [' ', '|', ' '] ++ c ++ ['\n'])

/-- `printConfusionMatrix`.  Models Utils.cpp:168-195. -/
def table (classes : List Int) (names : List Str) (m : List (List Nat)) (showNames : Bool) : Res Str := do
  let hs ← (List.range classes.length).mapM (fun i => do
    pure ((← heading classes names showNames i) ++ ['\t']))
  let rows ← (List.range classes.length).mapM (tableRow classes names m showNames)
  pure ([' ', ' ', ' ', ' '] ++ hs.flatten ++ ['\n'] ++ [' ', ' ', ' ', ' '] ++
    (List.replicate classes.length ['-', '-', '-', '-']).flatten ++ ['\n'] ++ rows.flatten)

end MLTK.Print
