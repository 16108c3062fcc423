import Mathlib.Data.List.Sort
import Mathlib.Algebra.Order.Field.Basic
import Mathlib.Algebra.Order.Floor.Ring
import Mathlib.Data.Rat.Floor
import Verif.Model.Basic
/-!
# Selecting features and sampling

A dataset is reduced to its feature rows, its feature names and its dimension.
-/
namespace MLTK.Feat

/-- `m_points[i]->X()` for every `i`, `fnames` and `m_dim`. -/
structure Tbl (T : Type) where
  rows : List (List T)
  fnames : List Int
  dim : Nat
  deriving DecidableEq, Repr

/-- `std::sort` on ints (any sorted permutation is the same list). -/
def sortInt (l : List Int) : List Int := l.insertionSort (· ≤ ·)

/-! ### removeFeatures -/

/-- Whether a feature to remove exists: the search over `fnames[0 … m_dim-1]`.  Models Data.hpp:1388-1398. -/
def existsName : List Int → Nat → Int → Res Bool
  | _, 0, _ => .ok false
  | [], _+1, _ => .error .outOfBounds
  | a :: l, n+1, f => if f > -1 ∧ f = a then .ok true else existsName l n f

/-- Removing features from one sample; `fs` are the features still to be removed with their `exist` flags, `names` is
`fnames` from `j` on.  Models Data.hpp:1405-1417. -/
def eraseLoop {T : Type} : List (Int × Bool) → List Int → List T → Res (List T)
  | _, _, [] => .ok []
  | fs, names, x :: xs =>
    match fs.dropWhile (fun p => !p.2) with
    | [] => .ok (x :: xs)
    | f :: fs' =>
      match names with
      | [] => .error .outOfBounds
      | n :: ns =>
        if n = f.1 then eraseLoop fs' ns xs
        else do
          let r ← eraseLoop (f :: fs') ns xs
          pure (x :: r)

/-- Removing a feature name: the first occurrence, and `m_dim--`.  Models Data.hpp:1421-1431. -/
def eraseName (st : List Int × Nat) (f : Int) : List Int × Nat :=
  if f ∈ st.1 then (st.1.erase f, decSize st.2) else st

/-- `Data::removeFeatures(feats)`.  Models Data.hpp:1367-1434. -/
def removeFeatures {T : Type} (d : Tbl T) (feats : List Int) : Res (Tbl T × Bool) :=
  if feats = [] then pure (d, true)
  else if d.fnames.length = 1 then pure (d, false)
  else do
    let feats := sortInt feats
    let exist ← feats.mapM (existsName d.fnames d.dim)
    let rows ← d.rows.mapM (eraseLoop (feats.zip exist) d.fnames)
    let (names, dim) := feats.foldl eraseName (d.fnames, d.dim)
    pure ({ rows := rows, fnames := names, dim := dim }, true)

/-! ### insertFeatures -/

/-- Copying the chosen features of one sample: the values and names copied.  `ins` are the features still to be found.
The destination has room for `ins.size()` values, and no more are copied.  Models Data.hpp:1319-1333. -/
def insertLoop {T : Type} : List Int → List Int → List T → Nat → Res (List T × List Int)
  | _, _, _, 0 => .ok ([], [])
  | ins, names, xs, n+1 =>
    match ins, names with
    | [], _ => insertLoop [] (names.drop 1) (xs.drop 1) n
    | _ :: _, [] => .error .outOfBounds
    | f :: ins', a :: names' =>
      if a = f then
        match xs with
        | [] => .error .outOfBounds
        | x :: xs' => do
          let (r, ns) ← insertLoop ins' names' xs' n
          pure (x :: r, a :: ns)
      else insertLoop (f :: ins') names' (xs.drop 1) n

/-- The samples of `insertFeatures`; `none` when the error check fails.  Models Data.hpp:1309-1342. -/
def insertRows {T : Type} (d : Tbl T) (ins : List Int) : List (List T) → Res (Option (List (List T) × List Int))
  | [] => pure (some ([], List.replicate ins.length 0))
  | x :: xs => do
    let (r, ns) ← insertLoop ins d.fnames x d.dim
    if r.length ≠ ins.length then pure none
    else do
      let rest ← insertRows d ins xs
      match rest with
      | none => pure none
      | some (rs, _) => pure (some (r :: rs, ns))

/-- `Data::insertFeatures(ins_feat)`; an empty dataset when an error is reported.  Models Data.hpp:1296-1346. -/
def insertFeatures {T : Type} (d : Tbl T) (ins : List Int) : Res (Tbl T) :=
  if ins = [] then pure d
  else if ins.length > d.dim then pure ⟨[], [], 0⟩
  else do
    let r ← insertRows d (sortInt ins) d.rows
    match r with
    | none => pure ⟨[], [], 0⟩
    | some (rows, ns) => pure ⟨rows, ns, ins.length⟩

/-! ### selectFeatures -/

/-- The search for the positions of the features (sorted): `feats_pos` from the current one on, and the number of
invalid ones; `i` is the position of the first name left.  `none` when the loop ends before all features are found
(the assertion fails).  Models Data.hpp:2076-2083. -/
def positions : List Int → Nat → List Nat → Option (List Nat × Nat)
  | _, _, [] => some ([], 0)
  | [], _, _ :: _ => none
  | a :: names, i, f :: fs =>
    if f < 1 then
      -- entries below one leave their `feats_pos` at zero and are only counted
      match positions (a :: names) i fs with
      | none => none
      | some (ps, inv) => some (0 :: ps, inv + 1)
    else if a = (f : Int) then
      match positions names (i + 1) fs with
      | none => none
      | some (ps, inv) => some (i :: ps, inv)
    else positions names (i + 1) (f :: fs)
termination_by names _ fs => names.length + fs.length

/-- `Data::selectFeatures(feats)` with the default size: the new samples have the values at the first
`feats.size() - invalid` entries of `feats_pos`; inserting them numbers the features 1, 2, ….
Models Data.hpp:2069-2099. -/
def selectFeatures {T : Type} (d : Tbl T) (feats : List Nat) : Res (Tbl T) :=
  let feats := feats.insertionSort (· ≤ ·)
  match positions d.fnames 0 feats with
  | none => .error .assertFail
  | some (ps, inv) => do
    let rows ← d.rows.mapM (fun x => (ps.take (feats.length - inv)).mapM (vget x))
    pure ⟨rows, if rows = [] then [] else iota 1 (feats.length - inv), if rows = [] then 0 else feats.length - inv⟩

/-! ### sampling -/

/-- `while (ids.find(idx) != ids.end()) idx = dist[i](gen);`: `draw k hi` is the result of the `k`-th call with upper
bound `hi`; `none` when more than the given number of draws is needed.  Models Data.hpp:2054-2059. -/
def redraw (draw : Nat → Nat → Nat) (hi : Nat) (ids : List Nat) : Nat → Nat → Option (Nat × Nat)
  | 0, _ => none
  | n+1, k => if draw k hi ∈ ids then redraw draw hi ids n (k + 1) else some (draw k hi, k + 1)

/-- Drawing `cnt` samples of one class.  The state is the set `ids` and the number of draws made.
Models Data.hpp:2053-2062. -/
def drawClass {α : Type} (draw : Nat → Nat → Nat) (repl : Bool) (fuel : Nat) (cls : List α) (hi : Nat) :
    Nat → List Nat × Nat → Res (Option (List α × List Nat × Nat))
  | 0, st => pure (some ([], st))
  | cnt+1, (ids, k) =>
    match (if repl then some (draw k hi, k + 1) else redraw draw hi ids fuel k) with
    | none => pure none
    | some (idx, k') => do
      let x ← vget cls idx
      let r ← drawClass draw repl fuel cls hi cnt (if repl then ids else idx :: ids, k')
      match r with
      | none => pure none
      | some (xs, st) => pure (some (x :: xs, st))

/-- `class_dist[i]` of Data.hpp:2042-2044. -/
def share (sz samp : Nat) (n : Nat) : ℚ := (n : ℚ) / sz * samp

/-- `std::uniform_int_distribution<size_t>(0, class_dist[i]-1)`: the conversion to `size_t` truncates towards zero
and is undefined from -1 downwards.  Models Data.hpp:2045-2047. -/
def upper (c : ℚ) : Res Nat := if c - 1 ≤ -1 then .error .overflow else .ok ⌊c - 1⌋.toNat

/-- `(class_dist[i] < 1) ? 1 : std::floor(class_dist[i])`.  Models Data.hpp:2048-2050. -/
def quota (c : ℚ) : Nat := if c < 1 then 1 else ⌊c⌋.toNat

/-- The loop over the classes.  Models Data.hpp:2052-2063. -/
def drawAll {α : Type} (draw : Nat → Nat → Nat) (repl : Bool) (fuel : Nat) :
    List (List α × Nat × Nat) → List Nat × Nat → Res (Option (List (List α)))
  | [], _ => pure (some [])
  | (cls, hi, cnt) :: rest, st => do
    let r ← drawClass draw repl fuel cls hi cnt st
    match r with
    | none => pure none
    | some (xs, st') => do
      let rs ← drawAll draw repl fuel rest st'
      match rs with
      | none => pure none
      | some ys => pure (some (xs :: ys))

/-- `Data::sampling(samp_size, with_replacement)`, given the samples of each class (`splitByClasses`, whose sizes are
the class distribution): the samples drawn, class by class; `none` when some `while` needs more than `fuel` draws.
Models Data.hpp:2030-2066. -/
def sampling {α : Type} (draw : Nat → Nat → Nat) (fuel : Nat) (classes : List (List α)) (samp : Nat) (repl : Bool) :
    Res (Option (List (List α))) :=
  let sz := (classes.map List.length).sum
  if samp > sz then .error .assertFail
  else do
    let shares := classes.map (fun c => share sz samp c.length)
    let his ← shares.mapM upper
    drawAll draw repl fuel (classes.zip (his.zip (shares.map quota))) ([], 0)

end MLTK.Feat
