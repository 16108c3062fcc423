import Mathlib.Data.List.Sort
import Verif.Model.Basic
/-!
# Model of `mltk::Data` (ufjfmltk-core/include/ufjfmltk/core/Data.hpp)

A dataset holds `std::shared_ptr<Point>`; the model keeps the points in an explicit heap (`Mem`) and
datasets hold references, so that aliasing is observable.

Simplifications: labels `y` are integers (C++: `double`, classes are `int`); `alpha` is a rational;
memory is never reclaimed (not observable through the API); the feature type `T` is arbitrary.
-/
namespace MLTK

/-- `mltk::Point` as stored in a dataset: Point.hpp 41-49 (`x`, `y`, `alpha`, `id`). -/
structure Pt (T : Type) where
  x : List T
  y : Int
  alpha : Rat := 0
  id : Nat := 0
  deriving DecidableEq, Repr


/-- The heap of points; a `std::shared_ptr<Point<T>>` (Data.hpp 79-80) is an address (`Nat`) in it.
`make_shared` appends a cell. -/
abbrev Mem (T : Type) := List (Pt T)

/-- Pointer dereference `*p` / `p->`. -/
def deref {T : Type} (m : Mem T) (r : Nat) : Res (Pt T) :=
  match m[r]? with
  | some p => .ok p
  | none => .error .badPointer

/-- Fields of `mltk::Data`: Data.hpp 77-108. -/
structure Data where
  name : String := ""
  points : List Nat := []
  fnames : List Int := []
  index : List Int := []
  classNames : List String := []
  classes : List Int := []
  dist : List Nat := []
  msize : Nat := 0
  mdim : Nat := 0
  timeMult : Rat := 0
  posClass : String := "1"
  negClass : String := "-1"
  isEmpty : Bool := true
  atEnd : Bool := false
  normalized : Bool := false
  cdistComputed : Bool := false
  type : String := "Classification"
  deriving DecidableEq, Repr

namespace Data

/-- Default constructed dataset: Data.hpp 77-108 initialisers, `Data() = default`. -/
def empty : Data := {}

/-- `isClassification`: Data.hpp 198. -/
def isClassification (d : Data) : Bool :=
  d.type == "Classification" || d.type == "MultiClassification" || d.type == "BinClassification"

/-- `size()`: Data.hpp 208. -/
def size (d : Data) : Nat := d.points.length

/-- `dim()`: Data.hpp 213. -/
def dim {T : Type} (m : Mem T) (d : Data) : Res Nat :=
  match d.points with
  | [] => .ok 0
  | r :: _ => do let p ← deref m r; return p.x.length

/-- The pointed-to samples, in order: what a user reads through `data[i]` (Data.hpp 1509-1512). -/
def view {T : Type} (m : Mem T) (d : Data) : List (Option (Pt T)) := d.points.map (fun r => m[r]?)

/-- `int(std::find(m_classes...) - m_classes.begin())`: index of the first occurrence, or the
number of classes. -/
def classPos (classes : List Int) (y : Int) : Nat := classes.findIdx (· == y)

/-- `class_distribution[pos]++`. -/
def incAt (dist : List Nat) (pos : Nat) : Res (List Nat) := do
  let v ← vget dist pos
  vset dist pos (v + 1)

/-- `class_distribution[pos]--` on `size_t`. -/
def decAt (dist : List Nat) (pos : Nat) : Res (List Nat) := do
  let v ← vget dist pos
  vset dist pos (decSize v)

/-- The class bookkeeping block of `insertPoint`: Data.hpp 1468-1478. `last` is the label read
through `m_points[m_size-1]`, `y` the label of the inserted point. -/
def insertClass (d : Data) (y last : Int) : Res Data :=
  if classPos d.classes y = d.classes.length then
    .ok { d with classNames := d.classNames ++ [toString last],
                 classes := d.classes ++ [last],
                 dist := d.dist ++ [1] }
  else do
    let dist ← incAt d.dist (classPos d.classes y)
    return { d with dist := dist }

/-- The unconditional part of `insertPoint`: feature names reset to `1..dim`, the pointer appended,
counters updated: Data.hpp 1456-1466.  `n` is `p->size()`. -/
def pushed (d : Data) (r : Nat) (n : Nat) : Data :=
  { d with fnames := if n > 0 then iota 1 n else d.fnames,
           points := d.points ++ [r], msize := d.msize + 1, isEmpty := false,
           mdim := if d.mdim = 0 then n else d.mdim }

/-- The class block of `insertPoint` with its reads through `m_points[m_size-1]`:
Data.hpp 1468-1478. -/
def pushClass {T : Type} (m : Mem T) (d : Data) (y : Int) : Res Data :=
  if d.isClassification then do
    let lr ← vget d.points (d.msize - 1)
    let last ← deref m lr
    insertClass d y last.y
  else pure d

/-- `if(!keepIndex) m_points[m_size-1]->Id() = m_size`: Data.hpp 1480-1484. -/
def assignId {T : Type} (m : Mem T) (d : Data) (keep : Bool) : Res (Mem T) :=
  if keep then pure m else do
    let lr ← vget d.points (d.msize - 1)
    let last ← deref m lr
    pure (m.set lr { last with id := d.msize })

/-- `insertPoint(std::shared_ptr<Point<T>> p, bool keepIndex)`: Data.hpp 1448-1487.
Returns the heap, the dataset and the returned flag. -/
def insertPtr {T : Type} (m : Mem T) (d : Data) (r : Nat) (keep : Bool) :
    Res (Mem T × Data × Bool) := do
  let p ← deref m r
  let dm ← dim m d
  if d.size > 0 ∧ p.x.length ≠ dm then
    return (m, d, false)
  let d ← pushClass m (pushed d r p.x.length) p.y
  let m ← assignId m d keep
  return (m, { d with index := d.index ++ [(d.points.length : Int) - 1] }, true)

/-- `insertPoint(Point<T> p, bool keepIndex)`: Data.hpp 1489-1492 (`make_shared` of a copy). -/
def insertVal {T : Type} (m : Mem T) (d : Data) (p : Pt T) (keep : Bool) :
    Res (Mem T × Data × Bool) :=
  insertPtr (m ++ [p]) d m.length keep

/-- `insertPoint(const Data<T>& samples, int _index, bool keepIndex)`: Data.hpp 1436-1446.
`_index > samples.size() - 1` is an unsigned comparison, so a negative index and an empty
dataset (`size()-1` wraps) are handled as in C++: a negative `_index` is huge, and no index exceeds
`2^64-1`.  The result of the inner call is ignored. -/
def insertFrom {T : Type} (m : Mem T) (d src : Data) (idx : Int) (keep : Bool) :
    Res (Mem T × Data × Bool) := do
  let uidx : Nat := if idx < 0 then (2 ^ 64 + idx).toNat else idx.toNat
  let lim : Nat := if src.size = 0 then 2 ^ 64 - 1 else src.size - 1
  if uidx > lim then return (m, d, false)
  if idx < 0 then .error .outOfBounds
  let r ← vget src.points idx.toNat
  let (m, d, _) ← insertPtr m d r keep
  return (m, d, true)

/-- The index rewriting loop of `removePoint`: Data.hpp 1190-1198
(`for i<m_size: if i>=pid: index[i-1] = index[i]-1`, after `index.resize(m_size)`).
Only called with `pid > 0`. -/
def shiftIndex (index : List Int) (n : Nat) (pid : Nat) : List Int :=
  if index = [] then index
  else
    (List.range n).foldl
      (fun idx i => if i ≥ pid then idx.set (i - 1) (idx.getD i 0 - 1) else idx)
      ((index ++ List.replicate (n - index.length) 0).take n)

/-- Position of the first point among the first `m_size` whose id is `pid`:
the search loop of Data.hpp 1201-1207. -/
def findId {T : Type} (m : Mem T) : List Nat → Nat → Res (Option Nat)
  | [], _ => .ok none
  | r :: rs, pid => do
    let p ← deref m r
    if p.id = pid then return some 0
    let k ← findId m rs pid
    return k.map (· + 1)

/-- `removePoint(int pid)`: Data.hpp 1182-1212.  When no point has the id, the C++ reads the
uninitialised `y`: outcome `Fault.uninit`. -/
def removePoint {T : Type} (m : Mem T) (d : Data) (pid : Int) : Res (Data × Bool) := do
  if d.msize = 1 then return (d, false)
  if d.msize = 0 then .error .outOfBounds
  let lr ← vget d.points (d.msize - 1)
  let last ← deref m lr
  if pid > last.id ∨ pid ≤ 0 then return (d, false)
  let index := shiftIndex d.index d.msize pid.toNat
  let pos ← findId m (d.points.take d.msize) pid.toNat
  match pos with
  | none => .error .uninit
  | some k =>
    let r ← vget d.points k
    let p ← deref m r
    let dist ← decAt d.dist (classPos d.classes p.y)
    return ({ d with index := index, points := d.points.eraseIdx k, msize := d.msize - 1,
                     dist := dist }, true)

/-- First position in the sorted id list holding `id`: inner loop of Data.hpp 1266-1272. -/
def findIn (ids : List Int) (id : Nat) : Option Nat :=
  let k := ids.findIdx (· == (id : Int))
  if k < ids.length then some k else none

/-- The erase loop of `removePoints`: Data.hpp 1262-1291.  `done` are the points already kept,
`rest` those still to be visited. -/
def removeLoop {T : Type} (m : Mem T) (ids : List Int) :
    (rest : List Nat) → (done : List Nat) → Data → List Bool → Res (Data × List Bool)
  | [], done, d, nf => .ok ({ d with points := done }, nf)
  | r :: rest, done, d, nf => do
    let p ← deref m r
    match findIn ids p.id with
    | none => removeLoop m ids rest (done ++ [r]) d nf
    | some i =>
      let nf := nf.set i false
      let idi ← vget ids i
      -- j >= ids[i] with ids[i] = 0 makes the C++ write index[-1]
      if d.index ≠ [] ∧ idi ≤ 0 ∧ d.msize > 0 then .error .outOfBounds
      let d := { d with index := shiftIndex d.index d.msize idi.toNat }
      if d.msize = 1 then
        return ({ d with points := done ++ rest }, nf)
      let dist ← decAt d.dist (classPos d.classes p.y)
      removeLoop m ids rest done { d with dist := dist, msize := d.msize - 1 } nf

/-- `removePoints(std::vector<int> ids)`: Data.hpp 1251-1294.  The flags refer to the *sorted*
ids. -/
def removePoints {T : Type} (m : Mem T) (d : Data) (ids : List Int) : Res (Data × List Bool) :=
  let ids := ids.insertionSort (· ≤ ·)
  removeLoop m ids d.points [] d (List.replicate ids.length true)

/-- Copy loop of `copy`: Data.hpp 1562-1571; every point is freshly allocated. -/
def copyPoints {T : Type} (m : Mem T) (acc : List Nat) : List Nat → Res (Mem T × List Nat)
  | [] => .ok (m, acc)
  | r :: rs => do
    let p ← deref m r
    copyPoints (m ++ [p]) (acc ++ [m.length]) rs

/-- `copy(const Data&)` into `self`: Data.hpp 1557-1585.  `pos_class`, `neg_class` and `atEnd` are
not copied. -/
def copyFrom {T : Type} (m : Mem T) (self src : Data) : Res (Mem T × Data) := do
  let (m', ps) ← copyPoints m [] src.points
  let dm ← dim m src
  return (m', { self with
    points := ps, fnames := src.fnames, msize := src.size, classes := src.classes,
    classNames := src.classNames, dist := src.dist, mdim := dm, type := src.type,
    index := src.index, isEmpty := src.isEmpty, normalized := src.normalized,
    timeMult := src.timeMult, cdistComputed := src.cdistComputed, name := src.name })

/-- `copy() const` and the copy constructor: Data.hpp 1550-1555, 2101-2104. -/
def copy {T : Type} (m : Mem T) (d : Data) : Res (Mem T × Data) := copyFrom m empty d

/-- `operator=`: Data.hpp 1704-1723: shares the points, keeps `cdist_computed` and `atEnd`. -/
def assign (self src : Data) : Data :=
  { self with
    points := src.points, fnames := src.fnames, index := src.index, msize := src.msize,
    mdim := src.mdim, classes := src.classes, dist := src.dist, classNames := src.classNames,
    timeMult := src.timeMult, posClass := src.posClass, negClass := src.negClass,
    isEmpty := src.isEmpty, normalized := src.normalized, name := src.name, type := src.type }

/-- `clear()`: Data.hpp 1726-1738.  `class_distribution` is not cleared. -/
def clear (d : Data) : Data :=
  { d with points := [], fnames := [], index := [], classes := [], classNames := [],
           msize := 0, mdim := 0, normalized := false, isEmpty := true, cdistComputed := false }

/-- `resetIndex()`: Data.hpp 1758-1762. -/
def resetIndex (d : Data) : Data := { d with index := iota 0 d.points.length }

/-- Counting loop of `computeClassesDistribution`: Data.hpp 1845-1850. -/
def countLoop {T : Type} (m : Mem T) (classes : List Int) (dist : List Nat) :
    List Nat → Res (List Nat)
  | [] => .ok dist
  | r :: rs => do
    let p ← deref m r
    let dist ← incAt dist (classPos classes p.y)
    countLoop m classes dist rs

/-- `computeClassesDistribution()`: Data.hpp 1842-1852. -/
def computeDist {T : Type} (m : Mem T) (d : Data) : Res Data := do
  if d.cdistComputed then return d
  let dist ← countLoop m d.classes (List.replicate d.classes.length 0) d.points
  return { d with dist := dist }

/-- `std::set_difference` on two sorted ranges (merge algorithm). -/
def setDiff {α : Type} (lt : α → α → Bool) : List α → List α → List α
  | [], _ => []
  | a :: as, [] => a :: as
  | a :: as, b :: bs =>
    if lt a b then a :: setDiff lt as (b :: bs)
    else if lt b a then setDiff lt (a :: as) bs
    else setDiff lt as bs
termination_by a b => a.length + b.length

/-- `join(const Data&)`: Data.hpp 1597-1643. -/
def join {T : Type} (m : Mem T) (d o : Data) : Res (Mem T × Data) := do
  let dim1 ← dim m o
  if d.mdim > dim1 then .error .exit1
  if d.points.length < d.msize then .error .badPointer
  let (m, fresh) ← copyPoints m [] o.points
  let d := { d with msize := d.msize + o.size, points := d.points.take d.msize ++ fresh }
  let d := d.resetIndex
  let diff := setDiff (fun a b => decide (a < b))
    (o.classes.insertionSort (· ≤ ·)) (d.classes.insertionSort (· ≤ ·))
  let diffN := setDiff (fun a b => decide (a < b))
    (o.classNames.insertionSort (· ≤ ·))
    (d.classNames.insertionSort (· ≤ ·))
  let d := { d with classes := d.classes ++ diff, classNames := d.classNames ++ diffN }
  let d := { d with dist := List.replicate d.classes.length 0 }
  let d ← computeDist m d
  return (m, if d.fnames = [] then { d with fnames := o.fnames } else d)

/-- Position update of `shuffle`: Data.hpp 1348-1356.  `std::shuffle` is the parameter `σ`, a
rearrangement of the pointer vector; the loop `index[i] = i` for `i < m_size` is undefined behaviour
when `index` is shorter than `m_size`. -/
def shuffle (d : Data) (σ : List Nat → List Nat) : Res Data :=
  if d.index.length < d.msize then .error .outOfBounds
  else .ok { d with points := σ d.points, index := iota 0 d.msize ++ d.index.drop d.msize }

/-- `setClasses`: Data.hpp 1835-1840. -/
def setClasses (d : Data) (cs : List Int) : Data :=
  { d with classes := cs, cdistComputed := false,
           dist := (d.dist ++ List.replicate (cs.length - d.dist.length) 0).take cs.length }

/-- `updatePointValue(idx, value)`: Data.hpp 1980-2008.  After `m_classes.push_back` the iterator
`class_pos` is invalidated: `realloc = true` is the case where the vector moved (outcome
`badIterator`), `realloc = false` the case where pointer arithmetic still gives the old end.
Simplified: erasing from a list of class names shorter than the classes is no fault. -/
def updateValue {T : Type} (realloc : Bool) (m : Mem T) (d : Data) (idx : Nat) (v : Int) :
    Res (Mem T × Data × Bool) := do
  if idx ≥ d.msize then return (m, d, false)
  let r ← vget d.points idx
  let p ← deref m r
  let d ← (if d.isClassification then do
      let pos := classPos d.classes v
      if pos = d.classes.length ∧ realloc = true then .error .badIterator
      let d := if pos = d.classes.length then
          { d with classes := d.classes ++ [v], classNames := d.classNames ++ [toString v],
                   dist := d.dist ++ [1] }
        else d
      let oldpos := classPos d.classes p.y
      let dist ← incAt d.dist pos
      let dist ← decAt dist oldpos
      let cnt ← vget dist oldpos
      if cnt = 0 then
        return { d with dist := dist.eraseIdx oldpos, classes := d.classes.eraseIdx oldpos,
                        classNames := d.classNames.eraseIdx oldpos }
      else return { d with dist := dist }
    else pure d)
  return (m.set r { p with y := v }, d, true)

/-- `operator==`: Data.hpp 1769-1803 (points are compared with `Point::operator==`, Point.hpp
712-715, that is by `X()` only).  A longer left distribution reads outside the right one. -/
def eqv {T : Type} [DecidableEq T] (m : Mem T) (a b : Data) : Res Bool := do
  if a.points.length ≠ b.points.length then return false
  if (view m a).map (·.map Pt.x) ≠ (view m b).map (·.map Pt.x) then return false
  if a.classes ≠ b.classes then return false
  if a.dist.take b.dist.length ≠ b.dist.take a.dist.length then return false
  if a.dist.length > b.dist.length then .error .outOfBounds
  return decide (a.fnames = b.fnames ∧ a.index = b.index ∧ a.points.length = b.msize ∧
    a.mdim = b.mdim ∧ a.timeMult = b.timeMult ∧ a.posClass = b.posClass ∧
    a.negClass = b.negClass ∧ a.isEmpty = b.isEmpty ∧ a.normalized = b.normalized)

end Data
end MLTK
