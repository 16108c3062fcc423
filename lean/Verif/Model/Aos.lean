import Mathlib.Algebra.Order.Field.Basic
import Verif.Model.Data
/-!
# The search structures of the admissible ordered search

ufjfmltk-featselect/include/ufjfmltk/featselect/AOS.hpp: the nodes (`select_gamma`), the queue (`Heap`)
and the table of visited states (`Hash`).  Both hold pointers to the same nodes, so nodes live in a
memory; a deleted node is `none`, and reading it is the fault `badPointer`.

Simplifications: `double` is an ordered field `K`; the statistics counters and the fields of a node which
neither structure reads are left out; the array of the queue is a function of the index (that no index
exceeds `MAX_HEAP` follows from the size bound); `int` indices do not overflow; levels are not negative
and a negative `cut` acts as zero.
-/
namespace MLTK.Aos

/-- `select_gamma`, the fields used by the queue and the table: AOS.hpp:34-50. -/
structure Node (K : Type) where
  fnames : List Int
  level : Nat
  value : K
  pgamma : K
  rgamma : K
  deriving DecidableEq, Repr

/-- Memory of nodes; a pointer is a position, a deleted node is `none`. -/
abbrev Nodes (K : Type) := List (Option (Node K))

section
variable {K : Type}

/-- `*p`. -/
def deref (m : Nodes K) (p : Option Nat) : Res (Node K) :=
  match p with
  | none => .error .badPointer
  | some p =>
    match m[p]? with
    | some (some nd) => .ok nd
    | _ => .error .badPointer

/-- `delete p`. -/
def free (m : Nodes K) (p : Option Nat) : Res (Nodes K) :=
  match p with
  | none => .ok m
  | some p =>
    match m[p]? with
    | some (some _) => .ok (m.set p none)
    | _ => .error .badPointer

/-- `*p = nd`. -/
def store (m : Nodes K) (p : Nat) (nd : Node K) : Nodes K := m.set p (some nd)

/-! ### The queue -/

/-- `Heap`: the array (position 0 is never used) and the size.  AOS.hpp:82-85. -/
structure Heap where
  elements : Nat → Option Nat
  size : Nat

/-- The array. -/
abbrev Arr := Nat → Option Nat

/-- `elements[i] = p`. -/
def upd (a : Arr) (i : Nat) (p : Option Nat) : Arr := fun j => if j = i then p else a j

/-- `Heap()`: AOS.hpp:1285-1298. -/
def Heap.new : Heap := { elements := fun _ => none, size := 0 }

variable [Field K] [LinearOrder K]

/-- `(elements[i] != nullptr) ? elements[i]->value : 0`: AOS.hpp:1315, 1320. -/
def valueOr0 (m : Nodes K) (p : Option Nat) : Res K :=
  match p with
  | none => .ok 0
  | some p => do
    let nd ← deref m (some p)
    pure nd.value

/-- The loop of `insert` and the final store; the first argument bounds the number of iterations:
AOS.hpp:1315-1322. -/
def up (m : Nodes K) (tok : Nat) (tv : K) : Nat → Arr → Nat → Res Arr
  | 0, _, _ => .error .diverges
  | fuel + 1, a, i => do
    let val ← valueOr0 m (a (i / 2))
    if i > 1 ∧ val < tv then up m tok tv fuel (upd a i (a (i / 2))) (i / 2)
    else .ok (upd a i (some tok))

/-- `Heap::insert`: AOS.hpp:1304-1330; `cap` is `MAX_HEAP`.  At capacity the last element is replaced if
the new value is larger. -/
def insert (cap : Nat) (m : Nodes K) (h : Heap) (tok : Nat) : Res (Heap × Bool) := do
  let t ← deref m (some tok)
  if h.size = cap then do
    let last ← deref m (h.elements cap)
    if t.value > last.value then do
      let a ← up m tok t.value (cap + 1) h.elements cap
      .ok ({ h with elements := a }, true)
    else .ok (h, false)
  else do
    let a ← up m tok t.value (h.size + 2) h.elements (h.size + 1)
    .ok ({ elements := a, size := h.size + 1 }, true)

/-- The larger child: AOS.hpp:1416-1417. -/
def largerChild (m : Nodes K) (size : Nat) (a : Arr) (child : Nat) : Res Nat :=
  if child ≠ size then do
    let r ← deref m (a (child + 1))
    let l ← deref m (a child)
    if r.value > l.value then .ok (child + 1) else .ok child
  else .ok child

/-- `Heap::percolate`, `size` being the size after the removal; the first argument bounds the depth of
the recursion: AOS.hpp:1405-1424. -/
def percolate (m : Nodes K) (size : Nat) : Nat → Arr → Nat → Res Arr
  | 0, _, _ => .error .diverges
  | fuel + 1, a, i =>
    let last := a (size + 1)
    if i * 2 > size then .ok (upd a i last)
    else do
      let child ← largerChild m size a (i * 2)
      let l ← deref m last
      let c ← deref m (a child)
      if l.value < c.value then percolate m size fuel (upd a i (a child)) child
      else .ok (upd a i last)

/-- `Heap::pop`; popping an empty queue returns a null pointer.  AOS.hpp:1336-1351. -/
def pop (m : Nodes K) (h : Heap) : Res (Heap × Option Nat) :=
  if h.size = 0 then .ok (h, none)
  else do
    let a ← percolate m (h.size - 1) (h.size + 1) h.elements 1
    .ok ({ elements := a, size := h.size - 1 }, h.elements 1)

/-- The condition for pruning; `thr` is `(1 - NUM_ERROR_EPS) * g_margin`: AOS.hpp:1437-1438. -/
def pruned (levelat cut : Nat) (thr : K) (nd : Node K) : Bool :=
  decide (nd.level < levelat) && (decide (nd.value < thr) || decide (levelat - nd.level ≥ cut))

/-- The loop of `cut` for the positions `i, i-1, ..., 1`: AOS.hpp:1435-1447.  The table of visited states
is not touched. -/
def cutLoop (levelat cut : Nat) (thr : K) : Nat → Nodes K → Heap → Res (Nodes K × Heap)
  | 0, m, h => .ok (m, h)
  | i + 1, m, h => do
    let nd ← deref m (h.elements (i + 1))
    if pruned levelat cut thr nd then do
      let m ← free m (h.elements (i + 1))
      let a ← percolate m (h.size - 1) (h.size + 1) h.elements (i + 1)
      cutLoop levelat cut thr i m { elements := a, size := h.size - 1 }
    else cutLoop levelat cut thr i m h

/-- `Heap::cut`: AOS.hpp:1430-1451. -/
def cutHeap (levelat cut : Nat) (thr : K) (m : Nodes K) (h : Heap) : Res (Nodes K × Heap) :=
  cutLoop levelat cut thr h.size m h

/-! ### The table of visited states -/

/-- `Hash`: the buckets, each the used prefix of a row of `width` slots.  AOS.hpp:53-56. -/
structure Hash where
  buckets : List (List Nat)
  width : Nat

/-- `Hash(length, width)`: AOS.hpp:1060-1076. -/
def Hash.new (length width : Nat) : Hash := { buckets := List.replicate length [], width := width }

omit [Field K] [LinearOrder K] in
/-- The comparison loop of `select_gamma_equal`: number of equal names before the first difference.
AOS.hpp:1042-1048. -/
def eqCount (a b : List Int) : Nat → Nat → Res Nat
  | 0, _ => .ok 0
  | n + 1, i => do
    let x ← vget a i
    let y ← vget b i
    if x = y then do
      let k ← eqCount a b n (i + 1)
      pure (k + 1)
    else .ok 0

/-- `select_gamma_equal`: AOS.hpp:1038-1050. -/
def nodeEqual (a b : Node K) : Res Bool :=
  if a.level ≠ b.level then .ok false
  else do
    let eq ← eqCount a.fnames b.fnames a.level 0
    .ok (decide (eq = a.level))

/-- The hashing function: AOS.hpp:1092-1097. -/
def hashIndex (nd : Node K) (length : Nat) : Res Nat := do
  let s ← (List.range nd.level).foldlM (fun (s : Nat) i => do
    let x ← vget nd.fnames i
    pure (s + (x * x).toNat)) 0
  if length = 0 then .error .nonFinite else pure (s % length)

/-- The scan of a bucket: the first slot with an equal node.  AOS.hpp:1099-1129. -/
def scan (m : Nodes K) (nd : Node K) : List Nat → Res (Option Nat)
  | [] => .ok none
  | q :: qs => do
    let other ← deref m (some q)
    let eq ← nodeEqual nd other
    if eq then .ok (some q) else scan m nd qs

/-- A node found again: keep the larger projected value unless the node was trained, then delete the new
one.  AOS.hpp:1103-1117. -/
def refound (m : Nodes K) (p q : Nat) (nd : Node K) : Res (Nodes K) := do
  let other ← deref m (some q)
  let m := if other.rgamma < 0 ∧ other.value < nd.value then
      store m q { other with pgamma := nd.pgamma, value := nd.value } else m
  free m (some p)

/-- `Hash::add`: AOS.hpp:1082-1146.  A full bucket ends the program. -/
def add (m : Nodes K) (h : Hash) (p : Nat) : Res (Nodes K × Hash × Bool) := do
  let nd ← deref m (some p)
  let index ← hashIndex nd h.buckets.length
  let bucket ← vget h.buckets index
  let found ← scan m nd bucket
  match found with
  | some q => do
    let m ← refound m p q nd
    .ok (m, h, false)
  | none =>
    if bucket.length ≥ h.width then .error .exit1
    else do
      let buckets ← vset h.buckets index (bucket ++ [p])
      .ok (m, { h with buckets := buckets }, true)

end
end MLTK.Aos
