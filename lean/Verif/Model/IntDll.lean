import Verif.Model.Basic
/-!
# The doubly linked list of ints

The heap is explicit: an address maps to the node allocated there, if any.  Addresses are natural
numbers; `new` never fails and never reuses an address (a simplification: a dangling pointer is
always detected as such).
-/
namespace MLTK.Dll

/-- `class int_dll`.  Models int_dll.h:10-13. -/
structure Node where
  index : Int
  prev : Option Nat
  next : Option Nat
  deriving DecidableEq, Repr

/-- The free store, as far as `int_dll` nodes are concerned.  `fresh` is the next address. -/
structure Heap where
  cells : Nat → Option Node
  fresh : Nat

/-- `p->…` read: null or freed pointers are undefined behaviour. -/
def deref (h : Heap) : Option Nat → Res Node
  | none => .error .badPointer
  | some p => match h.cells p with
    | some n => .ok n
    | none => .error .badPointer

/-- A store into a live node. -/
def store (h : Heap) (p : Nat) (n : Option Node) : Heap :=
  { h with cells := fun q => if q = p then n else h.cells q }

/-- `p->f = …`. -/
def modify (h : Heap) (p : Option Nat) (f : Node → Node) : Res Heap := do
  let n ← deref h p
  match p with
  | some q => .ok (store h q (some (f n)))
  | none => .error .badPointer

/-- `new int_dll`, i.e. allocation and the constructor.  Models int_dll.cpp:14-18. -/
def alloc (h : Heap) : Nat × Heap :=
  (h.fresh, { cells := fun q => if q = h.fresh then some ⟨-1, none, none⟩ else h.cells q, fresh := h.fresh + 1 })

/-- `delete p`. -/
def free1 (h : Heap) (p : Option Nat) : Res Heap := do
  let _ ← deref h p
  match p with
  | some q => .ok (store h q none)
  | none => .error .badPointer

/-- `if (p != nullptr) p->f = …`. -/
def modifyIf (h : Heap) (p : Option Nat) (f : Node → Node) : Res Heap :=
  match p with
  | none => .ok h
  | some q => modify h (some q) f

/-- `int_dll::remove(int_dll **node)`; the caller's pointer becomes null.  The returned pair is the
return value and the heap.  Models int_dll.cpp:24-44. -/
def remove (h : Heap) (node : Option Nat) : Res (Option Nat × Heap) :=
  match node with
  | none => .ok (none, h)
  | some p => do
    let n ← deref h (some p)
    let h1 ← modifyIf h n.prev (fun m => { m with next := n.next })
    let n1 ← deref h1 (some p)
    let h2 ← modifyIf h1 n1.next (fun m => { m with prev := n1.prev })
    let h3 ← free1 h2 (some p)
    .ok (n.prev, h3)

/-- `int_dll::append(int_dll *list)`.  The returned pair is the return value and the heap; a null
argument prints a message and returns null.  Models int_dll.cpp:50-80. -/
def append (h : Heap) (list : Option Nat) : Res (Option Nat × Heap) :=
  match list with
  | none => .ok (none, h)
  | some l => do
    let tmp := (← deref h (some l)).next
    let (q, h1) := alloc h
    let h2 ← modify h1 (some l) (fun m => { m with next := some q })
    let h3 ← modify h2 (some q) (fun m => { m with prev := some l })
    let h4 ← modify h3 (some q) (fun m => { m with next := tmp })
    let h5 ← modifyIf h4 tmp (fun m => { m with prev := some q })
    let h6 ← modify h5 (some q) (fun m => { m with index := -1 })
    .ok (some q, h6)

/-- The loop of `int_dll::free`.  The first argument bounds the iterations; running out of it means
the list is cyclic.  Models int_dll.cpp:92-97. -/
def freeLoop : Nat → Heap → Option Nat → Res Heap
  | _, h, none => .ok h
  | 0, _, some _ => .error .diverges
  | k+1, h, some p => do
    let n ← deref h (some p)
    let h' ← free1 h (some p)
    freeLoop k h' n.next

/-- `int_dll::free(int_dll **head)`; the caller's pointer becomes null.  Models int_dll.cpp:86-99. -/
def free (h : Heap) (head : Option Nat) : Res Heap := freeLoop (h.fresh + 1) h head

/-- `while (list != nullptr) { body(list->index); list = list->next; }` for a body that does not
touch the list.  The first argument bounds the iterations. -/
def each {β : Type} (h : Heap) (body : β → Int → Res β) : Nat → Option Nat → β → Res β
  | _, none, b => .ok b
  | 0, some _, _ => .error .diverges
  | k+1, some p, b => do
    let n ← deref h (some p)
    let b' ← body b n.index
    each h body k n.next b'

end MLTK.Dll
