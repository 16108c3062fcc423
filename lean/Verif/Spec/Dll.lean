import Verif.Model.IntDll
/-!
# What a well-formed doubly linked list is
-/
namespace MLTK.Spec
open MLTK.Dll

/-- Following `next` from `cur` visits the nodes `l` (address, stored int) in order and ends in null;
every node points back to the one before it, the first one to `prev`. -/
def Linked (h : Heap) : Option Nat → Option Nat → List (Nat × Int) → Prop
  | _, cur, [] => cur = none
  | prev, cur, (p, i) :: l => cur = some p ∧ ∃ nx, h.cells p = some ⟨i, prev, nx⟩ ∧ Linked h (some p) nx l

/-- The free store hands out addresses not in use. -/
def HeapOk (h : Heap) : Prop := ∀ p, h.cells p ≠ none → p < h.fresh

/-- `head` points to a well-formed list whose nodes are `l`: no node occurs twice, the first has no
predecessor. -/
structure IsDll (h : Heap) (head : Option Nat) (l : List (Nat × Int)) : Prop where
  heapOk : HeapOk h
  linked : Linked h none head l
  nodup : (l.map Prod.fst).Nodup

end MLTK.Spec
