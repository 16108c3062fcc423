import Mathlib.Data.Multiset.MapFold
import Mathlib.Order.Interval.Finset.Nat
import Verif.Model.Aos
/-!
# What a priority queue and a set of visited states are
-/
namespace MLTK.Spec
open MLTK.Aos (Node Nodes Heap)

/-- An observable event of a queue of pointers. -/
inductive QEvent where
  | inserted (p : Nat)
  | popped (p : Option Nat)
  deriving DecidableEq, Repr

/-- A history of a priority queue: `pending` is what is in the queue before the events and `final` what is
in it afterwards; a pop returns an element of maximal value, or nothing when the queue is empty. -/
inductive QHistory {K : Type} [LE K] (value : Nat → K) : Multiset Nat → List QEvent → Multiset Nat → Prop where
  | done (pending : Multiset Nat) : QHistory value pending [] pending
  | insert (p : Nat) (pending final : Multiset Nat) (es : List QEvent) :
      QHistory value (p ::ₘ pending) es final → QHistory value pending (.inserted p :: es) final
  | pop (p : Nat) (pending final : Multiset Nat) (es : List QEvent) :
      (∀ q ∈ p ::ₘ pending, value q ≤ value p) →
      QHistory value pending es final → QHistory value (p ::ₘ pending) (.popped (some p) :: es) final
  | popEmpty (final : Multiset Nat) (es : List QEvent) :
      QHistory value 0 es final → QHistory value 0 (.popped none :: es) final

/-- A call on the queue. -/
inductive QOp where
  | insert (p : Nat)
  | pop
  deriving DecidableEq, Repr

/-- The call an event is the outcome of. -/
def QEvent.op : QEvent → QOp
  | .inserted p => .insert p
  | .popped _ => .pop

/-- The calls never insert into a queue of `cap` elements (`n` is the number of elements before). -/
def BelowCapacity (cap : Nat) : Nat → List QOp → Prop
  | _, [] => True
  | n, .insert _ :: ops => n < cap ∧ BelowCapacity cap (n + 1) ops
  | n, .pop :: ops => BelowCapacity cap (n - 1) ops

/-- Run a sequence of calls and record what is observed. -/
def runQueue {K : Type} [Field K] [LinearOrder K] (cap : Nat) (m : Nodes K) : Heap → List QOp → Res (Heap × List QEvent)
  | h, [] => .ok (h, [])
  | h, .insert p :: ops =>
    match MLTK.Aos.insert cap m h p with
    | .error e => .error e
    | .ok (h', _) =>
      match runQueue cap m h' ops with
      | .error e => .error e
      | .ok (h'', es) => .ok (h'', .inserted p :: es)
  | h, .pop :: ops =>
    match MLTK.Aos.pop m h with
    | .error e => .error e
    | .ok (h', q) =>
      match runQueue cap m h' ops with
      | .error e => .error e
      | .ok (h'', es) => .ok (h'', .popped q :: es)

/-- Add states one after the other and record which are reported as new. -/
def addStates {K : Type} [Field K] [LinearOrder K] : Nodes K → MLTK.Aos.Hash → List Nat → Res (Nodes K × MLTK.Aos.Hash × List Bool)
  | m, h, [] => .ok (m, h, [])
  | m, h, p :: ps =>
    match MLTK.Aos.add m h p with
    | .error e => .error e
    | .ok (m', h', b) =>
      match addStates m' h' ps with
      | .error e => .error e
      | .ok (m'', h'', bs) => .ok (m'', h'', b :: bs)

/-- What the queue holds: the pointers at positions 1 to `size`. -/
def queueContents (h : Heap) : Multiset (Option Nat) := (Finset.Icc 1 h.size).val.map h.elements

/-- The value of the node a pointer points to (zero for a deleted one). -/
def nodeValue {K : Type} [Zero K] (m : Nodes K) (p : Nat) : K :=
  match m[p]? with
  | some (some nd) => nd.value
  | _ => 0

/-- A pointer to a node that has not been deleted. -/
def LiveNode {K : Type} (m : Nodes K) (p : Nat) : Prop := ∃ nd, m[p]? = some (some nd)

/-- The queue holds pointers to nodes that have not been deleted, each once. -/
def LiveQueue {K : Type} (m : Nodes K) (h : Heap) : Prop :=
  (∀ q ∈ queueContents h, ∃ p, q = some p ∧ LiveNode m p) ∧ (queueContents h).Nodup

/-- A queue that calls below capacity can produce from the empty one. -/
def ReachedQueue {K : Type} [Field K] [LinearOrder K] (cap : Nat) (m : Nodes K) (h : Heap) : Prop :=
  ∃ ops es, BelowCapacity cap 0 ops ∧ (∀ p, QOp.insert p ∈ ops → LiveNode m p) ∧
    runQueue cap m Heap.new ops = .ok (h, es)

/-- From now on the queue behaves as a priority queue: for all calls below capacity. -/
def PriorityQueue {K : Type} [Field K] [LinearOrder K] (cap : Nat) (m : Nodes K) (h : Heap) : Prop :=
  ∃ pending : Multiset Nat, queueContents h = pending.map some ∧
    ∀ ops, BelowCapacity cap h.size ops → (∀ p, QOp.insert p ∈ ops → LiveNode m p) →
      ∃ h' es final, runQueue cap m h ops = .ok (h', es) ∧ es.map QEvent.op = ops ∧
        QHistory (nodeValue m) pending es final ∧ queueContents h' = final.map some

/-- Two states are the same: same level and the same removed features. -/
def sameState {K : Type} (a b : Node K) : Prop := a.level = b.level ∧ ∀ f, f ∈ a.fnames ↔ f ∈ b.fnames

/-- A node as the search makes it: as many features as levels, each once, in decreasing order. -/
def WellFormed {K : Type} (nd : Node K) : Prop := nd.fnames.length = nd.level ∧ nd.fnames.Pairwise (· > ·)

end MLTK.Spec
