import Verif.Model.Basic
/-!
# Model of `synced_stream`

Source: ufjfmltk-core/include/ufjfmltk/core/ThreadPool.hpp 438-491.

The threads run side by side; one step of one of them is taking the mutex, sending one item to the stream, or releasing
the mutex.  An item goes to the stream at once (`operator<<` of one item is one step) and does not throw.
-/
namespace MLTK.SyncS
variable {α : Type}

/-- A call on the `synced_stream` object numbered `obj`.  All objects share one output stream. -/
inductive Call (α : Type) where
  | print (obj : Nat) (items : List α)
  | println (obj : Nat) (items : List α)
  deriving DecidableEq, Repr

/-- The object a call is made on. -/
def Call.obj : Call α → Nat
  | .print o _ => o
  | .println o _ => o

/-- The items `print` is called with: `println(items...)` is `print(items..., '\n')`.
Models ThreadPool.hpp 462-479. -/
def Call.args (nl : α) : Call α → List α
  | .print _ is => is
  | .println _ is => is ++ [nl]

/-- A thread: the calls still to be made, and, inside a call, its object and the items not yet sent. -/
structure Thread (α : Type) where
  todo : List (Call α)
  inside : Option (Nat × List α)
  deriving DecidableEq, Repr

/-- The output stream, the owner of the mutex of each object and the threads.  Models ThreadPool.hpp 481-490. -/
structure St (α : Type) where
  out : List α
  owner : Nat → Option Nat
  threads : List (Thread α)

/-- Steps of thread `t`. -/
inductive Event where
  | lock (t : Nat)
  | write (t : Nat)
  | unlock (t : Nat)
  deriving DecidableEq, Repr

/-- The program before its first step. -/
def start (progs : List (List (Call α))) : St α := ⟨[], fun _ => none, progs.map (fun p => ⟨p, none⟩)⟩

/-- One step; `none` when it is not possible.  `scoped_lock` waits for the mutex of the object (465); the fold expression
sends the items from left to right (466); the mutex is released at the end of the block (467).
Models ThreadPool.hpp 462-467. -/
def step (nl : α) (s : St α) : Event → Option (St α)
  | .lock t =>
    match s.threads[t]? with
    | some ⟨c :: cs, none⟩ =>
      if s.owner c.obj = none then
        some { s with owner := fun o => if o = c.obj then some t else s.owner o,
                      threads := s.threads.set t ⟨cs, some (c.obj, c.args nl)⟩ }
      else none
    | _ => none
  | .write t =>
    match s.threads[t]? with
    | some ⟨cs, some (o, a :: as)⟩ => some { s with out := s.out ++ [a], threads := s.threads.set t ⟨cs, some (o, as)⟩ }
    | _ => none
  | .unlock t =>
    match s.threads[t]? with
    | some ⟨cs, some (o, [])⟩ =>
      some { s with owner := fun p => if p = o then none else s.owner p, threads := s.threads.set t ⟨cs, none⟩ }
    | _ => none

/-- Execute a list of steps. -/
def exec (nl : α) (s : St α) : List Event → Option (St α)
  | [] => some s
  | e :: es => (step nl s e).bind (fun s' => exec nl s' es)

end MLTK.SyncS
