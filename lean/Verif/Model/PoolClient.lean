import Verif.Model.ThreadPool
/-!
# Model of the futures, of `reset` and of the destructor of `mltk::ThreadPool`

Source: ufjfmltk-core/include/ufjfmltk/core/ThreadPool.hpp.

Simplifications: those of `Model/ThreadPool.lean`; the value of a task does not depend on the schedule; one thread at a
time calls `reset` or the destructor, and while it does no other thread uses the pool's public members (so reading
`paused` into `was_paused` and setting it are one event).
-/
namespace MLTK.Pool

/-- How the body of a task ends. -/
inductive Outcome (V : Type) where
  | returned (v : V)
  | threw (e : Nat)
  deriving DecidableEq, Repr

/-- How a task was given to the pool. -/
inductive Kind where
  /-- `push_task`: ThreadPool.hpp 173-198 -/
  | raw
  /-- `submit`: ThreadPool.hpp 228-286 -/
  | future
  deriving DecidableEq, Repr

/-- The pool, the shared states of the promises made by `submit` (`none`: not ready) and whether the process has been
ended by `std::terminate`. -/
structure FPool (V : Type) where
  pool : Pool
  ready : Task → Option (Outcome V)
  terminated : Bool

/-- `set_value`/`set_exception` of the promise of `t`: on a promise already satisfied it throws `std::future_error`,
which the inner handler swallows.  Models ThreadPool.hpp 233-249, 269-284. -/
def FPool.satisfy {V : Type} (ready : Task → Option (Outcome V)) (t : Task) (o : Outcome V) : Task → Option (Outcome V) :=
  fun u => if u = t ∧ ready t = none then some o else ready u

/-- What the end of a task does to the promises.  Models ThreadPool.hpp 229-286. -/
def settle {V : Type} (kind : Task → Kind) (body : Task → Outcome V) (ready : Task → Option (Outcome V)) :
    Event → Task → Option (Outcome V)
  | .finish _ t => if kind t = .future then FPool.satisfy ready t (body t) else ready
  | _ => ready

/-- An exception that leaves a raw task leaves the thread function and ends the process (C++ standard).
Models ThreadPool.hpp 390-391. -/
def escapes {V : Type} (kind : Task → Kind) (body : Task → Outcome V) : Event → Bool
  | .finish _ t => match kind t, body t with
    | .raw, .threw _ => true
    | _, _ => false
  | _ => false

/-- The effect of one event on the pool with its futures; nothing happens once the process has ended. -/
def fstep {V : Type} (kind : Task → Kind) (body : Task → Outcome V) (s : FPool V) (e : Event) : Option (FPool V) :=
  if s.terminated then none
  else (step s.pool e).map (fun p =>
    { pool := p, ready := settle kind body s.ready e, terminated := escapes kind body e })

/-- Execute a list of events. -/
def fexec {V : Type} (kind : Task → Kind) (body : Task → Outcome V) (s : FPool V) : List Event → Option (FPool V)
  | [] => some s
  | e :: es => (fstep kind body s e).bind (fun s' => fexec kind body s' es)

/-- A fresh pool without futures.  Models ThreadPool.hpp 53-57. -/
def ffresh (V : Type) (n : Nat) : FPool V := { pool := fresh n, ready := fun _ => none, terminated := false }

/-- `_thread_count ? _thread_count : std::thread::hardware_concurrency()`.  Models ThreadPool.hpp 54, 211. -/
def threadCount (hardware arg : Nat) : Nat := if arg ≠ 0 then arg else hardware

/-- What `reset(arg)` does, step by step, for a pool whose `paused` is `was`; `waits` are the iterations of
`wait_for_tasks` that do not return; `respawn` happens when all threads have been joined.
Models ThreadPool.hpp 204-216. -/
def resetCalls (hardware arg : Nat) (was : Bool) (waits : List Event) : List Event :=
  [.setPaused true, .waitCall] ++ waits ++ [.waitPausedReturn, .stop, .setPaused was, .respawn (threadCount hardware arg)]

/-- What the destructor does, `ret` being the event with which `wait_for_tasks` returns; it then joins all threads.
Models ThreadPool.hpp 62-67. -/
def destroyCalls (waits : List Event) (ret : Event) : List Event := [.waitCall] ++ waits ++ [ret, .stop]

/-- `destroy_threads` has returned: every thread function has.  Models ThreadPool.hpp 342-348. -/
def joined (s : Pool) : Bool := s.workers.all (· = .exited)

end MLTK.Pool
