import Verif.Model.Basic
/-!
# `mltk::ThreadPool` as a labelled transition system

Every atomic access of `ThreadPool.hpp` to a shared variable (`paused`, `running`, `tasks_total`,
the mutex-protected queue) is one event.  An execution is a list of events; the list is the
interleaving, so quantifying over all event lists quantifies over all schedules of any number of
submitters, workers and one waiting thread.

Simplifications: atomics are sequentially consistent (the C++ source uses the default memory order);
`tasks_total` is a natural number that does not wrap; a task is an opaque identifier and its body is
a single `finish` event (it terminates whenever that event happens); an exception escaping a raw
`push_task` task, which would end the process, is not modelled.
-/
namespace MLTK.Pool

/-- A submitted task, by identity. -/
abbrev Task := Nat

/-- Program counter of a worker thread.  Models `ThreadPool::worker`, ThreadPool.hpp:384-399. -/
inductive WState where
  /-- about to evaluate `while (running)` -/
  | top
  /-- inside the loop, about to read `paused` -/
  | entered
  /-- read `paused == false`, about to call `pop_task` -/
  | ready
  /-- popped `t`, executing `task()` -/
  | exec (t : Task)
  /-- `task()` returned, about to execute `tasks_total--` -/
  | done
  /-- left the loop -/
  | exited
  deriving DecidableEq, Repr

/-- Program counter of the thread calling `wait_for_tasks`.  Models ThreadPool.hpp:291-307 together
with the two separate reads of `get_tasks_running`, ThreadPool.hpp:89-92, in either order. -/
inductive Waiter where
  /-- not inside `wait_for_tasks` -/
  | idle
  /-- about to read `paused` -/
  | top
  /-- read `paused == false`, about to read `tasks_total` -/
  | sawOpen
  /-- read `paused == true`, about to evaluate `get_tasks_running()` -/
  | sawPaused
  /-- `get_tasks_running`: has read `tasks_total` -/
  | readTotal (v : Nat)
  /-- `get_tasks_running`: has read the queue length -/
  | readQueued (v : Nat)
  deriving DecidableEq, Repr

/-- Shared state and program counters.  Models the data members of `ThreadPool`,
ThreadPool.hpp:316, 405-433; `submitting` holds the tasks whose `push_task` has executed
`tasks_total++` but not yet the push. -/
structure Pool where
  queue : List Task
  total : Nat
  paused : Bool
  running : Bool
  workers : List WState
  submitting : List Task
  waiter : Waiter
  deriving DecidableEq, Repr

/-- The atomic events. -/
inductive Event where
  /-- `tasks_total++` in `push_task(t)` -/
  | push (t : Task)
  /-- the locked `tasks.push(t)` in `push_task(t)` -/
  | enqueue (t : Task)
  /-- worker `i` reads `running` -/
  | check (i : Nat)
  /-- worker `i` reads `paused` -/
  | look (i : Nat)
  /-- worker `i` pops `t` and starts executing it -/
  | start (i : Nat) (t : Task)
  /-- worker `i` finds the queue empty -/
  | noTask (i : Nat)
  /-- the task `t` run by worker `i` returns -/
  | finish (i : Nat) (t : Task)
  /-- worker `i` executes `tasks_total--` -/
  | dec (i : Nat)
  /-- some client assigns the public member `paused` -/
  | setPaused (b : Bool)
  /-- `running = false` (destructor, `reset`) -/
  | stop
  /-- `reset`: all threads joined, `n` new threads created, `running = true` -/
  | respawn (n : Nat)
  /-- `wait_for_tasks` is called -/
  | waitCall
  /-- the waiter reads `paused` -/
  | waitLook
  /-- the waiter, unpaused branch, reads `tasks_total != 0` and goes round the loop -/
  | waitMore
  /-- the waiter, unpaused branch, reads `tasks_total == 0` and returns -/
  | waitOpenReturn
  /-- the waiter, paused branch, reads `tasks_total` first -/
  | waitReadTotal
  /-- the waiter, paused branch, reads the queue length first -/
  | waitReadQueued
  /-- the waiter, paused branch, makes the second read, finds a difference and goes round -/
  | waitPausedMore
  /-- the waiter, paused branch, makes the second read, finds `get_tasks_running() == 0`, returns -/
  | waitPausedReturn
  deriving DecidableEq, Repr

/-- Set the program counter of worker `i`.  Bookkeeping of the model. -/
def Pool.setW (s : Pool) (i : Nat) (w : WState) : Pool := { s with workers := s.workers.set i w }

/-- The effect of one event; `none` if the event cannot happen in this state.
Models `push_task` ThreadPool.hpp:173-181, `reset` 204-216, `wait_for_tasks` 291-307,
`get_tasks_running` 87-90, `destroy_threads` 341-347, `pop_task` 356-367, `worker` 384-399. -/
def step (s : Pool) : Event → Option Pool
  | .push t => some { s with total := s.total + 1, submitting := t :: s.submitting }
  | .enqueue t =>
    if t ∈ s.submitting then
      some { s with submitting := s.submitting.erase t, queue := s.queue ++ [t] }
    else none
  | .check i =>
    if s.workers[i]? = some .top then
      some (s.setW i (if s.running then .entered else .exited))
    else none
  | .look i =>
    if s.workers[i]? = some .entered then
      some (s.setW i (if s.paused then .top else .ready))
    else none
  | .start i t =>
    if s.workers[i]? = some .ready ∧ s.queue.head? = some t then
      some ({ s with queue := s.queue.tail }.setW i (.exec t))
    else none
  | .noTask i =>
    if s.workers[i]? = some .ready ∧ s.queue = [] then some (s.setW i .top) else none
  | .finish i t =>
    if s.workers[i]? = some (.exec t) then some (s.setW i .done) else none
  | .dec i =>
    if s.workers[i]? = some .done then some ({ s with total := s.total - 1 }.setW i .top) else none
  | .setPaused b => some { s with paused := b }
  | .stop => some { s with running := false }
  | .respawn n =>
    if s.running = false ∧ s.workers.all (· = .exited) then
      some { s with running := true, workers := List.replicate n .top }
    else none
  | .waitCall => if s.waiter = .idle then some { s with waiter := .top } else none
  | .waitLook =>
    if s.waiter = .top then
      some { s with waiter := if s.paused then .sawPaused else .sawOpen }
    else none
  | .waitMore =>
    if s.waiter = .sawOpen ∧ s.total ≠ 0 then some { s with waiter := .top } else none
  | .waitOpenReturn =>
    if s.waiter = .sawOpen ∧ s.total = 0 then some { s with waiter := .idle } else none
  | .waitReadTotal =>
    if s.waiter = .sawPaused then some { s with waiter := .readTotal s.total } else none
  | .waitReadQueued =>
    if s.waiter = .sawPaused then some { s with waiter := .readQueued s.queue.length } else none
  | .waitPausedMore =>
    match s.waiter with
    | .readTotal v => if v ≠ s.queue.length then some { s with waiter := .top } else none
    | .readQueued v => if s.total ≠ v then some { s with waiter := .top } else none
    | _ => none
  | .waitPausedReturn =>
    match s.waiter with
    | .readTotal v => if v = s.queue.length then some { s with waiter := .idle } else none
    | .readQueued v => if s.total = v then some { s with waiter := .idle } else none
    | _ => none

/-- Execute a list of events; `none` if some event is not possible when its turn comes. -/
def exec (s : Pool) : List Event → Option Pool
  | [] => some s
  | e :: es => (step s e).bind (fun s' => exec s' es)

/-- A freshly constructed pool with `n` threads.  Models the constructor, ThreadPool.hpp:53-57, the
default member initialisers at 318, 409, 414, 430 and `create_threads` 330-336. -/
def fresh (n : Nat) : Pool :=
  { queue := [], total := 0, paused := false, running := true,
    workers := List.replicate n .top, submitting := [], waiter := .idle }

/-- The blocks `[start, end)` that `parallelize_loop` submits, in submission order; division by
`num_blocks = 0` is undefined behaviour.  Models ThreadPool.hpp:125-165.  Simplification: indices are
mathematical integers (no overflow of the index type). -/
def blocks (first last : Int) (threadCount numBlocks : Nat) : Res (List (Int × Int)) :=
  if first = last then .ok []
  else
    let lo := if last < first then last else first
    let hi := (if last < first then first else last) - 1
    let nb := if numBlocks = 0 then threadCount else numBlocks
    let total := (hi - lo + 1).toNat
    if nb = 0 then .error .divByZero
    else
      let bs := total / nb
      let nb' := if bs = 0 then (if total > 1 then total else 1) else nb
      let bs' := if bs = 0 then 1 else bs
      .ok ((List.range nb').map (fun t =>
        (((t * bs' : Nat) : Int) + lo,
         if t = nb' - 1 then hi + 1 else (((t + 1) * bs' : Nat) : Int) + lo)))

end MLTK.Pool
