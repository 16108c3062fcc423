import Verif.Model.ThreadPool
/-!
# The progress numbers of `mltk::ThreadPool`

`get_tasks_running` makes two separate reads of shared state, and C++ does not fix which operand of
the subtraction is evaluated first.  Each read is therefore given the state of the pool in which it
happens.  `ui32` is `std::uint_fast32_t`, which has 64 bits on the supported platforms, so the
subtraction is made modulo 2^64.
-/
namespace MLTK.Pool

/-- The values a `ui32` has.  Models the typedef, ThreadPool.hpp:40-41 (64 bits: a parameter of the
platform). -/
def wordSize : Nat := 2 ^ 64

/-- Models `get_tasks_queued`, ThreadPool.hpp:78-82: the length of the queue, read under its mutex. -/
def getQueued (s : Pool) : Nat := s.queue.length

/-- Models `get_tasks_total`, ThreadPool.hpp:99-102. -/
def getTotal (s : Pool) : Nat := s.total

/-- Subtraction of two `ui32` values: unsigned, modulo `wordSize`. -/
def wordSub (a b : Nat) : Nat := (wordSize + a % wordSize - b % wordSize) % wordSize

/-- Models `get_tasks_running`, ThreadPool.hpp:89-92: `tasks_total` is read in state `atTotal`, the
queue in state `atQueue` (either may be the earlier one). -/
def getRunning (atTotal atQueue : Pool) : Nat := wordSub (getTotal atTotal) (getQueued atQueue)

end MLTK.Pool
