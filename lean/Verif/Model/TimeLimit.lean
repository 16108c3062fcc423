import Verif.Model.IMA
import Verif.Model.Balanced
import Verif.Model.Regressor
import Verif.Model.Clustering
/-!
# Time limits

The trainers take the outcome of their time tests as a parameter.  Here these outcomes are computed from the
readings of the timer: `el k` is what `timer.elapsed()` returns at the `k`-th test of a run (whole milliseconds
since `timer.reset()`, converted to `double`, Timer.hpp:31-39), `start` and `limit` are the learner's `start_time`
and `max_time`.  Simplifications: `double` is an ordered field; sums of times do not overflow.
-/
namespace MLTK.TimeL

section
variable {K : Type} [Field K] [LinearOrder K]

/-- `while (timer.elapsed() - time <= 0)` with `time = start_time + max_time`.
Models Perceptron.hpp:183, 194, 249, 261, 404, 424-425, 482, 499. -/
def percClock (start limit : K) (el : Nat → K) (k : Nat) : Bool := el k - (start + limit) ≤ 0

/-- `while (time - timer.elapsed() > 0)`.  Models IMA.hpp:389-390, 403. -/
def imaClock (start limit : K) (el : Nat → K) (k : Nat) : Bool := limit + start - el k > 0

/-- `if (time - timer.elapsed() <= 0) break;` where `time` is a `size_t`.
Models LMS.hpp:42, 79; KMeans.hpp:95, 161. -/
def wholeLate (limit : Nat) (el : Nat → K) (k : Nat) : Bool := (limit : K) - el k ≤ 0

/-- `timer.elapsed() > max_time` after the `k`-th epoch.  Models Perceptron.hpp:124. -/
def balLate (limit : K) (el : Nat → K) (k : Nat) : Bool := el k > limit

/-- `stime` after `it` rounds: `stime = timer.elapsed()` before the first, `stime += timer.elapsed()` in each;
the timer is not reset in between.  Models IMA.hpp:225-230. -/
def stime (el : Nat → K) : Nat → K
  | 0 => el 0
  | n+1 => stime el n + el (n + 1)

/-- `stime >= max_time`.  Models IMA.hpp:306. -/
def imaLate (limit : K) (el : Nat → K) (it : Nat) : Bool := stime el it ≥ limit

end
end MLTK.TimeL
