import Mathlib.Algebra.Order.Field.Basic
import Mathlib.Algebra.Order.AbsoluteValue.Basic
import Verif.Model.Perceptron
import Verif.Model.Point
/-!
# `BalancedPerceptron`

Simplifications common to this file.  `double` is an ordered field `K`; `std::numeric_limits<double>::max()` is a
parameter `big`.  The random start weights are a parameter, and so is the order of the samples, which the code shuffles
once before training.  The wall clock is a parameter: `late k` tells whether the time limit is found exceeded after `k`
epochs.  Counters do not wrap.
-/
namespace MLTK.Bal
open MLTK.Perc (Sample)

section
variable {K : Type} [Field K] [LinearOrder K]

/-- Settings read by the trainer.  Models Learner.hpp:21-41. -/
structure BCfg (K : Type) where
  rate : K
  maxEpoch : Nat
  maxUp : Nat
  big : K

/-- `weights`, `bias` and `ite`.  Models Perceptron.hpp:82-83, 94. -/
structure BState (K : Type) where
  w : List K
  bias : K
  ite : Nat
  deriving DecidableEq, Repr

/-- `(dot(weights, point) + bias >= 0) ? 1 : -1`.  Models Perceptron.hpp:108. -/
def balPredict (f : K) : K := if 0 ≤ f then 1 else -1

/-- The update on a mistake: the bias is increased by `rate` times itself.  `weights += …` asserts equal sizes.
Models Perceptron.hpp:111-113. -/
def balUpdate (rate : K) (p : Sample K) (s : BState K) : Res (BState K) := do
  let w ← PointM.compound (fun a x => a + rate * x * p.y) s.w p.x
  pure ⟨w, s.bias + rate * s.bias, s.ite + 1⟩

/-- The `for` over the samples of one epoch with `e` errors so far; the last component is `stop`.
Models Perceptron.hpp:106-122. -/
def balScan (c : BCfg K) : List (Sample K) → BState K → Nat → Res (BState K × Nat × Bool)
  | [], s, e => .ok (s, e, false)
  | p :: rest, s, e => do
    let d ← PointM.dot s.w p.x
    if p.y ≠ balPredict (d + s.bias) then
      let s' ← balUpdate c.rate p s
      if s'.ite > c.maxUp then .ok (s', e + 1, true) else balScan c rest s' (e + 1)
    else if s.ite > c.maxUp then .ok (s, e, true) else balScan c rest s e

/-- `while (epoch < MAX_EPOCH)` with `n = MAX_EPOCH - epoch`; returns the state and the errors of the last epoch
(`errors` before the first).  Models Perceptron.hpp:104-125. -/
def balLoop (c : BCfg K) (late : Nat → Bool) (samples : List (Sample K)) :
    Nat → Nat → BState K → Nat → Res (BState K × Nat)
  | 0, _, s, e => .ok (s, e)
  | n+1, epoch, s, _ => do
    let r ← balScan c samples s 0
    if r.2.2 = true ∨ late (epoch + 1) = true ∨ r.2.1 = 0 then .ok (r.1, r.2.1)
    else balLoop c late samples n (epoch + 1) r.1 r.2.1

/-- The least values of `y * f` over the two classes.  Models Perceptron.hpp:127-133. -/
def balGammas (w : List K) (bias : K) : List (Sample K) → K × K → Res (K × K)
  | [], g => .ok g
  | p :: rest, g => do
    let d ← PointM.dot w p.x
    let func := p.y * (d + bias)
    let g1 := if p.y = 1 ∧ func < g.1 then func else g.1
    let g2 := if p.y = -1 ∧ func < g.2 then func else g.2
    balGammas w bias rest (g1, g2)

/-- The shift of the bias to the middle.  Models Perceptron.hpp:134-140. -/
def balShift (bias : K) (g : K × K) : K :=
  let rmargin := if |g.1| > |g.2| then |g.2| else |g.1|
  let mmargin := (|g.1| + |g.2|) / 2
  if |g.2| > |g.1| then bias + |mmargin - rmargin| else bias - |mmargin - rmargin|

/-- `BalancedPerceptron::train` from the random weights `w0`: the answer, the weights and the bias.
Models Perceptron.hpp:93-145. -/
def balTrain (c : BCfg K) (late : Nat → Bool) (samples : List (Sample K)) (w0 : List K) :
    Res (Bool × List K × K) := do
  let r ← balLoop c late samples c.maxEpoch 0 ⟨w0, 0, 0⟩ 0
  let g ← balGammas r.1.w r.1.bias samples (c.big, c.big)
  pure (r.2 = 0, r.1.w, balShift r.1.bias g)

/-- `BalancedPerceptron::evaluate`.  Models Perceptron.hpp:147-153. -/
def balEvaluate (w : List K) (bias : K) (x : List K) (raw : Bool) : Res K := do
  let d ← PointM.dot w x
  pure (if raw then d + bias else balPredict (d + bias))

end
end MLTK.Bal
