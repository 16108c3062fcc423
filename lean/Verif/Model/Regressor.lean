import Mathlib.Algebra.Order.Field.Basic
import Mathlib.Algebra.Order.AbsoluteValue.Basic
import Verif.Model.Perceptron
import Verif.Model.Point
/-!
# Linear regression by least mean squares, and the mean squared error

Simplifications common to this file.  `double` is an ordered field `K`, so nothing overflows to
infinity.  The wall clock is a parameter: `late k` tells whether the time limit is found exceeded at
the end of pass `k`.  Printing (`verbose`) is not modelled.
-/
namespace MLTK.Regr
open MLTK.Perc (Sample)

section
variable {K : Type} [Field K] [LinearOrder K]

/-- Settings read by `LMSPrimal::train`.  Models Learner.hpp:21-41. -/
structure LCfg (K : Type) where
  rate : K
  eps : K
  maxIt : Nat

/-- What `LMSPrimal::train` modifies: the local weights, `solution.bias`, `ctot`.
Models LMS.hpp:39-97. -/
structure LState (K : Type) where
  w : List K
  bias : K
  ctot : Nat
  deriving DecidableEq, Repr

/-- `for (func[j] = bias, k = 0; k < dim; k++) func[j] += input[k] * w[k];`
Models LMS.hpp:59-61. -/
def lmsValue (dim : Nat) (w x : List K) (b : K) : K :=
  (List.range dim).foldl (fun f k => f + x.getD k 0 * w.getD k 0) b

/-- The work done on one sample; the second component is the cost so far.  The products read `dim`
features of the sample; `w += …` asserts that both points have the same size.
Models LMS.hpp:57-68 and Point.hpp:388-395. -/
def lmsSample (dim : Nat) (rate : K) (s : LState K × K) (p : Sample K) : Res (LState K × K) :=
  if p.x.length < dim then .error .outOfBounds
  else
    let f := lmsValue dim s.1.w p.x s.1.bias
    let error := p.y - f
    do
      let w ← PointM.compound (fun a b => a + rate * error * b) s.1.w p.x
      pure (⟨w, s.1.bias + (p.y - f), s.1.ctot + 1⟩, s.2 + (p.y - f) * (p.y - f))

/-- One pass over the samples, with the cost of the pass.  Models LMS.hpp:55-70. -/
def lmsPass (dim : Nat) (rate : K) (samples : List (Sample K)) (s : LState K) : Res (LState K × K) := do
  let r ← samples.foldlM (lmsSample dim rate) (s, 0)
  pure (r.1, r.2 * (1 / 2))

/-- The `for (steps = 0; steps < MAX_IT; steps++)` loop with `n = MAX_IT - steps` passes left; `prev` is
`diffAnt`.  Returns the state, `steps` and the cost of the last pass.  Models LMS.hpp:55-80. -/
def lmsLoop (c : LCfg K) (late : Nat → Bool) (dim : Nat) (samples : List (Sample K)) :
    Nat → Nat → LState K → K → Res (LState K × Nat × K)
  | 0, steps, s, prev => .ok (s, steps, prev)
  | n+1, steps, s, prev => do
    let r ← lmsPass dim c.rate samples s
    if |r.2 - prev| ≤ c.eps then .ok (r.1, steps, r.2)
    else if late steps then .ok (r.1, steps, r.2)
    else lmsLoop c late dim samples n (steps + 1) r.1 r.2

/-- The regressor's `solution.w`, `solution.bias` and the counter `ctot`.
Models Regressor.hpp:17-19, Learner.hpp:21-41. -/
structure Regressor (K : Type) where
  w : List K
  bias : K
  ctot : Nat
  deriving DecidableEq, Repr

/-- The constructor: an initial solution is taken over, otherwise zeros.  Models LMS.hpp:24-36. -/
def lmsNew (dim : Nat) (initial : Option (List K × K)) : Regressor K :=
  match initial with
  | some s => ⟨s.1, s.2, 0⟩
  | none => ⟨List.replicate dim 0, 0, 0⟩

/-- `LMSPrimal::train`: the returned value, the trained object, `steps` and the cost of the last pass.
`solution.w` and the local `w` are set to zeros, the bias is kept.  Models LMS.hpp:39-97. -/
def lmsTrain (c : LCfg K) (late : Nat → Bool) (dim : Nat) (samples : List (Sample K)) (r : Regressor K) :
    Res (Bool × Regressor K × Nat × K) := do
  let q ← lmsLoop c late dim samples c.maxIt 0 ⟨List.replicate dim 0, r.bias, r.ctot⟩ 0
  pure (true, ⟨q.1.w, q.1.bias, q.1.ctot⟩, q.2)

/-- `PrimalRegressor::evaluate`; 0 for a point of another dimension.  Models PrimalRegressor.hpp:23-37. -/
def regrEvaluate (r : Regressor K) (x : List K) : K :=
  if x.length ≠ r.w.length then 0
  else (List.range r.w.length).foldl (fun f i => f + r.w.getD i 0 * x.getD i 0) r.bias

/-- `metrics::MSE`.  The power with exponent 2 is the square; `real.size()` is the number of components
and a quotient by 0 is not finite.  Models Metrics.hpp:11-14, Point.hpp:285-293, 642-648. -/
def mse (real predicted : List K) : Res K :=
  if real.length ≠ predicted.length then .error .assertFail
  else if real.length = 0 then .error .nonFinite
  else .ok (PointM.psum (fun d => d ^ 2) (List.zipWith (· - ·) real predicted) / (real.length : K))

end
end MLTK.Regr
