import Verif.Model.DoubleMetric
import Verif.Model.Perceptron
/-!
# `LMSPrimal` in `double` arithmetic

The trainer of `Model/Regressor` with every operation carried out as in `Model/Double`.  The wall clock is a parameter:
`late k` tells whether the time limit is found exceeded at the end of pass `k`.  Printing is not modelled.
-/
namespace MLTK.Fp
open MLTK.Perc (Sample)

/-- `for (func[j] = bias, k = 0; k < dim; k++) func[j] += input[k] * w[k];`  Models LMS.hpp:59-61. -/
def lmsValue (dim : Nat) (w x : List Dbl) (b : Dbl) : Dbl :=
  (List.range dim).foldl (fun f k => f.add ((x.getD k (.fin 0)).mul (w.getD k (.fin 0)))) b

/-- What `LMSPrimal::train` modifies: the local weights and `solution.bias`.  Models LMS.hpp:53-68. -/
structure LmsState where
  w : List Dbl
  bias : Dbl
  deriving DecidableEq

/-- The work done on one sample; the second component is the cost so far.  The products read `dim` features of the sample;
`w += rate * error * input` asserts that both points have the same size.  Models LMS.hpp:57-68, Point.hpp:388-395. -/
def lmsSample (dim : Nat) (rate : Dbl) (s : LmsState × Dbl) (p : Sample Dbl) : Res (LmsState × Dbl) :=
  if p.x.length < dim then .error .outOfBounds
  else if s.1.w.length ≠ p.x.length then .error .assertFail
  else
    let e := p.y.sub (lmsValue dim s.1.w p.x s.1.bias)
    .ok (⟨List.zipWith (fun a b => a.add ((rate.mul e).mul b)) s.1.w p.x, s.1.bias.add e⟩, s.2.add (e.mul e))

/-- One pass over the samples, with its cost.  Models LMS.hpp:55-70. -/
def lmsPass (dim : Nat) (rate : Dbl) (samples : List (Sample Dbl)) (s : LmsState) : Res (LmsState × Dbl) := do
  let r ← samples.foldlM (lmsSample dim rate) (s, .fin 0)
  pure (r.1, r.2.mul (.fin (1 / 2)))

/-- The loop with `n = MAX_IT - steps` passes left; returns the state, `steps` and the cost of the last pass.
Models LMS.hpp:55-80. -/
def lmsLoop (rate eps : Dbl) (late : Nat → Bool) (dim : Nat) (samples : List (Sample Dbl)) :
    Nat → Nat → LmsState → Dbl → Res (LmsState × Nat × Dbl)
  | 0, steps, s, prev => .ok (s, steps, prev)
  | n+1, steps, s, prev => do
    let r ← lmsPass dim rate samples s
    if ((r.2.sub prev).abs).le eps then .ok (r.1, steps, r.2)
    else if late steps then .ok (r.1, steps, r.2)
    else lmsLoop rate eps late dim samples n (steps + 1) r.1 r.2

/-- `LMSPrimal::train`: the returned value, the solution, `steps` and the cost of the last pass.  Models LMS.hpp:39-97. -/
def lmsTrain (rate eps : Dbl) (maxIt : Nat) (late : Nat → Bool) (dim : Nat) (samples : List (Sample Dbl)) (bias : Dbl) :
    Res (Bool × LmsState × Nat × Dbl) := do
  let q ← lmsLoop rate eps late dim samples maxIt 0 ⟨List.replicate dim (.fin 0), bias⟩ (.fin 0)
  pure (true, q)

/-- `PrimalRegressor::evaluate`; 0 for a point of another dimension.  Models PrimalRegressor.hpp:23-37. -/
def lmsEvaluate (s : LmsState) (x : List Dbl) : Dbl :=
  if x.length ≠ s.w.length then .fin 0
  else (List.range s.w.length).foldl (fun f i => f.add ((s.w.getD i (.fin 0)).mul (x.getD i (.fin 0)))) s.bias

end MLTK.Fp
