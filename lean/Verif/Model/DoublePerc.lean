import Verif.Model.Double
import Verif.Model.Perceptron
/-!
# `PerceptronPrimal` in `double` arithmetic

The trainer of `Model/Perceptron` with every operation carried out as in `Model/Double`.  `sqrt` is a parameter; it is used
for `solution.norm` only.  Other simplifications as in `Model/Perceptron`.
-/
namespace MLTK.Fp
open MLTK.Perc (Sample PState Cfg epochs)

/-- `for (f = bias, j = 0; j < dim; ++j) f += w[j] * x[j];`
Models Perceptron.hpp:202-203, PrimalClassifier.hpp:51-53. -/
def decision (dim : Nat) (w x : List Dbl) (b : Dbl) : Dbl :=
  (List.range dim).foldl (fun f j => f.add ((w.getD j (.fin 0)).mul (x.getD j (.fin 0)))) b

/-- The update on a mistake: `w[j] += rate * y * x[j]` from left to right.  Models Perceptron.hpp:207-213. -/
def primalUpdate (sqrt : Dbl → Dbl) (dim : Nat) (rate : Dbl) (p : Sample Dbl) (s : PState Dbl) : PState Dbl :=
  let w := s.w.mapIdx (fun j a => if j < dim then a.add ((rate.mul p.y).mul (p.x.getD j (.fin 0))) else a)
  { s with
    w := w
    norm := sqrt ((List.range dim).foldl (fun t j => t.add ((w.getD j (.fin 0)).mul (w.getD j (.fin 0)))) (.fin 0))
    bias := s.bias.add (rate.mul p.y)
    ctot := s.ctot + 1 }

/-- The inner `for`.  Models Perceptron.hpp:195-216. -/
def primalScan (sqrt : Dbl → Dbl) (dim : Nat) (rate : Dbl) (samples : List (Sample Dbl)) :
    List Nat → PState Dbl → Nat → PState Dbl × Nat
  | [], s, e => (s, e)
  | idx :: rest, s, e =>
    let p := samples.getD idx ⟨[], .fin 0⟩
    if (p.y.mul (decision dim s.w p.x s.bias)).le (.fin 0) then
      primalScan sqrt dim rate samples rest (primalUpdate sqrt dim rate p s) (e + 1)
    else if s.steps > 0 ∧ e > 1 then (s, e)
    else primalScan sqrt dim rate samples rest s e

/-- One pass and `steps++`.  Models Perceptron.hpp:195-217. -/
def primalPass (sqrt : Dbl → Dbl) (dim : Nat) (rate : Dbl) (samples : List (Sample Dbl)) (index : List Nat)
    (s : PState Dbl) : PState Dbl × Nat :=
  let r := primalScan sqrt dim rate samples (index.take samples.length) s 0
  ({ r.1 with steps := r.1.steps + 1 }, r.2)

/-- Every vector access of the trainer stays in range. -/
def inRange (dim : Nat) (samples : List (Sample Dbl)) (index : List Nat) (w : List Dbl) : Bool :=
  samples.length ≤ index.length ∧ (∀ i ∈ index.take samples.length, i < samples.length) ∧
  (∀ p ∈ samples, dim ≤ p.x.length) ∧ dim ≤ w.length

/-- `PerceptronPrimal::train`.  Models Perceptron.hpp:179-226. -/
def primalTrain (sqrt : Dbl → Dbl) (cfg : Cfg Dbl) (clock : Nat → Bool) (dim : Nat) (samples : List (Sample Dbl))
    (index : List Nat) (s0 : PState Dbl) : Res (Bool × PState Dbl) :=
  let w := if s0.w = [] then List.replicate dim (.fin 0) else s0.w
  let s : PState Dbl := { s0 with w := w, bias := .fin 0, norm := .fin 0 }
  if clock 0 ∧ inRange dim samples index w = false then .error .outOfBounds
  else
    let r := epochs (primalPass sqrt dim cfg.rate samples index)
      (fun s => s.steps > cfg.maxIt ∨ s.ctot > cfg.maxUp) clock (cfg.maxIt + 1 - s.steps) 0 s 0
    .ok (r.2 = 0, r.1)

/-- `PrimalClassifier::evaluate`; 0 when the dimensions differ.  Models PrimalClassifier.hpp:42-57. -/
def primalEvaluate (w x : List Dbl) (bias : Dbl) : Int :=
  if x.length ≠ w.length then 0
  else if (Dbl.fin 0).le (decision w.length w x bias) then 1 else -1

end MLTK.Fp
