import Verif.Model.Balanced
import Verif.Model.DoubleIma
/-!
# `BalancedPerceptron` in `double` arithmetic

The trainer of `Model/Balanced` with every operation carried out as in `Model/Double`.  The random start weights, the order of
the samples and the outcomes of the time tests are parameters, as there.
-/
namespace MLTK.Fp
open MLTK.Perc (Sample)
open MLTK.Bal (BState)

/-- `dot(p, p1)` with its assert.  Models Point.hpp:526-537. -/
def balDot (w x : List Dbl) : Res Dbl :=
  if w.length = x.length then .ok ((w.zip x).foldl (fun r p => r.add (p.1.mul p.2)) (.fin 0)) else .error .assertFail

/-- `(dot(weights, point) + bias >= 0) ? 1 : -1`.  Models Perceptron.hpp:108. -/
def balPred (f : Dbl) : Dbl := if (Dbl.fin 0).le f then .fin 1 else .fin (-1)

/-- The update on a mistake: `weights += rate * point * y`, `bias += rate * bias`.  Models Perceptron.hpp:111-113. -/
def balUpdate (rate : Dbl) (p : Sample Dbl) (s : BState Dbl) : Res (BState Dbl) :=
  if s.w.length = p.x.length then
    .ok ⟨List.zipWith (fun a x => a.add ((rate.mul x).mul p.y)) s.w p.x, s.bias.add (rate.mul s.bias), s.ite + 1⟩
  else .error .assertFail

/-- The `for` over the samples of one epoch with `e` errors so far; the last component is `stop`.
Models Perceptron.hpp:106-122. -/
def balScan (rate : Dbl) (maxUp : Nat) : List (Sample Dbl) → BState Dbl → Nat → Res (BState Dbl × Nat × Bool)
  | [], s, e => .ok (s, e, false)
  | p :: rest, s, e => do
    let d ← balDot s.w p.x
    if p.y.eq (balPred (d.add s.bias)) = false then
      let s' ← balUpdate rate p s
      if s'.ite > maxUp then .ok (s', e + 1, true) else balScan rate maxUp rest s' (e + 1)
    else if s.ite > maxUp then .ok (s, e, true) else balScan rate maxUp rest s e

/-- `while (epoch < MAX_EPOCH)` with `n = MAX_EPOCH - epoch`; returns the state and the errors of the last epoch
(`errors` before the first).  Models Perceptron.hpp:104-125. -/
def balLoop (rate : Dbl) (maxUp : Nat) (late : Nat → Bool) (samples : List (Sample Dbl)) :
    Nat → Nat → BState Dbl → Nat → Res (BState Dbl × Nat)
  | 0, _, s, e => .ok (s, e)
  | n+1, epoch, s, _ => do
    let r ← balScan rate maxUp samples s 0
    if r.2.2 = true ∨ late (epoch + 1) = true ∨ r.2.1 = 0 then .ok (r.1, r.2.1)
    else balLoop rate maxUp late samples n (epoch + 1) r.1 r.2.1

/-- The least values of `y * f` over the two classes.  Models Perceptron.hpp:127-133. -/
def balGammas (w : List Dbl) (bias : Dbl) : List (Sample Dbl) → Dbl × Dbl → Res (Dbl × Dbl)
  | [], g => .ok g
  | p :: rest, g => do
    let d ← balDot w p.x
    let func := p.y.mul (d.add bias)
    let g1 := if p.y.eq (.fin 1) ∧ func.lt g.1 then func else g.1
    let g2 := if p.y.eq (.fin (-1)) ∧ func.lt g.2 then func else g.2
    balGammas w bias rest (g1, g2)

/-- The shift of the bias to the middle.  Models Perceptron.hpp:134-140. -/
def balShift (bias : Dbl) (g : Dbl × Dbl) : Dbl :=
  let rmargin := if g.2.abs.lt g.1.abs then g.2.abs else g.1.abs
  let mmargin := (g.1.abs.add g.2.abs).div (.fin 2)
  if g.1.abs.lt g.2.abs then bias.add (mmargin.sub rmargin).abs else bias.sub (mmargin.sub rmargin).abs

/-- `BalancedPerceptron::train` from the random weights `w0`: the answer, the weights and the bias.
Models Perceptron.hpp:93-145. -/
def balTrain (rate : Dbl) (maxEpoch maxUp : Nat) (late : Nat → Bool) (samples : List (Sample Dbl)) (w0 : List Dbl) :
    Res (Bool × List Dbl × Dbl) := do
  let r ← balLoop rate maxUp late samples maxEpoch 0 ⟨w0, .fin 0, 0⟩ 0
  let g ← balGammas r.1.w r.1.bias samples (.fin dblMax, .fin dblMax)
  pure (r.2 = 0, r.1.w, balShift r.1.bias g)

/-- `BalancedPerceptron::evaluate`.  Models Perceptron.hpp:147-153. -/
def balEvaluate (w : List Dbl) (bias : Dbl) (x : List Dbl) (raw : Bool) : Res Dbl := do
  let d ← balDot w x
  pure (if raw then d.add bias else balPred (d.add bias))

end MLTK.Fp
