import Verif.Model.DoublePerc
/-!
# `PerceptronDual` and the kernel functions in `double` arithmetic

The trainer of `Model/Perceptron` and the kernels of `Model/Kernel` with every operation carried out as in `Model/Double`.
`std::sqrt`, `std::pow` and `std::exp` are parameters.  The features are `double`s (`T = double`).  Not modelled here:
`solution.w`, which `evaluate` does not read (see `dualWeights`).  Other simplifications as in `Model/Perceptron`.
-/
namespace MLTK.Fp
open MLTK.Perc (Sample DState Cfg epochs)

/-- `sum += a[i] * b[i]` for `i < dim`.  Models Kernel.hpp:230-231, 234-235. -/
def dot (dim : Nat) (a b : List Dbl) : Dbl :=
  (List.range dim).foldl (fun s i => s.add ((a.getD i (.fin 0)).mul (b.getD i (.fin 0)))) (.fin 0)

/-- `t = a[i] - b[i]; sum += t * t` for `i < dim`.  Models Kernel.hpp:241-242. -/
def sqDist (dim : Nat) (a b : List Dbl) : Dbl :=
  (List.range dim).foldl (fun s i =>
    let t := (a.getD i (.fin 0)).sub (b.getD i (.fin 0))
    s.add (t.mul t)) (.fin 0)

/-- The kernel types with a formula in the library.  Models Kernel.hpp:16. -/
inductive KType where
  | innerProduct | polynomial | gaussian
  deriving DecidableEq

/-- `function(one, two, dim)`; both points have at least `dim` features.  Models Kernel.hpp:218-256. -/
def kernel (pow : Dbl → Dbl → Dbl) (exp : Dbl → Dbl) (type : KType) (param : Dbl) (dim : Nat) (one two : List Dbl) : Dbl :=
  match type with
  | .innerProduct => dot dim one two
  | .polynomial => if (Dbl.fin 1).lt param then pow (dot dim one two) param else dot dim one two
  | .gaussian => exp (((Dbl.fin (-1)).mul (sqDist dim one two)).mul param)

/-- The kernel matrix: `K[i][j] = function(i, j)` for `j ≥ i`, and `K[j][i] = K[i][j]`.  Models Kernel.hpp:168-173. -/
def matrix (k : List Dbl → List Dbl → Dbl) (samples : List (Sample Dbl)) (i j : Nat) : Dbl :=
  if i ≤ j then k (samples.getD i ⟨[], .fin 0⟩).x (samples.getD j ⟨[], .fin 0⟩).x
  else k (samples.getD j ⟨[], .fin 0⟩).x (samples.getD i ⟨[], .fin 0⟩).x

/-- `for (f = bias, r = 0; r < size; ++r) f += alpha[r] * Y(r) * K[idx][r];`, from left to right.
Models Perceptron.hpp:431-432, DualClassifier.hpp:38-41. -/
def dualDecision (size : Nat) (alpha : List Dbl) (samples : List (Sample Dbl)) (k : Nat → Dbl) (b : Dbl) : Dbl :=
  (List.range size).foldl
    (fun f r => f.add (((alpha.getD r (.fin 0)).mul (samples.getD r ⟨[], .fin 0⟩).y).mul (k r))) b

/-- The update on a mistake at sample `i`, `f` being its function value.  Models Perceptron.hpp:406-407, 437-440. -/
def dualUpdate (sqrt : Dbl → Dbl) (rate : Dbl) (kv : Nat → Nat → Dbl) (p : Sample Dbl) (i : Nat) (f : Dbl)
    (s : DState Dbl) : DState Dbl :=
  { s with
    norm := sqrt (((s.norm.mul s.norm).add ((((Dbl.fin 2).mul rate).mul p.y).mul (f.sub s.bias))).add
      ((rate.mul rate).mul (kv i i)))
    alpha := s.alpha.set i ((s.alpha.getD i (.fin 0)).add rate)
    bias := s.bias.add (rate.mul p.y)
    ctot := s.ctot + 1 }

/-- The inner `for` over the remaining positions.  Models Perceptron.hpp:426-442. -/
def dualScan (sqrt : Dbl → Dbl) (rate : Dbl) (kv : Nat → Nat → Dbl) (samples : List (Sample Dbl)) :
    List Nat → DState Dbl → Nat → DState Dbl × Nat
  | [], s, e => (s, e)
  | i :: rest, s, e =>
    let p := samples.getD i ⟨[], .fin 0⟩
    let f := dualDecision samples.length s.alpha samples (kv i) s.bias
    if (p.y.mul f).le (.fin 0) then dualScan sqrt rate kv samples rest (dualUpdate sqrt rate kv p i f s) (e + 1)
    else if s.steps > 0 ∧ e > 1 then (s, e)
    else dualScan sqrt rate kv samples rest s e

/-- One pass and `++steps`.  Models Perceptron.hpp:426-444. -/
def dualPass (sqrt : Dbl → Dbl) (rate : Dbl) (kv : Nat → Nat → Dbl) (samples : List (Sample Dbl)) (s : DState Dbl) :
    DState Dbl × Nat :=
  let r := dualScan sqrt rate kv samples (List.range samples.length) s 0
  ({ r.1 with steps := r.1.steps + 1 }, r.2)

/-- `PerceptronDual::train` from the state `s0`, with the kernel function `k` on points of `dim` features.  Models
Perceptron.hpp:401-453, 463. -/
def dualTrain (sqrt : Dbl → Dbl) (cfg : Cfg Dbl) (clock : Nat → Bool) (k : List Dbl → List Dbl → Dbl) (dim : Nat)
    (samples : List (Sample Dbl)) (s0 : DState Dbl) : Res (Bool × DState Dbl) :=
  let alpha := if s0.alpha = [] then List.replicate samples.length (.fin 0) else s0.alpha
  let s : DState Dbl := { s0 with alpha := alpha }
  if alpha.length < samples.length ∨ ¬ (∀ p ∈ samples, dim ≤ p.x.length) then .error .outOfBounds
  else
    let r := epochs (dualPass sqrt cfg.rate (matrix k samples) samples)
      (fun s => s.steps > cfg.maxIt ∨ s.ctot > cfg.maxUp) clock (cfg.maxIt + 1 - s.steps) 0 s 1
    .ok (r.2 = 0, r.1)

/-- `DualClassifier::evaluate`; 0 when the dimensions differ.  Models DualClassifier.hpp:28-44. -/
def dualEvaluate (k : List Dbl → List Dbl → Dbl) (dim : Nat) (alpha : List Dbl) (samples : List (Sample Dbl)) (bias : Dbl)
    (x : List Dbl) : Res Int :=
  if x.length ≠ dim then .ok 0
  else if alpha.length < samples.length then .error .outOfBounds
  else .ok (if (Dbl.fin 0).le (dualDecision samples.length alpha samples
    (fun r => k x (samples.getD r ⟨[], .fin 0⟩).x) bias) then 1 else -1)

end MLTK.Fp
