import Mathlib.Algebra.Order.Field.Basic
import Verif.Model.Basic
/-!
# Perceptron-type trainers

Simplifications common to this file.  `double` is an ordered field `K`; `sqrt` and `pow` are
parameters (`Libm`), to be instantiated with the real functions.  Labels are field elements, as
`Point::Y` is a `double`.  The wall clock is a parameter: `clock k` is the outcome of the `k`-th
evaluation of the `while` condition on the timer.  Step and update counters do not overflow `int`.
Vector reads are written `getD`; the entry points check first that every index used is in range and
answer `outOfBounds` otherwise.
-/
namespace MLTK.Perc

/-- `<cmath>` functions used by the trainers. -/
structure Libm (K : Type) where
  sqrt : K → K
  pow : K → K → K

/-- A labelled sample: `X()` and `Y()`. -/
structure Sample (K : Type) where
  x : List K
  y : K
  deriving DecidableEq, Repr

instance {K : Type} [Zero K] : Inhabited (Sample K) := ⟨⟨[], 0⟩⟩

/-- Learner settings used by the trainers.  Models Learner.hpp:21-41. -/
structure Cfg (K : Type) where
  rate : K
  maxIt : Nat
  maxUp : Nat
  deriving Repr

/-- The `while (timer …) { pass; steps++; if (e == 0) break; if (steps > MAX_IT) break;
if (ctot > MAX_UP) break; }` loop shared by the trainers (Perceptron.hpp:194-223, 261-349, 425-450,
499-535; IMA.hpp:403-495).  `pass` is one run of the inner `for` including `steps++`, returning the
error count `e`; `halt` is the disjunction of the later stop tests; `n` bounds the number of passes. -/
def epochs {σ : Type} (pass : σ → σ × Nat) (halt : σ → Bool) (clock : Nat → Bool) :
    Nat → Nat → σ → Nat → σ × Nat
  | n, k, s, e =>
    if clock k then
      let r := pass s
      if r.2 = 0 || halt r.1 then r
      else match n with
        | 0 => r
        | n+1 => epochs pass halt clock n (k+1) r.1 r.2
    else (s, e)

section
variable {K : Type} [Field K] [LinearOrder K]

/-- `for (f = bias, j = 0; j < dim; ++j) f += w[j] * x[j];`
Models Perceptron.hpp:202-203, 269-271, PrimalClassifier.hpp:51-53. -/
def decision (dim : Nat) (w x : List K) (b : K) : K :=
  (List.range dim).foldl (fun f j => f + w.getD j 0 * x.getD j 0) b

/-- `w[j] = g j w[j]` for `j < dim`. -/
def updTo (dim : Nat) (g : Nat → K → K) (w : List K) : List K :=
  w.mapIdx (fun j a => if j < dim then g j a else a)

/-- Sum over `j < dim` of `h (w[j])`, accumulated from zero. -/
def sumTo (dim : Nat) (h : K → K) (w : List K) : K :=
  (List.range dim).foldl (fun s j => s + h (w.getD j 0)) 0

/-! ### `PerceptronPrimal` -/

/-- What `PerceptronPrimal::train` modifies: `solution.w/bias/norm`, `ctot`, `steps`. -/
structure PState (K : Type) where
  w : List K
  bias : K
  norm : K
  ctot : Nat
  steps : Nat
  deriving DecidableEq, Repr

/-- The update on a mistake.  Models Perceptron.hpp:207-213. -/
def primalUpdate (m : Libm K) (dim : Nat) (rate : K) (p : Sample K) (s : PState K) : PState K :=
  let w := updTo dim (fun j a => a + rate * p.y * p.x.getD j 0) s.w
  { s with w := w, norm := m.sqrt (sumTo dim (fun a => a * a) w), bias := s.bias + rate * p.y,
           ctot := s.ctot + 1 }

/-- The inner `for` over the remaining entries of `index`, with the number `e` of mistakes so far.
Models Perceptron.hpp:195-216. -/
def primalScan (m : Libm K) (dim : Nat) (rate : K) (samples : List (Sample K)) :
    List Nat → PState K → Nat → PState K × Nat
  | [], s, e => (s, e)
  | idx :: rest, s, e =>
    let p := samples.getD idx default
    if p.y * decision dim s.w p.x s.bias ≤ 0 then
      primalScan m dim rate samples rest (primalUpdate m dim rate p s) (e + 1)
    else if s.steps > 0 ∧ e > 1 then (s, e)
    else primalScan m dim rate samples rest s e

/-- One pass and `steps++`.  Models Perceptron.hpp:195-217. -/
def primalPass (m : Libm K) (dim : Nat) (rate : K) (samples : List (Sample K)) (index : List Nat)
    (s : PState K) : PState K × Nat :=
  let r := primalScan m dim rate samples (index.take samples.length) s 0
  ({ r.1 with steps := r.1.steps + 1 }, r.2)

/-- Every vector access of a trainer stays in range. -/
def inRange (dim : Nat) (samples : List (Sample K)) (index : List Nat) (w : List K) : Bool :=
  samples.length ≤ index.length ∧ (∀ i ∈ index.take samples.length, i < samples.length) ∧
  (∀ p ∈ samples, dim ≤ p.x.length) ∧ dim ≤ w.length

/-- `PerceptronPrimal::train` with `solution.w`, `ctot`, `steps` taken from `s0`; returns the result of
`train` and the new state.  `samples`/`index`/`dim` are those of the dataset.
Models Perceptron.hpp:179-226. -/
def primalTrain (m : Libm K) (cfg : Cfg K) (clock : Nat → Bool) (dim : Nat) (samples : List (Sample K))
    (index : List Nat) (s0 : PState K) : Res (Bool × PState K) :=
  let w := if s0.w = [] then List.replicate dim 0 else s0.w
  let s : PState K := { s0 with w := w, bias := 0, norm := 0 }
  if clock 0 ∧ inRange dim samples index w = false then .error .outOfBounds
  else
    let r := epochs (primalPass m dim cfg.rate samples index)
      (fun s => s.steps > cfg.maxIt ∨ s.ctot > cfg.maxUp) clock (cfg.maxIt + 1 - s.steps) 0 s 0
    .ok (r.2 = 0, r.1)

/-- `PrimalClassifier::evaluate`; 0 when the dimensions differ.  Models PrimalClassifier.hpp:42-57. -/
def primalEvaluate (w x : List K) (bias : K) : Int :=
  if x.length ≠ w.length then 0
  else if decision w.length w x bias ≥ 0 then 1 else -1

/-! ### `PerceptronDual` -/

/-- What `PerceptronDual::train` modifies. -/
structure DState (K : Type) where
  alpha : List K
  bias : K
  norm : K
  ctot : Nat
  steps : Nat
  deriving DecidableEq, Repr

/-- `for (f = bias, r = 0; r < size; ++r) f += alpha[r] * Y(r) * K[idx][r];` (`index` is `0..size-1`).
The label that the code keeps in an `int` (414, 428) is taken to be an integer.
Models Perceptron.hpp:431-432, DualClassifier.hpp:38-41. -/
def dualDecision (size : Nat) (alpha : List K) (samples : List (Sample K)) (k : Nat → K) (b : K) : K :=
  (List.range size).foldl
    (fun f r => f + alpha.getD r 0 * (samples.getD r default).y * k r) b

/-- The update on a mistake at sample `i`, `f` being its function value.  Models Perceptron.hpp:437-440. -/
def dualUpdate (m : Libm K) (rate : K) (kv : Nat → Nat → K) (p : Sample K) (i : Nat) (f : K)
    (s : DState K) : DState K :=
  { s with
    norm := m.sqrt (s.norm * s.norm + 2 * rate * p.y * (f - s.bias) + rate * rate * kv i i),
    alpha := s.alpha.set i (s.alpha.getD i 0 + rate),
    bias := s.bias + rate * p.y,
    ctot := s.ctot + 1 }

/-- The inner `for` over the remaining positions.  Models Perceptron.hpp:426-442. -/
def dualScan (m : Libm K) (rate : K) (kv : Nat → Nat → K) (samples : List (Sample K)) :
    List Nat → DState K → Nat → DState K × Nat
  | [], s, e => (s, e)
  | i :: rest, s, e =>
    let p := samples.getD i default
    let f := dualDecision samples.length s.alpha samples (kv i) s.bias
    if p.y * f ≤ 0 then dualScan m rate kv samples rest (dualUpdate m rate kv p i f s) (e + 1)
    else if s.steps > 0 ∧ e > 1 then (s, e)
    else dualScan m rate kv samples rest s e

/-- One pass and `++steps`.  Models Perceptron.hpp:426-444. -/
def dualPass (m : Libm K) (rate : K) (kv : Nat → Nat → K) (samples : List (Sample K)) (s : DState K) :
    DState K × Nat :=
  let r := dualScan m rate kv samples (List.range samples.length) s 0
  ({ r.1 with steps := r.1.steps + 1 }, r.2)

/-- `solution.w[j] += alpha[i] * Y(i) * X(i)[j]` over all `i`, from zero.  Models
Perceptron.hpp:455-461 (with `solution.w` empty before; see Model/Lifecycle.lean for an object trained before),
DualClassifier.hpp:106-117. -/
def dualWeights (dim : Nat) (alpha : List K) (samples : List (Sample K)) : List K :=
  (List.range dim).map (fun j => (List.range samples.length).foldl
    (fun a i => a + alpha.getD i 0 * (samples.getD i default).y * (samples.getD i default).x.getD j 0) 0)

/-- `PerceptronDual::train` without initial solution, from state `s0`; `kv i j` is the kernel matrix.
Returns the result, the state and `solution.w`.  Models Perceptron.hpp:401-464. -/
def dualTrain (m : Libm K) (cfg : Cfg K) (clock : Nat → Bool) (kv : Nat → Nat → K) (dim : Nat)
    (samples : List (Sample K)) (s0 : DState K) : Res (Bool × DState K × List K) :=
  let alpha := if s0.alpha = [] then List.replicate samples.length 0 else s0.alpha
  let s : DState K := { s0 with alpha := alpha }
  if alpha.length < samples.length ∨ ¬ (∀ p ∈ samples, dim ≤ p.x.length) then .error .outOfBounds
  else
    let r := epochs (dualPass m cfg.rate kv samples)
      (fun s => s.steps > cfg.maxIt ∨ s.ctot > cfg.maxUp) clock (cfg.maxIt + 1 - s.steps) 0 s 1
    .ok (r.2 = 0, r.1, dualWeights dim r.1.alpha samples)

/-- `DualClassifier::evaluate` at a point whose kernel values against the samples are `k`; 0 when the
dimensions differ.  Models DualClassifier.hpp:28-44. -/
def dualEvaluate (dim : Nat) (alpha : List K) (samples : List (Sample K)) (bias : K) (x : List K)
    (k : Nat → K) : Res Int :=
  if x.length ≠ dim then .ok 0
  else if alpha.length < samples.length then .error .outOfBounds
  else .ok (if dualDecision samples.length alpha samples k bias ≥ 0 then 1 else -1)

/-! ### `PerceptronFixedMarginPrimal` and `IMApFixedMargin` -/

/-- The four branches on `q`. -/
inductive QNorm (K : Type) where
  /-- `q == 1` -/
  | one
  /-- `q == 2` -/
  | two
  /-- `q == -1` -/
  | inf
  /-- any other `q` -/
  | other (q : K)
  deriving DecidableEq, Repr

/-- Local state of the fixed-margin trainers. -/
structure FState (K : Type) where
  w : List K
  bias : K
  norm : K
  /-- `Alpha()` of the samples -/
  alphas : List K
  index : List Nat
  s : Nat
  largw : K
  n : Nat
  ctot : Nat
  steps : Nat
  deriving DecidableEq, Repr

/-- Parameters of the fixed-margin trainers. -/
structure FCfg (K : Type) where
  rate : K
  gamma : K
  flexible : K
  eps : K
  q : QNorm K
  maxIt : Nat
  maxUp : Nat
  deriving Repr

/-- `sign = (w < 0) ? -1 : 1` -/
def sgn (a : K) : K := if a < 0 then -1 else 1

/-- State of the `q == -1` loop: weights, `largw_temp`, `n_temp`. -/
structure InfAcc (K : Type) where
  w : List K
  temp : K
  cnt : Nat

/-- One iteration of the `q == -1` loop; a ratio with denominator zero is not a number or infinite, so
comparing it with `EPS` is false.  Models Perceptron.hpp:300-316, IMA.hpp:443-461. -/
def infStep (c : FCfg K) (p : Sample K) (norm largw : K) (n : Nat) (a : InfAcc K) (j : Nat) : InfAcc K :=
  let wj := a.w.getD j 0
  let wj' :=
    if largw = 0 ∨ abs (largw - |wj|) / largw < c.eps then
      wj + c.rate * (p.y * p.x.getD j 0 - (if norm > 0 ∧ wj ≠ 0 then c.gamma * sgn wj / n else 0))
    else wj + c.rate * (p.y * p.x.getD j 0)
  let w := a.w.set j wj'
  if j > 0 then
    if a.temp ≠ 0 ∧ abs (a.temp - |wj'|) / a.temp < c.eps then { w := w, temp := a.temp, cnt := a.cnt + 1 }
    else if |wj'| > a.temp then { w := w, temp := |wj'|, cnt := 1 }
    else { a with w := w }
  else { a with w := w }

/-- The change of `w`, `norm` (and `largw`, `n`) on a mistake.  Models Perceptron.hpp:282-330,
IMA.hpp:421-476. -/
def fmWeights (m : Libm K) (c : FCfg K) (dim : Nat) (p : Sample K) (s : FState K) : FState K :=
  match c.q with
  | .one =>
    let w := updTo dim (fun j a => a + c.rate * (p.y * p.x.getD j 0 -
      (if s.norm > 0 ∧ a ≠ 0 then c.gamma * sgn a else 0))) s.w
    { s with w := w, norm := sumTo dim (fun a => |a|) w }
  | .two =>
    let w := updTo dim (fun j a => a + c.rate * (p.y * p.x.getD j 0 -
      (if s.norm > 0 ∧ a ≠ 0 then a * c.gamma / s.norm else 0))) s.w
    { s with w := w, norm := m.sqrt (sumTo dim (fun a => a * a) w) }
  | .inf =>
    let r := (List.range dim).foldl (infStep c p s.norm s.largw s.n)
      { w := s.w, temp := |s.w.getD 0 0|, cnt := 1 }
    { s with w := r.w, largw := r.temp, n := r.cnt, norm := r.temp }
  | .other q =>
    let w := updTo dim (fun j a => a + c.rate * (p.y * p.x.getD j 0 -
      (if s.norm > 0 ∧ a ≠ 0 then a * c.gamma * m.pow |a| (q - 2) * m.pow s.norm (1 - q) else 0))) s.w
    { s with w := w, norm := m.pow (sumTo dim (fun a => m.pow |a| q) w) (1 / q) }

/-- The whole update on a mistake at position `i` of `index`, the `e`-th of the pass.
Models Perceptron.hpp:275-340, IMA.hpp:417-485. -/
def fmUpdate (m : Libm K) (c : FCfg K) (dim : Nat) (p : Sample K) (i idx e : Nat) (s : FState K) :
    FState K :=
  let lambda := if s.norm ≠ 0 then 1 - c.rate * c.gamma / s.norm else 1
  let t := fmWeights m c dim p s
  let alphas := s.alphas.map (fun a => a * lambda)
  let k := if i > s.s then s.s else e
  { t with
    bias := s.bias + c.rate * p.y,
    alphas := alphas.set idx (alphas.getD idx 0 + c.rate),
    index := (s.index.set k idx).set i (s.index.getD k 0),
    s := if i > s.s then s.s + 1 else s.s,
    ctot := s.ctot + 1 }

/-- The inner `for` over the remaining positions of `index`.  Models Perceptron.hpp:262-342,
IMA.hpp:404-487. -/
def fmScan (m : Libm K) (c : FCfg K) (dim : Nat) (samples : List (Sample K)) :
    List Nat → FState K → Nat → FState K × Nat
  | [], s, e => (s, e)
  | i :: rest, s, e =>
    let idx := s.index.getD i 0
    let p := samples.getD idx default
    if p.y * decision dim s.w p.x s.bias ≤ c.gamma * s.norm - s.alphas.getD idx 0 * c.flexible then
      fmScan m c dim samples rest (fmUpdate m c dim p i idx e s) (e + 1)
    else if s.steps > 0 ∧ e > 1 ∧ i > s.s then (s, e)
    else fmScan m c dim samples rest s e

/-- One pass and `++steps`.  Models Perceptron.hpp:262-343. -/
def fmPass (m : Libm K) (c : FCfg K) (dim : Nat) (samples : List (Sample K)) (s : FState K) :
    FState K × Nat :=
  let r := fmScan m c dim samples (List.range samples.length) s 0
  ({ r.1 with steps := r.1.steps + 1 }, r.2)

/-- `PerceptronFixedMarginPrimal::train` started from `s0` (`solution.w`, `bias`, `norm`, the samples'
`Alpha()`, the dataset's index, counters).  Models Perceptron.hpp:244-355.  Simplification: samples
carry their `Alpha` in the state; the initial `e` is 0. -/
def fmTrain (m : Libm K) (c : FCfg K) (clock : Nat → Bool) (dim : Nat) (samples : List (Sample K))
    (s0 : FState K) : Res (Bool × FState K) :=
  let w := if s0.w = [] then List.replicate dim 0 else s0.w
  let s : FState K := { s0 with w := w, s := 0, largw := 0, n := dim }
  if clock 0 ∧ (inRange dim samples s0.index w = false ∨ s0.alphas.length < samples.length) then
    .error .outOfBounds
  else
    let r := epochs (fmPass m c dim samples) (fun s => s.steps > c.maxIt ∨ s.ctot > c.maxUp) clock
      (c.maxIt + 1 - s.steps) 0 s 0
    .ok (r.2 = 0, r.1)

/-- `PerceptronFixedMarginPrimal::evaluate` / `IMAp::evaluate`, thresholded value.
Simplified: the loop runs over the weights, in the code up to `samples->dim()`.
Models Perceptron.hpp:357-374, IMA.hpp:350-365, 506-522. -/
def fmEvaluate (w x : List K) (bias margin norm : K) : Int :=
  if x.length ≠ w.length then 0
  else if decision w.length w x bias ≥ margin * norm then 1 else -1

/-! ### `PerceptronFixedMarginDual` -/

/-- Local state of `PerceptronFixedMarginDual::train`. -/
structure GState (K : Type) where
  alphas : List K
  func : List K
  bias : K
  norm : K
  index : List Nat
  s : Nat
  ctot : Nat
  steps : Nat
  deriving DecidableEq, Repr

/-- The update on a mistake.  Dividing by a zero norm, or taking the root of a negative number, gives a
non-finite `double`.  Models Perceptron.hpp:507-526. -/
def gUpdate (m : Libm K) (c : FCfg K) (kv : Nat → Nat → K) (p : Sample K) (i idx e : Nat)
    (s : GState K) : Res (GState K) :=
  if c.gamma ≠ 0 ∧ s.norm = 0 then .error .nonFinite
  else
    let lambda := if c.gamma ≠ 0 then 1 - c.rate * c.gamma / s.norm else 1
    let norm1 := s.norm * lambda
    let alphas := s.alphas.map (fun a => a * lambda)
    let func := s.func.mapIdx
      (fun r f => lambda * f + c.rate * p.y * (kv idx r + 1) + s.bias * (1 - lambda))
    let rad := norm1 * norm1 + 2 * c.rate * p.y * lambda * (func.getD idx 0 - s.bias) +
      c.rate * c.rate * kv idx idx
    if rad < 0 then .error .nonFinite
    else
      let k := if i > s.s then s.s + 1 else e
      .ok { s with
        alphas := alphas.set idx (alphas.getD idx 0 + c.rate),
        func := func,
        norm := m.sqrt rad,
        bias := s.bias + c.rate * p.y,
        index := (s.index.set k idx).set i (s.index.getD k 0),
        s := if i > s.s then s.s + 1 else s.s,
        ctot := s.ctot + 1 }

/-- The inner `for`.  Models Perceptron.hpp:500-528. -/
def gScan (m : Libm K) (c : FCfg K) (kv : Nat → Nat → K) (samples : List (Sample K)) :
    List Nat → GState K → Nat → Res (GState K × Nat)
  | [], s, e => .ok (s, e)
  | i :: rest, s, e =>
    let idx := s.index.getD i 0
    let p := samples.getD idx default
    if p.y * s.func.getD idx 0 - c.gamma * s.norm ≤ 0 then
      match gUpdate m c kv p i idx e s with
      | .error x => .error x
      | .ok s' => gScan m c kv samples rest s' (e + 1)
    else if s.steps > 0 ∧ e > 1 ∧ i > s.s then .ok (s, e)
    else gScan m c kv samples rest s e

/-- The `while` loop, with at most `n+1` passes.  Models Perceptron.hpp:499-535. -/
def gLoop (m : Libm K) (c : FCfg K) (kv : Nat → Nat → K) (samples : List (Sample K))
    (clock : Nat → Bool) : Nat → Nat → GState K → Nat → Res (GState K × Nat)
  | n, k, s, e =>
    if clock k then
      match gScan m c kv samples (List.range samples.length) s 0 with
      | .error x => .error x
      | .ok (s1, e1) =>
        let s2 : GState K := { s1 with steps := s1.steps + 1 }
        if e1 = 0 ∨ s2.steps > c.maxIt ∨ s2.ctot > c.maxUp then .ok (s2, e1)
        else match n with
          | 0 => .ok (s2, e1)
          | n+1 => gLoop m c kv samples clock n (k+1) s2 e1
    else .ok (s, e)

/-- `PerceptronFixedMarginDual::train` from `s0`.  Models Perceptron.hpp:479-552. -/
def gTrain (m : Libm K) (c : FCfg K) (clock : Nat → Bool) (kv : Nat → Nat → K)
    (samples : List (Sample K)) (s0 : GState K) : Res (Bool × GState K) :=
  let func := if s0.func = [] then List.replicate samples.length 0 else s0.func
  let s : GState K := { s0 with func := func, s := 0 }
  if clock 0 ∧ (inRange 0 samples s0.index [] = false ∨ s0.alphas.length < samples.length ∨
      func.length < samples.length) then .error .outOfBounds
  else do
    let r ← gLoop m c kv samples clock (c.maxIt + 1 - s.steps) 0 s 1
    pure (r.2 = 0, r.1)

end
end MLTK.Perc
