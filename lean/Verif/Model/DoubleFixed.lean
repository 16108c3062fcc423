import Verif.Model.DoublePerc
/-!
# `PerceptronFixedMarginPrimal` in `double` arithmetic

The trainer of `Model/Perceptron` with every operation carried out as in `Model/Double`.  `sqrt` and `pow` are parameters.
Other simplifications as in `Model/Perceptron`.
-/
namespace MLTK.Fp
open MLTK.Perc (Sample FState FCfg QNorm InfAcc epochs)

/-- `sign = (w < 0) ? -1 : 1`.  Models Perceptron.hpp:284, 302. -/
def sgn (a : Dbl) : Dbl := if a.lt (.fin 0) then .fin (-1) else .fin 1

/-- `(norm > 0 && w[j] != 0) ? v : 0`.  Models Perceptron.hpp:285, 292, 303, 323. -/
def whenBoth (norm a v : Dbl) : Dbl := if (Dbl.fin 0).lt norm && !(a.eq (.fin 0)) then v else .fin 0

/-- One iteration of the `q == -1` loop.  Models Perceptron.hpp:300-316. -/
def infStep (c : FCfg Dbl) (p : Sample Dbl) (norm largw : Dbl) (n : Nat) (a : InfAcc Dbl) (j : Nat) : InfAcc Dbl :=
  let wj := a.w.getD j (.fin 0)
  let yx := p.y.mul (p.x.getD j (.fin 0))
  let wj' :=
    if largw.eq (.fin 0) || ((largw.sub wj.abs).abs.div largw).lt c.eps then
      wj.add (c.rate.mul (yx.sub (whenBoth norm wj ((c.gamma.mul (sgn wj)).div (.ofNat n)))))
    else wj.add (c.rate.mul yx)
  let w := a.w.set j wj'
  if j > 0 then
    if ((a.temp.sub wj'.abs).abs.div a.temp).lt c.eps then { w := w, temp := a.temp, cnt := a.cnt + 1 }
    else if a.temp.lt wj'.abs then { w := w, temp := wj'.abs, cnt := 1 }
    else { a with w := w }
  else { a with w := w }

/-- The new weights: `w[j] += rate * (y * x[j] - lambda)`.  Models Perceptron.hpp:286, 293, 326. -/
def fmShift (c : FCfg Dbl) (dim : Nat) (p : Sample Dbl) (lambda : Dbl → Dbl) (w : List Dbl) : List Dbl :=
  w.mapIdx (fun j a => if j < dim then a.add (c.rate.mul ((p.y.mul (p.x.getD j (.fin 0))).sub (lambda a))) else a)

/-- `sumnorm += h(w[j])` for `j < dim`.  Models Perceptron.hpp:287, 294, 327. -/
def fmSum (dim : Nat) (h : Dbl → Dbl) (w : List Dbl) : Dbl :=
  (List.range dim).foldl (fun (t : Dbl) j => t.add (h (w.getD j (.fin 0)))) (.fin 0)

/-- The change of `w`, `norm` (and `largw`, `n`) on a mistake.  Models Perceptron.hpp:282-330. -/
def fmWeights (sqrt : Dbl → Dbl) (pow : Dbl → Dbl → Dbl) (c : FCfg Dbl) (dim : Nat) (p : Sample Dbl) (s : FState Dbl) : FState Dbl :=
  match c.q with
  | .one =>
    let w := fmShift c dim p (fun a => whenBoth s.norm a (c.gamma.mul (sgn a))) s.w
    { s with w := w, norm := fmSum dim Dbl.abs w }
  | .two =>
    let w := fmShift c dim p (fun a => whenBoth s.norm a ((a.mul c.gamma).div s.norm)) s.w
    { s with w := w, norm := sqrt (fmSum dim (fun a => a.mul a) w) }
  | .inf =>
    let r := (List.range dim).foldl (infStep c p s.norm s.largw s.n)
      { w := s.w, temp := (s.w.getD 0 (.fin 0)).abs, cnt := 1 }
    { s with w := r.w, largw := r.temp, n := r.cnt, norm := r.temp }
  | .other q =>
    let w := fmShift c dim p (fun a => whenBoth s.norm a
      (((a.mul c.gamma).mul (pow a.abs (q.sub (.fin 2)))).mul (pow s.norm ((Dbl.fin 1).sub q)))) s.w
    { s with w := w, norm := pow (fmSum dim (fun a => pow a.abs q) w) ((Dbl.fin 1).div q) }

/-- The whole update on a mistake at position `i` of `index`, the `e`-th of the pass.  Models Perceptron.hpp:274-340. -/
def fmUpdate (sqrt : Dbl → Dbl) (pow : Dbl → Dbl → Dbl) (c : FCfg Dbl) (dim : Nat) (p : Sample Dbl) (i idx e : Nat)
    (s : FState Dbl) : FState Dbl :=
  let lambda := if s.norm.eq (.fin 0) then Dbl.fin 1 else (Dbl.fin 1).sub ((c.rate.mul c.gamma).div s.norm)
  let t := fmWeights sqrt pow c dim p s
  let alphas := s.alphas.map (fun a => a.mul lambda)
  let k := if i > s.s then s.s else e
  { t with
    bias := s.bias.add (c.rate.mul p.y)
    alphas := alphas.set idx ((alphas.getD idx (.fin 0)).add c.rate)
    index := (s.index.set k idx).set i (s.index.getD k 0)
    s := if i > s.s then s.s + 1 else s.s
    ctot := s.ctot + 1 }

/-- The inner `for` over the remaining positions of `index`.  Models Perceptron.hpp:262-342. -/
def fmScan (sqrt : Dbl → Dbl) (pow : Dbl → Dbl → Dbl) (c : FCfg Dbl) (dim : Nat) (samples : List (Sample Dbl)) :
    List Nat → FState Dbl → Nat → FState Dbl × Nat
  | [], s, e => (s, e)
  | i :: rest, s, e =>
    let idx := s.index.getD i 0
    let p := samples.getD idx ⟨[], .fin 0⟩
    if (p.y.mul (decision dim s.w p.x s.bias)).le ((c.gamma.mul s.norm).sub ((s.alphas.getD idx (.fin 0)).mul c.flexible)) then
      fmScan sqrt pow c dim samples rest (fmUpdate sqrt pow c dim p i idx e s) (e + 1)
    else if s.steps > 0 ∧ e > 1 ∧ i > s.s then (s, e)
    else fmScan sqrt pow c dim samples rest s e

/-- One pass and `++steps`.  Models Perceptron.hpp:262-343. -/
def fmPass (sqrt : Dbl → Dbl) (pow : Dbl → Dbl → Dbl) (c : FCfg Dbl) (dim : Nat) (samples : List (Sample Dbl)) (s : FState Dbl) :
    FState Dbl × Nat :=
  let r := fmScan sqrt pow c dim samples (List.range samples.length) s 0
  ({ r.1 with steps := r.1.steps + 1 }, r.2)

/-- `PerceptronFixedMarginPrimal::train` started from `s0` (`solution.w`, `bias`, `norm`, the samples' `Alpha()`, the dataset's
index, counters).  Models Perceptron.hpp:244-355. -/
def fmTrain (sqrt : Dbl → Dbl) (pow : Dbl → Dbl → Dbl) (c : FCfg Dbl) (clock : Nat → Bool) (dim : Nat) (samples : List (Sample Dbl))
    (s0 : FState Dbl) : Res (Bool × FState Dbl) :=
  let w := if s0.w = [] then List.replicate dim (.fin 0) else s0.w
  let s : FState Dbl := { s0 with w := w, s := 0, largw := .fin 0, n := dim }
  if clock 0 ∧ (inRange dim samples s0.index w = false ∨ s0.alphas.length < samples.length) then .error .outOfBounds
  else
    let r := epochs (fmPass sqrt pow c dim samples) (fun s => s.steps > c.maxIt ∨ s.ctot > c.maxUp) clock
      (c.maxIt + 1 - s.steps) 0 s 0
    .ok (r.2 = 0, r.1)

/-- `PerceptronFixedMarginPrimal::evaluate`, thresholded value.  Simplified: the loop runs over the weights, in the code up to
`samples->dim()`.  Models Perceptron.hpp:357-374. -/
def fmEvaluate (w x : List Dbl) (bias margin norm : Dbl) : Int :=
  if x.length ≠ w.length then 0
  else if (margin.mul norm).le (decision w.length w x bias) then 1 else -1

end MLTK.Fp
