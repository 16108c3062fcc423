import Verif.Model.DoubleDual
/-!
# `PerceptronFixedMarginDual` in `double` arithmetic

The trainer of `Model/Perceptron` with every operation carried out as in `Model/Double`.  `std::sqrt` is a parameter; the kernel matrix is
that of `Model/DoubleDual`.  The state holds the `Alpha` values of the points, `solution.func`, `bias`, `norm` and the order of the
samples.  Not modelled here: `solution.w`, which `evaluate` does not read.  Other simplifications as in `Model/Perceptron`.
-/
namespace MLTK.Fp
open MLTK.Perc (Sample GState FCfg epochs)

/-- `lambda = (gamma) ? (1 - rate * gamma / norm) : 1`.  Models Perceptron.hpp:508. -/
def gLambda (c : FCfg Dbl) (norm : Dbl) : Dbl :=
  if c.gamma.eq (.fin 0) then .fin 1 else (Dbl.fin 1).sub ((c.rate.mul c.gamma).div norm)

/-- `func[r] = lambda * func[r] + rate * y * (K[idx][r] + 1) + bias * (1 - lambda)`.  Models Perceptron.hpp:513. -/
def gFunc (lambda rate y k bias f : Dbl) : Dbl :=
  ((lambda.mul f).add ((rate.mul y).mul (k.add (.fin 1)))).add (bias.mul ((Dbl.fin 1).sub lambda))

/-- The update on a mistake.  Models Perceptron.hpp:507-526. -/
def gUpdateD (sqrt : Dbl → Dbl) (c : FCfg Dbl) (kv : Nat → Nat → Dbl) (p : Sample Dbl) (i idx e : Nat) (s : GState Dbl) :
    GState Dbl :=
  let lambda := gLambda c s.norm
  let norm1 := s.norm.mul lambda
  let alphas := s.alphas.map (fun a => a.mul lambda)
  let func := s.func.mapIdx (fun r f => gFunc lambda c.rate p.y (kv idx r) s.bias f)
  let k := if i > s.s then s.s + 1 else e
  { s with
    alphas := alphas.set idx ((alphas.getD idx (.fin 0)).add c.rate),
    func := func,
    norm := sqrt (((norm1.mul norm1).add (((((Dbl.fin 2).mul c.rate).mul p.y).mul lambda).mul ((func.getD idx (.fin 0)).sub s.bias))).add
      ((c.rate.mul c.rate).mul (kv idx idx))),
    bias := s.bias.add (c.rate.mul p.y),
    index := (s.index.set k idx).set i (s.index.getD k 0),
    s := if i > s.s then s.s + 1 else s.s,
    ctot := s.ctot + 1 }

/-- The inner `for` over the remaining positions of `index`.  Models Perceptron.hpp:500-528. -/
def gScanD (sqrt : Dbl → Dbl) (c : FCfg Dbl) (kv : Nat → Nat → Dbl) (samples : List (Sample Dbl)) :
    List Nat → GState Dbl → Nat → GState Dbl × Nat
  | [], s, e => (s, e)
  | i :: rest, s, e =>
    let idx := s.index.getD i 0
    let p := samples.getD idx ⟨[], .fin 0⟩
    if ((p.y.mul (s.func.getD idx (.fin 0))).sub (c.gamma.mul s.norm)).le (.fin 0) then
      gScanD sqrt c kv samples rest (gUpdateD sqrt c kv p i idx e s) (e + 1)
    else if s.steps > 0 ∧ e > 1 ∧ i > s.s then (s, e)
    else gScanD sqrt c kv samples rest s e

/-- One pass and `++steps`.  Models Perceptron.hpp:500-530. -/
def gPassD (sqrt : Dbl → Dbl) (c : FCfg Dbl) (kv : Nat → Nat → Dbl) (samples : List (Sample Dbl)) (s : GState Dbl) : GState Dbl × Nat :=
  let r := gScanD sqrt c kv samples (List.range samples.length) s 0
  ({ r.1 with steps := r.1.steps + 1 }, r.2)

/-- `PerceptronFixedMarginDual::train` from the state `s0`, with the kernel function `k` on points of `dim` features.  Models
Perceptron.hpp:479-549. -/
def gTrainD (sqrt : Dbl → Dbl) (c : FCfg Dbl) (clock : Nat → Bool) (k : List Dbl → List Dbl → Dbl) (dim : Nat)
    (samples : List (Sample Dbl)) (s0 : GState Dbl) : Res (Bool × GState Dbl) :=
  let func := if s0.func = [] then List.replicate samples.length (.fin 0) else s0.func
  if ¬ (s0.index.length = samples.length ∧ (∀ i ∈ s0.index, i < samples.length)) ∨ s0.alphas.length < samples.length ∨
      func.length < samples.length ∨ ¬ (∀ p ∈ samples, dim ≤ p.x.length) then .error .outOfBounds
  else
    let r := epochs (gPassD sqrt c (matrix k samples) samples) (fun s => s.steps > c.maxIt ∨ s.ctot > c.maxUp) clock
      (c.maxIt + 1 - s0.steps) 0 { s0 with func := func, s := 0 } 1
    .ok (r.2 = 0, r.1)

end MLTK.Fp
