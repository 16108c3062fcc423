import Verif.Model.DoubleFixed
import Verif.Model.IMA
/-!
# `IMAp` in `double` arithmetic

The incremental margin algorithm of `Model/IMA` with every operation carried out as in `Model/Double`, on top of the fixed-margin
passes of `Model/DoubleFixed`.  `sqrt` and `pow` are parameters; other simplifications as in `Model/IMA`.
-/
namespace MLTK.Fp
open MLTK.Perc (Sample FState FCfg QNorm epochs)
open MLTK.IMA (ISol IState ICfg)

/-- `DBL_MAX`.  Models IMA.hpp:240 (constant). -/
def dblMax : ℚ := 2 ^ 1024 - 2 ^ 971

/-- `IMApFixedMargin::train` continuing from `s`.  Models IMA.hpp:385-503. -/
def imaFixed (sqrt : Dbl → Dbl) (pow : Dbl → Dbl → Dbl) (c : FCfg Dbl) (clock : Nat → Bool) (dim : Nat)
    (samples : List (Sample Dbl)) (s : FState Dbl) : Bool × FState Dbl :=
  let r := epochs (fmPass sqrt pow c dim samples) (fun s => s.steps > c.maxIt ∨ s.ctot > c.maxUp) clock
    (c.maxIt + 1 - s.steps) 0
    { s with w := if s.w = [] then List.replicate dim (.fin 0) else s.w, s := 0 } 1
  (r.2 = 0, r.1)

/-- The scan for `min` and `max` over the values `func[i] + y * alpha * flexible`.  Models IMA.hpp:240-250. -/
def extremes (norm : Dbl) : List Dbl → Dbl × Dbl → Dbl × Dbl
  | [], acc => acc
  | v :: vs, (mn, mx) =>
    if (Dbl.fin 0).le v && (v.div norm).lt mn then extremes norm vs (v.div norm, mx)
    else if v.lt (.fin 0) && mx.lt (v.div norm) then extremes norm vs (mn, v.div norm)
    else extremes norm vs (mn, mx)

/-- `func[i] + y * alpha * flexible` for every sample.  Models IMA.hpp:240-249. -/
def imaValues (flexible : Dbl) (dim : Nat) (samples : List (Sample Dbl)) (s : FState Dbl) : List Dbl :=
  samples.mapIdx (fun i p => (decision dim s.w p.x s.bias).add ((p.y.mul (s.alphas.getD i (.fin 0))).mul flexible))

/-- The body of the `while` loop after a successful fixed-margin run that left `s`.  Models IMA.hpp:232-303. -/
def imaRound (sqrt : Dbl → Dbl) (c : ICfg Dbl) (dim : Nat) (samples : List (Sample Dbl)) (s : FState Dbl)
    (st : IState Dbl) : IState Dbl :=
  let ext := extremes s.norm (imaValues c.flexible dim samples s) (.fin dblMax, .fin (-dblMax))
  let mn := ext.1
  let mx := ext.2
  let rmargin := if mx.abs.lt mn.abs then mx.abs else mn.abs
  let mmargin := (mx.abs.add mn.abs).div (.fin 2)
  let shift := (mmargin.sub rmargin).abs
  let tempBias := if mn.abs.lt mx.abs then s.bias.add shift else s.bias.sub shift
  let gamma := (mn.sub mx).div (.fin 2)
  let inc := ((Dbl.fin 1).add c.alphaAprox).mul rmargin
  let t1 := if st.it = 2 then s.ctot else st.t1
  { sub := { s with bias := tempBias },
    gamma := if gamma.lt inc then inc else gamma,
    rate := if st.it > 1 then (sqrt (Dbl.ofNat t1)).div (sqrt (Dbl.ofNat s.ctot)) else st.rate,
    it := st.it + 1,
    t1 := t1,
    sol := { w := s.w, bias := s.bias, norm := s.norm, margin := mmargin } }

/-- The `while` loop, as in `Model/IMA`.  Models IMA.hpp:229-308. -/
def imaLoop (sqrt : Dbl → Dbl) (pow : Dbl → Dbl → Dbl) (c : ICfg Dbl) (clock : Nat → Nat → Bool) (late : Nat → Bool) (dim : Nat)
    (samples : List (Sample Dbl)) : Nat → IState Dbl → IState Dbl
  | n, st =>
    match imaFixed sqrt pow ⟨st.rate, st.gamma, c.flexible, c.eps, c.q, c.maxIt, c.maxUp⟩ (clock st.it) dim samples st.sub with
    | (false, s) => { st with sub := s }
    | (true, s) =>
      let st' := imaRound sqrt c dim samples s st
      if st'.it > c.maxIt ∨ late st'.it = true then st'
      else match n with
        | 0 => st'
        | n+1 => imaLoop sqrt pow c clock late dim samples n st'

/-- The state before the first round.  Models IMA.hpp:116-135, 198-228. -/
def imaStart (dim : Nat) (samples : List (Sample Dbl)) (index : List Nat) (margin : Dbl) : IState Dbl :=
  { sub := ⟨[], .fin 0, .fin 0, List.replicate samples.length (.fin 0), index, 0, .fin 0, 0, 0, 0⟩, gamma := .fin 0, rate := .fin 1,
    it := 0, t1 := 1, sol := ⟨List.replicate dim (.fin 0), .fin 0, .fin 1, margin⟩ }

/-- `IMAp::train` for a classifier constructed without an initial solution: result and final state.
Models IMA.hpp:96-113, 116-347. -/
def imaTrain (sqrt : Dbl → Dbl) (pow : Dbl → Dbl → Dbl) (c : ICfg Dbl) (clock : Nat → Nat → Bool) (late : Nat → Bool) (dim : Nat)
    (samples : List (Sample Dbl)) (index : List Nat) (margin : Dbl) : Res (Bool × IState Dbl) :=
  let index := if index = [] then List.range samples.length else index
  if inRange dim samples index (List.replicate dim (.fin 0)) = false then .error .outOfBounds
  else
    let st := imaLoop sqrt pow c clock late dim samples c.maxIt (imaStart dim samples index margin)
    .ok (st.it ≠ 0, st)

/-- `IMAp::evaluate`, thresholded value.  Models IMA.hpp:350-365. -/
def imaEvaluate (s : ISol Dbl) (x : List Dbl) : Int :=
  if x.length ≠ s.w.length then 0
  else if (s.margin.mul s.norm).le (decision s.w.length s.w x s.bias) then 1 else -1

end MLTK.Fp
