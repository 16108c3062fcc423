import Verif.Model.Perceptron
/-!
# The incremental margin algorithm (`IMAp`)

Simplifications: those of `Model/Perceptron`; the timers are parameters; the samples' `Alpha` values live in
the state of the fixed-margin trainer (the library shares the points through pointers); `DBL_MAX` is a
parameter `big` that no computed value exceeds; the support-vector list and the printed report are left out.
-/
namespace MLTK.IMA
open MLTK.Perc

section
variable {K : Type} [Field K] [LinearOrder K]

/-- `IMApFixedMargin::train` continuing from `s` (solution, `Alpha`, index, `maiorw`, `n`, counters): the result
and the new state.  `flagNao1aDim` is 0 here, see `imaTrain`.  Models IMA.hpp:385-503. -/
def imaFixed (m : Libm K) (c : FCfg K) (clock : Nat → Bool) (dim : Nat) (samples : List (Sample K))
    (s : FState K) : Bool × FState K :=
  let r := epochs (fmPass m c dim samples) (fun s => s.steps > c.maxIt ∨ s.ctot > c.maxUp) clock
    (c.maxIt + 1 - s.steps) 0
    { s with w := if s.w = [] then List.replicate dim 0 else s.w, s := 0 } 1
  (r.2 = 0, r.1)

/-- The scan for `min` and `max` over the values `func[i] + y * alpha * flexible`; `none` stands for the
start values `DBL_MAX` and `-DBL_MAX`.  Models IMA.hpp:240-250. -/
def extremes (norm : K) : List K → Option K × Option K → Option K × Option K
  | [], acc => acc
  | v :: vs, (mn, mx) =>
    if 0 ≤ v ∧ mn.all (fun a => a > v / norm) = true then
      extremes norm vs (some (v / norm), mx)
    else if v < 0 ∧ mx.all (fun a => a < v / norm) = true then
      extremes norm vs (mn, some (v / norm))
    else extremes norm vs (mn, mx)

/-- `solution` of `IMAp`. -/
structure ISol (K : Type) where
  w : List K
  bias : K
  norm : K
  margin : K
  deriving DecidableEq, Repr

/-- State of `IMAp::train` between rounds. -/
structure IState (K : Type) where
  sub : FState K
  gamma : K
  rate : K
  it : Nat
  t1 : Nat
  sol : ISol K
  deriving DecidableEq, Repr

/-- Settings of `IMAp`. -/
structure ICfg (K : Type) where
  flexible : K
  alphaAprox : K
  eps : K
  q : QNorm K
  maxIt : Nat
  maxUp : Nat
  big : K

/-- `func[i] + y * alpha * flexible` for every sample, from the state of a successful fixed-margin run (whose
last pass has evaluated `func` at the final weights).  Models IMA.hpp:240-249. -/
def values (c : ICfg K) (dim : Nat) (samples : List (Sample K)) (s : FState K) : List K :=
  samples.mapIdx (fun i p => decision dim s.w p.x s.bias + p.y * s.alphas.getD i 0 * c.flexible)

/-- The body of the `while` loop after a successful fixed-margin run that left `s`.
Models IMA.hpp:232-303. -/
def round (m : Libm K) (c : ICfg K) (dim : Nat) (samples : List (Sample K)) (s : FState K)
    (st : IState K) : IState K :=
  let ext := extremes s.norm (values c dim samples s) (none, none)
  let mn := ext.1.getD c.big
  let mx := ext.2.getD (-c.big)
  let rmargin := if |mn| > |mx| then |mx| else |mn|
  let mmargin := (|mx| + |mn|) / 2
  let tempBias := if |mx| > |mn| then s.bias + abs (mmargin - rmargin) else s.bias - abs (mmargin - rmargin)
  let gamma := (mn - mx) / 2
  let inc := (1 + c.alphaAprox) * rmargin
  let gamma := if gamma < inc then inc else gamma
  let t1 := if st.it = 2 then s.ctot else st.t1
  { sub := { s with bias := tempBias },
    gamma := gamma,
    rate := if st.it > 1 then m.sqrt t1 / m.sqrt s.ctot else st.rate,
    it := st.it + 1,
    t1 := t1,
    sol := { w := s.w, bias := s.bias, norm := s.norm, margin := mmargin } }

/-- The `while` loop; `n` bounds the number of rounds (the test `it > MAX_IT` ends it earlier);
`clock it` is the fixed-margin timer in round `it`, `late it` the test `stime >= max_time`.
Dividing by a zero norm is not finite.  Models IMA.hpp:229-308. -/
def loop (m : Libm K) (c : ICfg K) (clock : Nat → Nat → Bool) (late : Nat → Bool) (dim : Nat)
    (samples : List (Sample K)) : Nat → IState K → Res (IState K)
  | n, st =>
    match imaFixed m ⟨st.rate, st.gamma, c.flexible, c.eps, c.q, c.maxIt, c.maxUp⟩ (clock st.it) dim samples st.sub with
    | (false, s) => .ok { st with sub := s }
    | (true, s) =>
      if s.norm = 0 ∧ samples ≠ [] then .error .nonFinite
      else
        let st' := round m c dim samples s st
        if st'.it > c.maxIt ∨ late st'.it = true then .ok st'
        else match n with
          | 0 => .ok st'
          | n+1 => loop m c clock late dim samples n st'

/-- `IMAp::train` for a freshly constructed classifier: result and final state.  With an initial solution
the constructor leaves the member `w` empty and line 163 reads it.  `index` is the dataset's order.
Models IMA.hpp:96-113, 116-347. -/
def imaTrain (m : Libm K) (c : ICfg K) (clock : Nat → Nat → Bool) (late : Nat → Bool) (dim : Nat)
    (samples : List (Sample K)) (index : List Nat) (hasInitial : Bool) (margin : K) :
    Res (Bool × IState K) :=
  let index := if index = [] then List.range samples.length else index
  if hasInitial ∧ samples ≠ [] ∧ dim > 0 then .error .outOfBounds
  else if inRange dim samples index (List.replicate dim 0) = false then .error .outOfBounds
  else do
    let st ← loop m c clock late dim samples c.maxIt
      { sub := ⟨[], 0, 0, List.replicate samples.length 0, index, 0, 0, 0, 0, 0⟩, gamma := 0, rate := 1,
        it := 0, t1 := 1, sol := ⟨List.replicate dim 0, 0, 1, margin⟩ }
    pure (st.it ≠ 0, st)

/-- `IMAp::evaluate`, thresholded value.  Models IMA.hpp:350-365. -/
def imaEvaluate (s : ISol K) (x : List K) : Int :=
  if x.length ≠ s.w.length then 0
  else if decision s.w.length s.w x s.bias ≥ s.margin * s.norm then 1 else -1

end
end MLTK.IMA
