import Verif.Model.DoubleFixedDual
import Verif.Model.DoubleIma
import Verif.Model.ImaDual
/-!
# `IMADual` in `double` arithmetic

The dual incremental margin algorithm of `Model/ImaDual` with every operation carried out as in `Model/Double`, on top of the
fixed-margin trainer of `Model/DoubleFixedDual`.  `sqrt` is a parameter.  Not modelled here: `solution.w` and `solution.norm`, which
`evaluate` does not read, and the printed report.  Other simplifications as in `Model/ImaDual`.
-/
namespace MLTK.Fp
open MLTK.Perc (Sample GState)
open MLTK.IMA (DCfg DIState DISol)

/-- `points[i]->Alpha() > this->EPS * this->rate`.  Models IMA.hpp:616, 654. -/
def isSupport (c : DCfg Dbl) (a : Dbl) : Bool := (c.eps.mul c.rate).lt a

/-- `saved_alphas`: the `Alpha` values above `EPS * rate`, zero for the others.  Models IMA.hpp:615-620. -/
def keepAlphasD (c : DCfg Dbl) (alphas : List Dbl) : List Dbl := alphas.map (fun a => if isSupport c a then a else .fin 0)

/-- The loop body up to `++it` after a successful fixed-margin run that left `s`.  Models IMA.hpp:605-638. -/
def dualRoundD (c : DCfg Dbl) (n : Nat) (s : GState Dbl) (st : DIState Dbl) : DIState Dbl :=
  let ext := extremes s.norm (s.func.take n) (.fin dblMax, .fin (-dblMax))
  let mn := ext.1
  let mx := ext.2
  let rmargin := if mx.abs.lt mn.abs then mx.abs else mn.abs
  let gamma := (mn.sub mx).div (.fin 2)
  { sub := s,
    gamma := if gamma.lt (c.minInc.mul rmargin) then c.minInc.mul rmargin else gamma,
    saved := keepAlphasD c (s.alphas.take n),
    rmargin := rmargin,
    old := st.old,
    it := st.it + 1 }

/-- `while (percDual.train()) { … }` with at most `n` rounds; `diverges` if they do not suffice (they do, see C245).  The
second component tells whether the loop ended by `break`.  Models IMA.hpp:604-643. -/
def dualLoopD (sqrt : Dbl → Dbl) (c : DCfg Dbl) (clock : Nat → Nat → Bool) (k : List Dbl → List Dbl → Dbl) (dim : Nat)
    (samples : List (Sample Dbl)) : Nat → DIState Dbl → Res (DIState Dbl × Bool)
  | 0, _ => .error .diverges
  | n+1, st => do
    let r ← gTrainD sqrt ⟨c.rate, st.gamma, .fin 0, c.eps, .two, c.maxIt, c.maxUp⟩ (clock st.it) k dim samples st.sub
    if r.1 = false then .ok ({ st with sub := r.2 }, false)
    else
      let st' := dualRoundD c samples.length r.2 st
      if (st'.rmargin.sub st'.old).lt c.eps then .ok (st', true)
      else dualLoopD sqrt c clock k dim samples n { st' with old := st'.rmargin }

/-- The state before the first round.  Models IMA.hpp:555-562, 580-602. -/
def dualStart (samples : List (Sample Dbl)) (alphas : List Dbl) (index : List Nat) : DIState Dbl :=
  { sub := ⟨alphas, [], .fin 0, .fin 0, index, 0, 0, 0⟩, gamma := .fin 0, saved := List.replicate samples.length (.fin 0),
    rmargin := .fin 0, old := .fin 0, it := 0 }

/-- `IMADual::train`, as in `Model/ImaDual`.  Models IMA.hpp:554-707. -/
def imaDualTrainD (sqrt : Dbl → Dbl) (c : DCfg Dbl) (clock : Nat → Nat → Bool) (k : List Dbl → List Dbl → Dbl) (dim : Nat)
    (samples : List (Sample Dbl)) (alphas : List Dbl) (index : List Nat) (n : Nat) : Res (Bool × DISol Dbl) := do
  let r ← dualLoopD sqrt c clock k dim samples n (dualStart samples alphas index)
  let st := r.1
  pure (st.it ≠ 0,
    { alpha := st.saved, bias := st.sub.bias, margin := st.rmargin,
      svs := (List.range samples.length).filter (fun i => isSupport c (st.sub.alphas.getD i (.fin 0))),
      index := st.sub.index })

end MLTK.Fp
