import Verif.Model.IMA
import Verif.Model.Kernel
/-!
# The dual incremental margin algorithm (`IMADual`) and the weights of dual classifiers

Simplifications: those of `Model/Perceptron` and `Model/IMA`.  The classifier and its fixed-margin trainer share the dataset,
so the `Alpha` values of its points and its index live in the state of that trainer.  The kernel matrix is a function
`kv`.  `solution.norm` (see `Kernel.norm`) and the printed report are left out.
-/
namespace MLTK.IMA
open MLTK.Perc

section
variable {K : Type} [Field K] [LinearOrder K]

/-- Settings of `IMADual` read by `train`.  Models Learner.hpp:21-41, Classifier.hpp (MIN_INC, EPS). -/
structure DCfg (K : Type) where
  rate : K
  eps : K
  minInc : K
  maxIt : Nat
  maxUp : Nat
  big : K

/-- State of `IMADual::train` between rounds: the fixed-margin trainer (with the points' `Alpha`), `gamma`,
`saved_alphas`, `rmargin`, `old_rmargin` and `it`.  Models IMA.hpp:555-562, 586-602. -/
structure DIState (K : Type) where
  sub : GState K
  gamma : K
  saved : List K
  rmargin : K
  old : K
  it : Nat
  deriving DecidableEq, Repr

/-- `saved_alphas`: the `Alpha` values above `EPS * rate`, zero for the others.  Models IMA.hpp:615-620. -/
def keepAlphas (c : DCfg K) (alphas : List K) : List K :=
  alphas.map (fun a => if a > c.eps * c.rate then a else 0)

/-- The loop body up to `++it` after a successful fixed-margin run that left `s`.  Models IMA.hpp:605-638. -/
def dualRound (c : DCfg K) (s : GState K) (st : DIState K) : DIState K :=
  let ext := extremes s.norm s.func (none, none)
  let mn := ext.1.getD c.big
  let mx := ext.2.getD (-c.big)
  let rmargin := if |mn| > |mx| then |mx| else |mn|
  let gamma := (mn - mx) / 2
  { sub := s,
    gamma := if gamma < c.minInc * rmargin then c.minInc * rmargin else gamma,
    saved := keepAlphas c s.alphas,
    rmargin := rmargin,
    old := st.old,
    it := st.it + 1 }

/-- `while (percDual.train()) { … }` with at most `n` rounds; `diverges` if they do not suffice (they do, see C107).  The
second component tells whether the loop ended by `break`.  `clock it` is the timer of the fixed-margin run in round `it`.
Dividing by a zero norm is not finite.  Models IMA.hpp:604-643. -/
def dualLoop (m : Libm K) (c : DCfg K) (clock : Nat → Nat → Bool) (kv : Nat → Nat → K) (samples : List (Sample K)) :
    Nat → DIState K → Res (DIState K × Bool)
  | 0, _ => .error .diverges
  | n+1, st => do
    let r ← gTrain m ⟨c.rate, st.gamma, 0, c.eps, .two, c.maxIt, c.maxUp⟩ (clock st.it) kv samples st.sub
    if r.1 = false then .ok ({ st with sub := r.2 }, false)
    else if r.2.norm = 0 ∧ samples ≠ [] then .error .nonFinite
    else
      let st' := dualRound c r.2 st
      if st'.rmargin - st'.old < c.eps then .ok (st', true)
      else dualLoop m c clock kv samples n { st' with old := st'.rmargin }

/-- What `IMADual::train` leaves: `solution.alpha` (also the points' `Alpha`), `solution.bias`, `solution.margin`, `svs` (from an
empty list) and the order of the samples. -/
structure DISol (K : Type) where
  alpha : List K
  bias : K
  margin : K
  svs : List Nat
  index : List Nat
  deriving DecidableEq, Repr

/-- `IMADual::train` on samples whose points hold the `Alpha` values `alphas` and whose dataset is in order `index`, with at
most `n` rounds: the answer, what is left, and (not visible to the caller) whether the loop ended by `break`.
Models IMA.hpp:554-707. -/
def imaDualTrain (m : Libm K) (c : DCfg K) (clock : Nat → Nat → Bool) (kv : Nat → Nat → K) (samples : List (Sample K))
    (alphas : List K) (index : List Nat) (n : Nat) : Res (Bool × DISol K × Bool) := do
  let r ← dualLoop m c clock kv samples n
    { sub := ⟨alphas, [], 0, 0, index, 0, 0, 0⟩, gamma := 0, saved := List.replicate samples.length 0, rmargin := 0,
      old := 0, it := 0 }
  let st := r.1
  pure (st.it ≠ 0,
    { alpha := st.saved, bias := st.sub.bias, margin := st.rmargin,
      svs := (List.range samples.length).filter (fun i => st.sub.alphas.getD i 0 > c.eps * c.rate),
      index := st.sub.index }, r.2)

/-- `DualClassifier::getDualWeightProdInt` for the points' `Alpha` values.  Models DualClassifier.hpp:155-178. -/
def prodIntWeights (dim : Nat) (alpha : List K) (samples : List (Sample K)) : List K :=
  (List.range dim).map (fun k =>
    let H := fun i j => (samples.getD i default).x.getD k 0 * (samples.getD j default).x.getD k 0 *
      (samples.getD i default).y * (samples.getD j default).y
    let aux := fun i => (List.range samples.length).foldl (fun a j => a + alpha.getD j 0 * H i j) 0
    (List.range samples.length).foldl (fun a i => a + aux i * alpha.getD i 0) 0)

end

/-- One component of `DualClassifier::getDualWeight`, from the two matrices.  Models DualClassifier.hpp:136-145. -/
def dualWeightAt (n : Nat) (alpha : List ℝ) (H Hk : List (List ℝ)) : Res ℝ := do
  let diff ← (List.range n).mapM (fun i => (List.range n).mapM (fun j => do
    let a ← Kernel.get2 H i j
    let b ← Kernel.get2 Hk i j
    pure (a - b)))
  let aux ← (List.range n).mapM (fun i => (List.range n).foldlM (fun s j => do
    let a ← vget alpha j
    let d ← Kernel.get2 diff i j
    pure (s + a * d)) (0 : ℝ))
  (List.range n).foldlM (fun s i => do
    let x ← vget aux i
    let a ← vget alpha i
    pure (s + x * a)) 0

/-- `DualClassifier::getDualWeight`: the weights and the kernel object afterwards.  Models DualClassifier.hpp:123-149. -/
noncomputable def getDualWeight (k : Kernel.Kern) (dim : Nat) (xs : List (List ℝ)) (ys alpha : List ℝ) :
    Res (List ℝ × Kernel.Kern) := do
  let k' ← Kernel.generateMatrixH k dim xs ys
  let w ← (List.range dim).mapM (fun d => do
    let Hk ← Kernel.generateMatrixHwithoutDim k' d dim xs ys
    dualWeightAt xs.length alpha k'.H Hk)
  pure (w, k')

end MLTK.IMA
