import Verif.Model.Balanced
import Verif.Model.RandomInit
import Verif.Model.Voting
/-!
# `PerceptronCommittee`

Source: ufjfmltk-ensemble/include/ufjfmltk/ensemble/PerceptronCommittee.hpp.

Simplifications: those of `Model/Balanced` and `Model/RandomInit`; the dataset is the list of its samples in their current
order with its classes.  `shuf s` is `std::shuffle` with `std::mt19937(s)`; the numbers `std::random_device` delivers are
parameters.  The member `epslon` is never read.
-/
namespace MLTK.Committee
open MLTK.Perc (Sample)
open MLTK.Bal (BCfg)

section
variable {K : Type} [Field K] [LinearOrder K]

/-- What a committee holds: its samples, their classes, the number of perceptrons, the seed given with `setSeed` and the
weights and biases of its trained members.  Models PerceptronCommittee.hpp:12-18, Learner.hpp:20, 46, 145. -/
structure Com (K : Type) where
  dim : Nat
  samples : List (Sample K)
  classes : List Int
  n : Nat
  seed : Nat
  members : List (List K × K)

/-- The seed of a member: it is made with the default constructor.  Models PerceptronCommittee.hpp:23, Learner.hpp:46. -/
def memberSeed : Nat := 0

/-- How one training is done: the settings of a member (all defaults) and its clock, and where random numbers come from. -/
structure World (K : Type) where
  cfg : BCfg K
  late : Nat → Nat → Bool
  draw : Rng.Mt → K × Rng.Mt
  shuf : Nat → List (Sample K) → List (Sample K)
  dev : Nat → Nat

/-- Training of member `i`: start weights from the program's generator, the common samples shuffled, training.  Returns the
samples in their new order, the generator, and the answer, weights and bias of the member.
Models PerceptronCommittee.hpp:23-25, Perceptron.hpp:93-145, Data.hpp:1349-1351. -/
def trainMember (W : World K) (dim i : Nat) (samples : List (Sample K)) (g : Rng.State) :
    Res (List (Sample K) × Rng.State × Bool × List K × K) := do
  let w := Rng.randomInto W.draw { x := [], y := 0 } dim memberSeed (W.dev (2 * i)) g
  let samples := W.shuf (if memberSeed = 0 then W.dev (2 * i + 1) else memberSeed) samples
  let r ← Bal.balTrain W.cfg (W.late i) samples w.1.x
  pure (samples, w.2, r)

/-- The members `i, i+1, ...`, `n` of them: the samples, the generator and what the members answered and learned. -/
def trainAll (W : World K) (dim : Nat) : Nat → Nat → List (Sample K) → Rng.State →
    Res (List (Sample K) × Rng.State × List (Bool × List K × K))
  | 0, _, samples, g => .ok (samples, g, [])
  | n + 1, i, samples, g => do
    let r ← trainMember W dim i samples g
    let rest ← trainAll W dim n (i + 1) r.1 r.2.1
    pure (rest.1, rest.2.1, r.2.2 :: rest.2.2)

/-- `train`: what the members answer is not looked at.  Models PerceptronCommittee.hpp:20-28. -/
def Com.train (W : World K) (com : Com K) (g : Rng.State) : Res (Bool × Com K × Rng.State) := do
  let r ← trainAll W com.dim com.n 0 com.samples g
  pure (true, { com with samples := r.1, members := r.2.2.map Prod.snd }, r.2.1)

/-- What a member answers.  Models PerceptronCommittee.hpp:35, Perceptron.hpp:147-153. -/
def answer (m : List K × K) (x : List K) : Res Int := do
  let f ← Bal.balEvaluate m.1 m.2 x false
  pure (if f = 1 then 1 else -1)

/-- `evaluate`.  Models PerceptronCommittee.hpp:30-46. -/
def Com.evaluate (com : Com K) (x : List K) : Res Int := do
  let preds ← com.members.mapM (fun m => answer m x)
  Vote.evaluateCommittee (K := K) com.classes preds

end
end MLTK.Committee
