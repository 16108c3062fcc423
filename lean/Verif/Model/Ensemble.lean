import Verif.Model.Balanced
import Verif.Model.Lifecycle
import Verif.Model.Neighbors
import Verif.Model.Voting
/-!
# Model of the objects behind an ensemble: who shares which learner and which dataset

Sources: ufjfmltk-ensemble/include/ufjfmltk/ensemble/{Ensemble,VotingClassifier,BaggingClassifier}.hpp,
ufjfmltk-core/include/ufjfmltk/core/Learner.hpp.

The datasets and the learners behind the `shared_ptr`s are the cells of two lists, the pointers are positions.  A class of
learners is what its `train` does to the learner and to the dataset it points to, and what its `evaluate` answers.
Simplifications: `evaluate` of a member does not change the member; a dataset given by value is stored as it is (that a
copied dataset equals the original is C02); labels are integers and `double` is an ordered field.
-/
namespace MLTK.Ens
variable {D M X K : Type}

/-- A class of learners: `fit seed learner dataset` is `train`, `ans learner dataset point` is `evaluate`.
Models the virtual functions of Learner.hpp 77-83. -/
structure Kind (D M X : Type) where
  fit : Nat → M → D → Res (M × D)
  ans : M → D → X → Res Int

/-- A learner: its class, the members `samples` and `seed`, and what training leaves in it.  Models Learner.hpp 19-47. -/
structure Cell (D M X : Type) where
  kind : Kind D M X
  data : Option Nat
  seed : Nat
  model : M

/-- The datasets and learners behind the pointers. -/
structure World (D M X : Type) where
  sets : List D
  cells : List (Cell D M X)

/-- A `VotingClassifier`.  Models VotingClassifier.hpp 13-16, Ensemble.hpp 18-24, Learner.hpp 20, 46. -/
structure Voter (K : Type) where
  data : Option Nat
  seed : Nat
  members : List Nat
  weights : List K
  votingType : String
  deriving DecidableEq, Repr

/-- `VotingClassifier(samples, voting_type, weak_learners...)`; `ls` are the copies of the learners.
Models VotingClassifier.hpp 21-26. -/
def newVoter (w : World D M X) (d : D) (type : String) (ls : List (Cell D M X)) : World D M X × Voter K :=
  (⟨w.sets ++ [d], w.cells ++ ls⟩,
   ⟨some w.sets.length, 0, List.range' w.cells.length ls.length, [], type⟩)

/-- `setSamples(DataPointer)` of an ensemble.  Models Ensemble.hpp 56-61, Learner.hpp 155. -/
def setSamplesPtr (w : World D M X) (v : Voter K) (p : Nat) : Res (World D M X × Voter K) := do
  let cells ← v.members.foldlM (fun cs i => do
    let c ← vget cs i
    vset cs i { c with data := some p }) w.cells
  return ({ w with cells := cells }, { v with data := some p })

/-- `setSamples(const Data&)`: `Ensemble` does not override it.  Models Learner.hpp 150. -/
def setSamplesRef (w : World D M X) (v : Voter K) (d : D) : World D M X × Voter K :=
  ({ w with sets := w.sets ++ [d] }, { v with data := some w.sets.length })

/-- `setSeed`.  Models Learner.hpp 145. -/
def setSeed (v : Voter K) (s : Nat) : Voter K := { v with seed := s }

/-- The body of the loop of `train` for member `i`.  Models VotingClassifier.hpp 31-33. -/
def trainMember (v : Voter K) (w : World D M X) (i : Nat) : Res (World D M X) := do
  let c ← vget w.cells i
  match v.data with
  | none => .error .badPointer
  | some p => do
    let d ← vget w.sets p
    let (m, d) ← c.kind.fit v.seed c.model d
    let sets ← vset w.sets p d
    let cells ← vset w.cells i { c with data := some p, seed := v.seed, model := m }
    return ⟨sets, cells⟩

/-- `VotingClassifier::train`.  Models VotingClassifier.hpp 28-36. -/
def train (w : World D M X) (v : Voter K) : Res (World D M X) := v.members.foldlM (trainMember v) w

/-- `m_learners[i]->evaluate(p)`. -/
def answer (w : World D M X) (x : X) (i : Nat) : Res Int := do
  let c ← vget w.cells i
  match c.data with
  | none => .error .badPointer
  | some p => do
    let d ← vget w.sets p
    c.kind.ans c.model d x

/-- The answers of the members.  Models VotingClassifier.hpp 46-47. -/
def answers (w : World D M X) (v : Voter K) (x : X) : Res (List Int) := v.members.mapM (answer w x)

/-- `VotingClassifier::evaluate`; `classes d` is `d.classes()`.  Models VotingClassifier.hpp 38-57. -/
def evaluate [Field K] [LinearOrder K] (classes : D → List Int) (w : World D M X) (v : Voter K) (x : X) :
    Res (Voter K × Int) := do
  match v.data with
  | none => .error .badPointer
  | some p => do
    let d ← vget w.sets p
    let preds ← answers w v x
    let (u, c) ← Vote.evaluateVoting ⟨v.weights, v.votingType == "soft"⟩ (classes d) preds
    return ({ v with weights := u.weights }, c)

/-- The implicit copy constructor of `VotingClassifier`: the vector of `shared_ptr`s and the pointer to the samples are
copied, not what they point to.  Models Ensemble.hpp 20-24, VotingClassifier.hpp 15-16, Learner.hpp 56-70
(C++ standard). -/
def copy (v : Voter K) : Voter K :=
  { data := v.data, seed := v.seed, members := v.members, weights := v.weights, votingType := v.votingType }

/-- The constructor of `BaggingClassifier` with an ensemble as base estimator: `n` copies of it.
Models BaggingClassifier.hpp 20-29. -/
def bagOf (base : Voter K) (n : Nat) : List (Voter K) := List.replicate n (copy base)

/-- The loop of `BaggingClassifier::train` over estimators that are ensembles: estimator `i` gets its seed and its sample.
Models BaggingClassifier.hpp 36-41. -/
def bagTrain (w : World D M X) : List (Voter K × Nat × D) → Res (World D M X × List (Voter K))
  | [] => .ok (w, [])
  | (v, s, d) :: rest => do
    let v := setSeed v s
    let (w, v) := setSamplesRef w v d
    let w ← train w v
    let (w, vs) ← bagTrain w rest
    return (w, v :: vs)

/-! ### Three classes of learners -/
section
variable [Field K] [LinearOrder K]

/-- The inner product of two points. -/
def inner (x y : List K) : K := (List.zipWith (· * ·) x y).sum

/-- What a member that is a `PerceptronDual` or a `BalancedPerceptron` stores. -/
inductive Model (K : Type) where
  | dual (o : Life.Dual K)
  | balanced (w : List K) (bias : K)
  deriving DecidableEq, Repr

/-- `PerceptronDual` with the linear kernel: `train` reads the dataset, `evaluate` pairs the stored multipliers with the
samples in their current order.  Models Perceptron.hpp 400-464, DualClassifier.hpp 28-44. -/
def dualKind (m : Perc.Libm K) (clock : Nat → Bool) : Kind (Life.DS K) (Model K) (List K) where
  fit _ o d := match o with
    | .dual o => do
      let (_, o) ← (o.setSamples d).train m clock
        (fun i j => inner (d.samples.getD i default).x (d.samples.getD j default).x)
      return (.dual o, d)
    | .balanced _ _ => .error .exception
  ans o d x := match o with
    | .dual o => (o.setSamples d).evaluate x (fun r => inner x (d.samples.getD r default).x)
    | .balanced _ _ => .error .exception

/-- `BalancedPerceptron`: `train` shuffles the dataset it points to.  `w0 seed dim` are the random start weights and
`shuf seed` is `std::shuffle`.  Models Perceptron.hpp 93-153, Data.hpp 1349-1356. -/
def balancedKind (c : Bal.BCfg K) (late : Nat → Bool) (w0 : Nat → Nat → List K)
    (shuf : Nat → List (Perc.Sample K) → List (Perc.Sample K)) : Kind (Life.DS K) (Model K) (List K) where
  fit s _ d := do
    let samples := shuf s d.samples
    let (_, w, bias) ← Bal.balTrain c late samples (w0 s d.dim)
    return (.balanced w bias, { d with samples := samples, index := List.range samples.length })
  ans o _ x := match o with
    | .balanced w bias => do
      let f ← Bal.balEvaluate w bias x false
      return if f = 1 then 1 else -1
    | .dual _ => .error .exception

/-- What a nearest-neighbour classifier reads of a dataset. -/
structure KSet (T : Type) where
  dim : Nat
  samples : List (Pt T)
  classes : List Int

/-- `KNNClassifier`: `train` does nothing, `evaluate` looks at the samples.  Models KNNClassifier.hpp 60-149. -/
def knnKind {T : Type} (nth : Knn.NthFn) (c : Knn.Cfg K) (dist : List T → List T → Res K) : Kind (KSet T) Unit (Pt T) where
  fit _ m d := .ok (m, d)
  ans _ d p := do
    let (r, _) ← Knn.evaluate nth c dist d.dim d.samples d.classes p
    return r

end
end MLTK.Ens
