import Verif.Model.Voting
/-!
# Model of the multi-class wrappers as objects

Sources: ufjfmltk-classifier/include/ufjfmltk/classifier/OneVsOne.hpp and OneVsAll.hpp.  `Model/Voting` models what each
base learner is trained on and how the answers are combined; here the wrappers are objects: the base learners are made once,
by the constructor, from the classes of the dataset given then.

Simplifications: a dataset is its list of classes and its labelled samples (what the copies made during training contain is
C44/C45); a class of base learners is what `train` makes of a learner and a dataset, and what `evaluate` answers; `double`
is an ordered field.
-/
namespace MLTK.Multi
variable {X M K : Type}

/-- A dataset: `classes()` and the samples with their labels. -/
structure DS (X : Type) where
  classes : List Int
  samples : List (X × Int)
  deriving DecidableEq, Repr

/-- A class of base learners: `setSamples(d); train()`, `evaluate(p, raw)` and `getFormulationString()`. -/
structure Base (X M K : Type) where
  fit : M → DS X → Res M
  ans : M → X → Bool → Res K
  form : M → String

/-- A `OneVsOne`: `samples`, `base_learners` (a null pointer is `none`) and `samp_method`.  Models OneVsOne.hpp 19-25. -/
structure OvO (X M : Type) where
  data : Option (DS X)
  learners : List (List (Option M))
  over : Option (DS X → DS X)

/-- `OneVsOne(samples, classifier, samp_method)`.  Models OneVsOne.hpp 30-52. -/
def newOvO (d : DS X) (base : M) (over : Option (DS X → DS X)) : OvO X M :=
  ⟨some d, d.classes.map (fun ci => d.classes.map (fun cj => if ci ≠ cj then some base else none)), over⟩

/-- `OneVsOne(classifier, samp_method)`: the dataset is that of the classifier.  Models OneVsOne.hpp 54-76. -/
def newOvOFrom (base : M) (samplesOf : M → Option (DS X)) (over : Option (DS X → DS X)) : Res (OvO X M) :=
  match samplesOf base with
  | none => .error .badPointer
  | some d => .ok (newOvO d base over)

/-- `setSamples`: only the dataset changes.  Models Learner.hpp 150. -/
def OvO.setSamples (o : OvO X M) (d : DS X) : OvO X M := { o with data := some d }

/-- `classesCopy`, `setClasses({-1, 1})` and the relabelling.  Models OneVsOne.hpp 98-103. -/
def pairData (d : DS X) (ci cj : Int) : DS X :=
  ⟨[-1, 1], (d.samples.filter (fun s => decide (s.2 ∈ [ci, cj]))).map (fun s => (s.1, if s.2 = ci then 1 else -1))⟩

/-- The optional over-sampling.  Models OneVsOne.hpp 106-109, OneVsAll.hpp 71-74. -/
def applyOver (over : Option (DS X → DS X)) (t : DS X) : DS X :=
  match over with
  | none => t
  | some f => f t

/-- The body of the two loops of `train`.  Models OneVsOne.hpp 92-115. -/
def OvO.trainPair (B : Base X M K) (o : OvO X M) (d : DS X) (ls : List (List (Option M))) (ij : Nat × Nat) :
    Res (List (List (Option M))) := do
  let ci ← vget d.classes ij.1
  let cj ← vget d.classes ij.2
  if ci ≠ cj then do
    let row ← vget ls ij.1
    let l ← vget row ij.2
    match l with
    | none => .error .badPointer
    | some m => do
      let m ← B.fit m (applyOver o.over (pairData d ci cj))
      let row ← vset row ij.2 (some m)
      vset ls ij.1 row
  else .ok ls

/-- The pairs of positions visited by two nested loops. -/
def pairsOf (n m : Nat) : List (Nat × Nat) := (List.range n).flatMap (fun i => (List.range m).map (fun j => (i, j)))

/-- `OneVsOne::train`.  Models OneVsOne.hpp 85-119. -/
def OvO.train (B : Base X M K) (o : OvO X M) : Res (Bool × OvO X M) := do
  match o.data with
  | none => .error .badPointer
  | some d => do
    let ls ← (pairsOf d.classes.length d.classes.length).foldlM (OvO.trainPair B o d) o.learners
    return (true, { o with learners := ls })

/-- The body of the inner loop of `evaluate`.  Models OneVsOne.hpp 129-135. -/
def OvO.vote [One K] [DecidableEq K] (B : Base X M K) (classes : List Int) (x : X) (i : Nat) (votes : List Nat)
    (jl : Option M × Nat) : Res (List Nat) := do
  let ci ← vget classes i
  let cj ← vget classes jl.2
  if ci ≠ cj then
    match jl.1 with
    | none => .error .badPointer
    | some m => do
      let a ← B.ans m x false
      if a = 1 then Vote.addAt votes i 1 else Vote.addAt votes jl.2 1
  else .ok votes

/-- `OneVsOne::evaluate`: the loops run over the learners, not over the classes.  Models OneVsOne.hpp 121-142. -/
def OvO.evaluate [One K] [DecidableEq K] (B : Base X M K) (o : OvO X M) (x : X) : Res Int := do
  match o.data with
  | none => .error .badPointer
  | some d => do
    let votes ← o.learners.zipIdx.foldlM
      (fun v (row : List (Option M) × Nat) => row.1.zipIdx.foldlM (OvO.vote B d.classes x row.2) v)
      (List.replicate d.classes.length 0)
    vget d.classes (Vote.maxElement votes)

/-- `OneVsOne::getFormulationString`.  Models OneVsOne.hpp 144-147. -/
def OvO.formulation (B : Base X M K) (o : OvO X M) : Res String := do
  let row ← vget o.learners 0
  match ← vget row 1 with
  | none => .error .badPointer
  | some m => return B.form m

/-- A `OneVsAll`.  Models OneVsAll.hpp 17-26. -/
structure OvA (X M : Type) where
  data : Option (DS X)
  learners : List M
  over : Option (DS X → DS X)

/-- `OneVsAll() = default`.  Models OneVsAll.hpp 28 (`samp_method` is then uninitialised; it is not read when there are no
learners, and is `none` here). -/
def emptyOvA : OvA X M := ⟨none, [], none⟩

/-- `OneVsAll(samples, classifier, samp_method)`.  Models OneVsAll.hpp 30-44. -/
def newOvA (d : DS X) (base : M) (over : Option (DS X → DS X)) : OvA X M :=
  ⟨some d, d.classes.map (fun _ => base), over⟩

/-- `setSamples`.  Models Learner.hpp 150. -/
def OvA.setSamples (o : OvA X M) (d : DS X) : OvA X M := { o with data := some d }

/-- The copy with the labels of learner `cur`; `classes[current_class]` is read once per sample.
Models OneVsAll.hpp 63-68. -/
def allData (d : DS X) (cur : Nat) : Res (DS X) := do
  let ss ← d.samples.mapM (fun s => do
    let c ← vget d.classes cur
    return (s.1, if s.2 = c then 1 else -1))
  return ⟨[-1, 1], ss⟩

/-- `OneVsAll::train`.  Models OneVsAll.hpp 54-85. -/
def OvA.train (B : Base X M K) (o : OvA X M) : Res (Bool × OvA X M) := do
  match o.data with
  | none => .error .badPointer
  | some d => do
    let ls ← o.learners.zipIdx.mapM (fun (l : M × Nat) => do
      let t ← allData d l.2
      B.fit l.1 (applyOver o.over t))
    return (true, { o with learners := ls })

/-- `OneVsAll::evaluate`.  Models OneVsAll.hpp 87-101. -/
def OvA.evaluate [LinearOrder K] (B : Base X M K) (o : OvA X M) (x : X) : Res Int := do
  match o.data with
  | none => .error .badPointer
  | some d => do
    let vals ← o.learners.mapM (fun m => B.ans m x true)
    vget d.classes (Vote.maxElement vals)

/-- `OneVsAll::getFormulationString`.  Models OneVsAll.hpp 103-106. -/
def OvA.formulation (B : Base X M K) (o : OvA X M) : Res String := do
  let m ← vget o.learners 0
  return B.form m

end MLTK.Multi
