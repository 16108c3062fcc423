import Verif.Model.Perceptron
import Verif.Model.Point
/-!
# Model of the life of a classifier object: construction, copying, assignment, training again

Sources: ufjfmltk-core/include/ufjfmltk/core/{Learner,Solution}.hpp,
ufjfmltk-classifier/include/ufjfmltk/classifier/{Classifier,PrimalClassifier,DualClassifier,Perceptron}.hpp.

Simplifications: `double` is an ordered field `K`; the timers, the kernel object inside `Solution` and the stored
support vector points are left out; a dataset is its dimension, its samples and its index vector, and the objects that
share one through a `shared_ptr` only read it.
-/
namespace MLTK.Life
open MLTK.Perc
variable {K : Type}

/-- What a trainer reads of a dataset. -/
structure DS (K : Type) where
  dim : Nat
  samples : List (Sample K)
  index : List Nat
  deriving DecidableEq, Repr

/-- `Solution`.  Models Solution.hpp 13-31. -/
structure Sol (K : Type) where
  w : List K
  func : List K
  alpha : List K
  bias : K
  fnames : List Int
  margin : K
  norm : K
  svs : Nat
  deriving DecidableEq, Repr

/-- `Solution()`.  Models Solution.hpp 17-31. -/
def Sol.new [Zero K] : Sol K :=
  { w := [], func := [], alpha := [], bias := 0, fnames := [], margin := 0, norm := 0, svs := 0 }

/-- The components of a point after `p = b`: see `PointM.LPt.assign`; the same loop assigns a `std::vector`.
Models Point.hpp 299-310, 323-346. -/
def pointAssign (x b : List K) : List K := (({ x := x } : PointM.LPt K).assign { x := b }).x

/-- `Solution::operator=`.  Models Solution.hpp 33-45. -/
def Sol.assign (s o : Sol K) : Sol K :=
  { w := pointAssign s.w o.w, func := pointAssign s.func o.func, alpha := o.alpha, bias := o.bias,
    fnames := o.fnames, margin := o.margin, norm := o.norm, svs := o.svs }

/-- Members of `Learner`.  Models Learner.hpp 19-47. -/
structure Learner (K : Type) where
  samples : Option (DS K)
  rate : K
  startTime : K
  maxTime : K
  steps : Nat
  ctot : Nat
  eps : K
  minInc : K
  maxIt : Nat
  maxUp : Nat
  maxEpoch : Nat
  verbose : Int
  seed : Nat
  predProb : K
  deriving DecidableEq, Repr

section
variable [Field K]

/-- The initial values of the members.  Models Learner.hpp 21-47. -/
def Learner.new : Learner K :=
  { samples := none, rate := 1 / 2, startTime := 0, maxTime := 110, steps := 0, ctot := 0, eps := 1 / 10 ^ 7,
    minInc := 1001 / 1000, maxIt := 10 ^ 9, maxUp := 10 ^ 9, maxEpoch := 10 ^ 9, verbose := 1, seed := 0, predProb := 1 }

/-- The copy constructor of `Learner`.  Models Learner.hpp 56-70. -/
def Learner.copy (l : Learner K) : Learner K :=
  { (Learner.new : Learner K) with
    samples := l.samples, eps := l.eps, rate := l.rate, startTime := l.startTime, maxTime := l.maxTime, steps := l.steps,
    ctot := l.ctot, minInc := l.minInc, maxIt := l.maxIt, maxUp := l.maxUp, maxEpoch := l.maxEpoch, verbose := l.verbose,
    seed := l.seed }

/-- Members of `Classifier`.  Models Classifier.hpp 17-27. -/
structure Classifier (K : Type) where
  base : Learner K
  hasInitial : Bool
  sol : Sol K
  gamma : K
  deriving DecidableEq, Repr

/-- A default constructed `Classifier`.  Models Classifier.hpp 19-32. -/
def Classifier.new : Classifier K := { base := Learner.new, hasInitial := false, sol := Sol.new, gamma := 0 }

/-- The copy constructor of `Classifier`: the solution is not mentioned.  Models Classifier.hpp 36-40. -/
def Classifier.copy (c : Classifier K) : Classifier K :=
  { (Classifier.new : Classifier K) with base := c.base.copy, hasInitial := c.hasInitial, gamma := c.gamma }

/-- The implicit copy assignment of `Classifier`, member by member.  Models Classifier.hpp 17-27 (C++ standard). -/
def Classifier.assign (a b : Classifier K) : Classifier K :=
  { base := b.base, hasInitial := b.hasInitial, sol := a.sol.assign b.sol, gamma := b.gamma }

/-- `setSolution`.  Models Classifier.hpp 79. -/
def Classifier.setSolution (c : Classifier K) (s : Sol K) : Classifier K := { c with sol := c.sol.assign s }

/-- `setW`.  Models Classifier.hpp 73. -/
def Classifier.setW (c : Classifier K) (w : List K) : Classifier K :=
  { c with sol := { c.sol with w := pointAssign c.sol.w w } }

/-- Members of `PrimalClassifier`; `PerceptronPrimal` adds none.
Models PrimalClassifier.hpp 16-26, Perceptron.hpp 20-30. -/
structure Primal (K : Type) where
  cls : Classifier K
  w : List K
  q : K
  p : K
  flexible : K
  alphaAprox : K
  deriving DecidableEq, Repr

/-- A default constructed `PrimalClassifier`.  Models PrimalClassifier.hpp 18-28. -/
def Primal.new : Primal K :=
  { cls := Classifier.new, w := [], q := 2, p := 2, flexible := 0, alphaAprox := 0 }

/-- The copy constructor.  Models PrimalClassifier.hpp 33-39. -/
def Primal.copy (o : Primal K) : Primal K :=
  { (Primal.new : Primal K) with
    cls := o.cls.copy, q := o.q, p := o.p, flexible := o.flexible, alphaAprox := o.alphaAprox }

/-- The implicit copy assignment.  Models PrimalClassifier.hpp 16-26 (C++ standard). -/
def Primal.assign (a b : Primal K) : Primal K :=
  { cls := a.cls.assign b.cls, w := b.w, q := b.q, p := b.p, flexible := b.flexible, alphaAprox := b.alphaAprox }

/-- The constructors of `PerceptronPrimal`.  Models Perceptron.hpp 158-176. -/
def newPerceptron (d : DS K) (q rate : K) (initial : Option (Sol K)) : Primal K :=
  let o : Primal K := Primal.new
  { o with
    cls := { o.cls with
      base := { o.cls.base with samples := some d, rate := rate }
      sol := match initial with
        | some s => o.cls.sol.assign s
        | none => o.cls.sol }
    q := q }

/-- `setSamples`.  Models Learner.hpp 150-155. -/
def Primal.setSamples (o : Primal K) (d : DS K) : Primal K :=
  { o with cls := { o.cls with base := { o.cls.base with samples := some d } } }

/-- `setLearningRate`.  Models Learner.hpp 210. -/
def Primal.setRate (o : Primal K) (r : K) : Primal K :=
  { o with cls := { o.cls with base := { o.cls.base with rate := r } } }

/-- `setSteps`.  Models Learner.hpp 165. -/
def Primal.setSteps (o : Primal K) (n : Nat) : Primal K :=
  { o with cls := { o.cls with base := { o.cls.base with steps := n } } }

/-- `setCtot`.  Models Learner.hpp 170. -/
def Primal.setCtot (o : Primal K) (n : Nat) : Primal K :=
  { o with cls := { o.cls with base := { o.cls.base with ctot := n } } }

/-- `setW` of a primal classifier.  Models Classifier.hpp 73. -/
def Primal.setW (o : Primal K) (w : List K) : Primal K := { o with cls := o.cls.setW w }

variable [LinearOrder K]

/-- What `PerceptronPrimal::train` reads of its object. -/
def Primal.start (o : Primal K) : PState K :=
  { w := o.cls.sol.w, bias := o.cls.sol.bias, norm := o.cls.sol.norm, ctot := o.cls.base.ctot, steps := o.cls.base.steps }

/-- The object after `train` has left the members of `s`. -/
def Primal.finish (o : Primal K) (s : PState K) : Primal K :=
  { o with cls := { o.cls with
      base := { o.cls.base with ctot := s.ctot, steps := s.steps }
      sol := { o.cls.sol with w := s.w, bias := s.bias, norm := s.norm } } }

/-- `PerceptronPrimal::train` on the object.  Models Perceptron.hpp 179-226. -/
def Primal.train (m : Libm K) (clock : Nat → Bool) (o : Primal K) : Res (Bool × Primal K) :=
  match o.cls.base.samples with
  | none => .error .badPointer
  | some d =>
    match primalTrain m ⟨o.cls.base.rate, o.cls.base.maxIt, o.cls.base.maxUp⟩ clock d.dim d.samples d.index o.start with
    | .error e => .error e
    | .ok (ok, s) => .ok (ok, o.finish s)

/-- `PrimalClassifier::evaluate`.  Models PrimalClassifier.hpp 42-57, Perceptron.hpp 228-231. -/
def Primal.evaluate (o : Primal K) (x : List K) : Int := primalEvaluate o.cls.sol.w x o.cls.sol.bias

/-- Members of `DualClassifier` and `PerceptronDual`; `initial` tells whether the pointer of that name is set.
Models DualClassifier.hpp 19-25, Perceptron.hpp 50-53. -/
structure Dual (K : Type) where
  cls : Classifier K
  alpha : List K
  initial : Bool
  deriving DecidableEq, Repr

/-- A default constructed `PerceptronDual`.  Models DualClassifier.hpp 19-25, Perceptron.hpp 52-54. -/
def Dual.new : Dual K := { cls := Classifier.new, alpha := [], initial := false }

/-- The implicit copy constructor: the base class part is copied by `Classifier`'s, the rest member by member.
Models DualClassifier.hpp 15-25 (C++ standard). -/
def Dual.copy (o : Dual K) : Dual K := { cls := o.cls.copy, alpha := o.alpha, initial := o.initial }

/-- `PerceptronDual(samples, kernel_type, kernel_param, rate, initial_solution)`: `initial` keeps its null.
Models Perceptron.hpp 376-386. -/
def newDual (d : DS K) (rate : K) (initial : Option (Sol K)) : Dual K :=
  let o : Dual K := Dual.new
  { o with
    cls := { o.cls with
      base := { o.cls.base with samples := some d, rate := rate }
      sol := match initial with
        | some s => o.cls.sol.assign s
        | none => o.cls.sol }
    alpha := match initial with
      | some s => s.alpha
      | none => [] }

/-- `PerceptronDual(samples, rate, initial_solution)`.  Models Perceptron.hpp 388-398. -/
def newDualLinear (d : DS K) (rate : K) (initial : Option (Sol K)) : Dual K :=
  { newDual d rate initial with initial := initial.isSome }

/-- `setSamples`.  Models Learner.hpp 150-155. -/
def Dual.setSamples (o : Dual K) (d : DS K) : Dual K :=
  { o with cls := { o.cls with base := { o.cls.base with samples := some d } } }

/-- `w.resize(n)`. -/
def resizeTo (w : List K) (n : Nat) : List K := w.take n ++ List.replicate (n - w.length) 0

/-- `w[j] += alpha[i] * Y(i) * X(i)[j]` over all samples and components, added to what `w` holds.
Models Perceptron.hpp 455-461. -/
def addWeights (dim : Nat) (alpha : List K) (samples : List (Sample K)) (w : List K) : List K :=
  (List.range dim).map (fun j => (List.range samples.length).foldl
    (fun a i => a + alpha.getD i 0 * (samples.getD i default).y * (samples.getD i default).x.getD j 0) (w.getD j 0))

/-- What the loop of `PerceptronDual::train` starts from: `norm` and `bias` are read before the solution is reset.
Models Perceptron.hpp 403-404. -/
def Dual.start (o : Dual K) : DState K :=
  { alpha := o.alpha, bias := o.cls.sol.bias, norm := o.cls.sol.norm, ctot := o.cls.base.ctot, steps := o.cls.base.steps }

/-- The object after `train`: `if(!initial) solution = Solution();`, then the results are stored.
Models Perceptron.hpp 419-421, 450-461. -/
def Dual.finish (o : Dual K) (d : DS K) (s : DState K) : Dual K :=
  let sol := if o.initial then o.cls.sol else o.cls.sol.assign Sol.new
  { o with
    alpha := s.alpha
    cls := { o.cls with
      base := { o.cls.base with ctot := s.ctot, steps := s.steps }
      sol := { sol with bias := s.bias, norm := s.norm, alpha := s.alpha, margin := 0,
                        w := addWeights d.dim s.alpha d.samples (resizeTo sol.w d.dim) } } }

/-- `PerceptronDual::train` on the object, `kv` being the kernel matrix it gets.  Models Perceptron.hpp 400-464. -/
def Dual.train (m : Libm K) (clock : Nat → Bool) (kv : Nat → Nat → K) (o : Dual K) : Res (Bool × Dual K) :=
  match o.cls.base.samples with
  | none => .error .badPointer
  | some d =>
    match dualTrain m ⟨o.cls.base.rate, o.cls.base.maxIt, o.cls.base.maxUp⟩ clock kv d.dim d.samples o.start with
    | .error e => .error e
    | .ok (ok, s, _) => .ok (ok, o.finish d s)

/-- `DualClassifier::evaluate` at `x`, `k` being its kernel values with the samples.  Models DualClassifier.hpp 28-44. -/
def Dual.evaluate (o : Dual K) (x : List K) (k : Nat → K) : Res Int :=
  match o.cls.base.samples with
  | none => .error .badPointer
  | some d => dualEvaluate d.dim o.cls.sol.alpha d.samples o.cls.sol.bias x k

end
end MLTK.Life
