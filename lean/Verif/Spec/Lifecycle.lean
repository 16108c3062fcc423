import Verif.Model.Lifecycle
/-!
# Specification: copies, solutions and repeated training
-/
namespace MLTK.Spec
open MLTK.Life
variable {K : Type}

/-- Two primal classifiers have the same samples, the same parameters and the same counters. -/
structure SameSettings (a b : Primal K) : Prop where
  samples : a.cls.base.samples = b.cls.base.samples
  rate : a.cls.base.rate = b.cls.base.rate
  time : a.cls.base.startTime = b.cls.base.startTime ∧ a.cls.base.maxTime = b.cls.base.maxTime
  counters : a.cls.base.steps = b.cls.base.steps ∧ a.cls.base.ctot = b.cls.base.ctot
  precision : a.cls.base.eps = b.cls.base.eps ∧ a.cls.base.minInc = b.cls.base.minInc
  limits : a.cls.base.maxIt = b.cls.base.maxIt ∧ a.cls.base.maxUp = b.cls.base.maxUp ∧
    a.cls.base.maxEpoch = b.cls.base.maxEpoch
  verbose : a.cls.base.verbose = b.cls.base.verbose
  seed : a.cls.base.seed = b.cls.base.seed
  initial : a.cls.hasInitial = b.cls.hasInitial
  gamma : a.cls.gamma = b.cls.gamma
  norms : a.q = b.q ∧ a.p = b.p
  flexible : a.flexible = b.flexible
  approximation : a.alphaAprox = b.alphaAprox

/-- Two classifiers give the same answer to every point. -/
def AnswersAlike [Field K] [LinearOrder K] (a b : Primal K) : Prop := ∀ x, a.evaluate x = b.evaluate x

/-- The part of a classifier that training determines: weights, bias, norm and counters. -/
def outcome (o : Primal K) : List K × K × K × Nat × Nat :=
  (o.cls.sol.w, o.cls.sol.bias, o.cls.sol.norm, o.cls.base.ctot, o.cls.base.steps)

/-- A classifier that has not been trained and was given no solution. -/
def Untouched [Zero K] (o : Primal K) : Prop := o.cls.sol = Sol.new ∧ o.cls.base.steps = 0 ∧ o.cls.base.ctot = 0

end MLTK.Spec
