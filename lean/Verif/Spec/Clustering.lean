import Mathlib.Algebra.Order.Field.Basic
import Verif.Model.Basic
import Verif.Model.Data
/-!
# What clusters and means are
-/
namespace MLTK.Spec

/-- `c` is the first of the indices `0 … k-1` at which `d` is minimal. -/
def FirstMin {K : Type} [LinearOrder K] (k : Nat) (d : Nat → K) (c : Nat) : Prop :=
  c < k ∧ (∀ j < k, d c ≤ d j) ∧ ∀ j < c, d c < d j

/-- The clusters given by a choice of cluster for every sample: the samples' zero-based ids, in order. -/
def groupBy {K : Type} (k : Nat) (choice : Pt K → Nat) (points : List (Pt K)) : List (List Nat) :=
  (List.range k).map (fun c => (points.filter (fun q => choice q == c)).map (fun q => q.id - 1))

/-- The features of the samples at the given positions. -/
def members {K : Type} (samples : List (Pt K)) (ids : List Nat) : List (List K) :=
  ids.map (fun i => ((samples[i]?).map (·.x)).getD [])

/-- Mean of vectors of dimension `dim`. -/
def meanOf {K : Type} [Field K] (dim : Nat) (xs : List (List K)) : List K :=
  (List.range dim).map (fun j => (xs.map (fun x => x.getD j 0)).sum / (xs.length : K))

/-- Squared Euclidean distance of vectors of dimension `dim`. -/
def squaredGap {K : Type} [Field K] (dim : Nat) (x y : List K) : K :=
  ((List.range dim).map (fun j => (x.getD j 0 - y.getD j 0) ^ 2)).sum

end MLTK.Spec
