import Mathlib.Algebra.Ring.Defs
import Mathlib.Order.Defs.LinearOrder
import Mathlib.Data.Finset.Basic
import Mathlib.Data.Finset.Card
import Verif.Spec.Data
/-!
# What over-sampling and artificial datasets mean
-/
namespace MLTK.Spec
open MLTK.Data

/-- Features and label of a sample. -/
def labelledPoint {K : Type} (p : Pt K) : List K × Int := (p.x, p.y)

/-- A class with the fewest samples. -/
def MinorityClass (ls : List Int) (c : Int) : Prop := c ∈ ls ∧ ∀ c' ∈ ls, ls.count c ≤ ls.count c'

/-- `p` lies on the segment between `a` and `b`. -/
def OnSegment {K : Type} [Ring K] [LE K] (a b p : List K) : Prop :=
  ∃ t : K, 0 ≤ t ∧ t ≤ 1 ∧ p = List.zipWith (fun u v => u + t * (v - u)) a b

/-- `p` lies on the line through `a` and `b`, at parameter `t` beyond `a` (that is, away from `b`). -/
def BeyondPoint {K : Type} [Ring K] (t : K) (a b p : List K) : Prop :=
  p = List.zipWith (fun u v => u + t * (u - v)) a b

/-- The number of distinct non-zero distances from `z` to the samples `Z`. -/
def distinctDistances {K : Type} [Zero K] [DecidableEq K] (dist : List K → List K → K) (Z : List (Pt K)) (z : Pt K) : Nat :=
  ((Z.map (fun p => dist z.x p.x)).toFinset.erase 0).card

/-- `q` is one of the `k` nearest neighbours of `z` among `Z`: fewer than `k` distinct non-zero distances are smaller. -/
def NearNeighbour {K : Type} [Zero K] [LinearOrder K] (dist : List K → List K → K) (Z : List (Pt K)) (k : Nat) (z q : Pt K) :
    Prop :=
  q ∈ Z ∧ dist z.x q.x ≠ 0 ∧ (((Z.map (fun p => dist z.x p.x)).toFinset.erase 0).filter (· < dist z.x q.x)).card < k

/-- The samples with label `c`. -/
def samplesOf {K : Type} (m : Mem K) (d : Data) (c : Int) : List (Pt K) := (samples m d).filter (fun p => p.y = c)

/-- Labels used for `n` groups: -1 and 1 for two of them, otherwise 1, 2, …. -/
def groupLabel (n c : Nat) : Int := if n = 2 then (if c = 0 then -1 else 1) else (c : Int) + 1

/-- The order in which blob points are produced: for every entry of `ns`, that many points around every centre. -/
def blobOrder (ns : List Nat) (centres : Nat) : List Nat :=
  ns.flatMap (fun n => (List.range centres).flatMap (fun c => List.replicate n c))

/-- The features of the `t`-th point: one random number for each coordinate, around the centre. -/
def blobRow {K : Type} [Zero K] (normal : Nat → K → K → K) (centers : List (List K)) (sds : List K) (dims c t : Nat) :
    List K :=
  (List.range dims).map (fun j => normal (t * dims + j) ((centers.getD c []).getD j 0) (sds.getD c 0))

end MLTK.Spec
