import Mathlib.Algebra.Order.Field.Basic
import Verif.Model.Data
import Verif.Model.Point
/-!
# K-means

ufjfmltk-clusterer/include/ufjfmltk/clusterer/KMeans.hpp and Clusterer.hpp.

Simplifications: `double` is an ordered field `K`; the metric `dist` is a parameter; the dataset is the
list of its points, fixed during training; the shuffled order of the points, the random draws and the
clock are parameters; indices are below 2³¹ (`Data::point(int)`); printing is left out.
-/
namespace MLTK.KMeans

/-- `m_centers` and `m_clusters` of a `KMeans`: Clusterer.hpp:24-27. -/
structure KM (K : Type) where
  centers : List (List K) := []
  clusters : List (List Nat) := []
  deriving DecidableEq, Repr

/-- The `initialization` string: KMeans.hpp:25, 102, 114. -/
inductive Init
  | random
  | kmeanspp
  | other

/-- Loop of `std::min_element`. -/
def minLoop {K : Type} [LinearOrder K] : List K → Nat → Nat → K → Nat
  | [], _, best, _ => best
  | x :: l, i, best, v => if x < v then minLoop l (i + 1) i x else minLoop l (i + 1) best v

/-- `std::min_element(v.begin(), v.end()) - v.begin()`. -/
def minElement {K : Type} [LinearOrder K] : List K → Nat
  | [] => 0
  | x :: l => minLoop l 1 0 x

section
variable {K : Type} [Field K] [LinearOrder K]

/-- The constructor: KMeans.hpp:48-56. -/
def create (k dim : Nat) : KM K :=
  { centers := List.replicate k (List.replicate dim 0), clusters := List.replicate k [] }

/-- One sample of `assign_clusters`: KMeans.hpp:63-71. -/
def assignOne (dist : List K → List K → Res K) (st : KM K × K) (q : Pt K) : Res (KM K × K) := do
  let ds ← st.1.centers.mapM (fun c => dist q.x c)
  let cl ← vget st.1.clusters (minElement ds)
  let cls ← vset st.1.clusters (minElement ds) (cl ++ [decSize q.id])
  let d ← vget ds (minElement ds)
  pure ({ st.1 with clusters := cls }, st.2 + d * d)

/-- `assign_clusters(points)`; returns the cost.  KMeans.hpp:58-73. -/
def assignClusters (dist : List K → List K → Res K) (s : KM K) (points : List (Pt K)) : Res (KM K × K) :=
  points.foldlM (assignOne dist) (s, 0)

/-- `m_centers[i] += *samples->point(id)` for the ids of a cluster: KMeans.hpp:79-81. -/
def addSamples (samples : List (Pt K)) (center : List K) (ids : List Nat) : Res (List K) :=
  ids.foldlM (fun (c : List K) (id : Nat) => do
    let p ← vget samples id
    PointM.compound (· + ·) c p.x) center

/-- `center /= m_clusters[i].size()`: KMeans.hpp:86; dividing by zero leaves no finite number. -/
def divCenter (c : List K) (n : Nat) : Res (List K) :=
  if n = 0 ∧ c ≠ [] then .error .nonFinite else .ok (c.map (· / (n : K)))

/-- One centre of `compute_centers`. -/
def newCenter (samples : List (Pt K)) (cc : List K × List Nat) : Res (List K) := do
  let c ← addSamples samples cc.1 cc.2
  divCenter c cc.2.length

/-- `compute_centers()`: KMeans.hpp:75-89.  The two loops are fused: a centre depends on its own cluster
only. -/
def computeCenters (samples : List (Pt K)) (s : KM K) : Res (KM K) := do
  let cs ← (s.centers.zip s.clusters).mapM (newCenter samples)
  pure { s with centers := cs }

/-- `for(auto& cluster: m_clusters) cluster.clear();`: KMeans.hpp:163-165. -/
def clear (s : KM K) : KM K := { s with clusters := s.clusters.map (fun _ => []) }

/-- The body of the training loop up to the convergence test: KMeans.hpp:149-152. -/
def iterate (dist : List K → List K → Res K) (samples points : List (Pt K)) (s : KM K) : Res (KM K × K) := do
  let (s, cost) ← assignClusters dist s points
  let s ← computeCenters samples s
  pure (s, cost)

/-- The training loop: KMeans.hpp:146-166.  `expired i` tells whether the time is over at iteration `i`;
`diverges` when the loop has not ended after `fuel` iterations. -/
def trainLoop (dist : List K → List K → Res K) (samples points : List (Pt K)) (eps : K)
    (expired : Nat → Bool) : Nat → Nat → KM K → K → Res (KM K)
  | 0, _, _, _ => .error .diverges
  | fuel+1, i, s, old => do
    let (s, cost) ← iterate dist samples points s
    if expired i then pure s
    else if |cost - old| ≤ eps then pure (clear s)
    else trainLoop dist samples points eps expired fuel (i + 1) (clear s) cost

/-- The remaining centres of the `kmeanspp` initialisation, `prev` being the last one chosen.  The
distances are computed and normalised, but the next centre is the next uniform draw.
KMeans.hpp:119-137; a zero sum makes the weights `0/0`. -/
def plusPlus (dist : List K → List K → Res K) (points : List (Pt K)) : List K → List Nat → Res (List (List K))
  | _, [] => .ok []
  | prev, i :: is => do
    let ds ← points.mapM (fun q => dist prev q.x)
    if ds.sum = 0 then .error .nonFinite
    else do
      let p ← vget points i
      let cs ← plusPlus dist points p.x is
      pure (p.x :: cs)

/-- The initial centres; `draws` are the values of `intInRange(0, size)`, one per cluster.
KMeans.hpp:102-138. -/
def initCenters (dist : List K → List K → Res K) (samples points : List (Pt K)) (init : Init)
    (draws : List Nat) (s : KM K) : Res (List (List K)) :=
  match init with
  | .random => draws.mapM (fun i => do let p ← vget samples i; pure p.x)
  | .kmeanspp =>
    match draws with
    | [] => .error .outOfBounds
    | i :: is => do
      let p ← vget points i
      let cs ← plusPlus dist points p.x is
      pure (p.x :: cs)
  | .other => .ok s.centers

/-- `KMeans::train`: KMeans.hpp:91-169. -/
def train (dist : List K → List K → Res K) (samples points : List (Pt K)) (init : Init) (draws : List Nat)
    (eps : K) (expired : Nat → Bool) (fuel : Nat) (s : KM K) : Res (KM K) := do
  let cs ← initCenters dist samples points init draws s
  trainLoop dist samples points eps expired fuel 0 { s with centers := cs } 0

/-- `KMeans::evaluate`: KMeans.hpp:171-179. -/
def evaluate (dist : List K → List K → Res K) (s : KM K) (p : List K) : Res Nat := do
  let ds ← s.centers.mapM (fun c => dist c p)
  pure (minElement ds)

/-- `KMeans::clusters()`: KMeans.hpp:186-190. -/
def clusters (dist : List K → List K → Res K) (samples : List (Pt K)) (s : KM K) : Res (KM K × List (List Nat)) := do
  let (s, _) ← assignClusters dist s samples
  pure (s, s.clusters)

/-- The sum of `mltk::pow(x - mean, 2).sum()` over a cluster: KMeans.hpp:202-204. -/
def sumSquares (samples : List (Pt K)) (mean : List K) (ids : List Nat) (var : K) : Res K :=
  ids.foldlM (fun (v : K) (id : Nat) => do
    let p ← vget samples id
    let d ← PointM.compound (· - ·) p.x mean
    pure (v + (d.map (fun x => x ^ 2)).sum)) var

/-- `clusters_variance(clusters)`: KMeans.hpp:192-208; the mean of an empty cluster is not used. -/
def variance (samples : List (Pt K)) (dim : Nat) (cls : List (List Nat)) : Res K :=
  cls.foldlM (fun (v : K) (ids : List Nat) => do
    let m ← addSamples samples (List.replicate dim 0) ids
    sumSquares samples (m.map (· / (ids.length : K))) ids v) 0

end
end MLTK.KMeans
