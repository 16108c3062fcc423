import Verif.Model.DoubleMetric
import Verif.Model.Clustering
/-!
# `KMeans` in `double` arithmetic

The trainer of `Model/Clustering` with every operation carried out as in `Model/Double`: dividing the centre of an empty
cluster leaves infinities and NaN, and comparisons with NaN are false.  Simplifications as there; the `kmeanspp`
initialisation is not modelled here.
-/
namespace MLTK.Fp
open MLTK.KMeans (KM)

/-- Loop of `std::min_element` over `double`s. -/
def minLoop : List Dbl → Nat → Nat → Dbl → Nat
  | [], _, best, _ => best
  | x :: l, i, best, v => if x.lt v then minLoop l (i + 1) i x else minLoop l (i + 1) best v

/-- `std::min_element(v.begin(), v.end()) - v.begin()`.  Models KMeans.hpp:68, 176. -/
def minElement : List Dbl → Nat
  | [] => 0
  | x :: l => minLoop l 1 0 x

/-- One sample of `assign_clusters`.  Models KMeans.hpp:63-71. -/
def assignOne (dist : List Dbl → List Dbl → Res Dbl) (st : KM Dbl × Dbl) (q : Pt Dbl) : Res (KM Dbl × Dbl) := do
  let ds ← st.1.centers.mapM (fun c => dist q.x c)
  let cl ← vget st.1.clusters (minElement ds)
  let cls ← vset st.1.clusters (minElement ds) (cl ++ [decSize q.id])
  let d ← vget ds (minElement ds)
  pure ({ st.1 with clusters := cls }, st.2.add (d.mul d))

/-- `assign_clusters(points)`; returns the cost.  Models KMeans.hpp:58-73. -/
def assignClusters (dist : List Dbl → List Dbl → Res Dbl) (s : KM Dbl) (points : List (Pt Dbl)) : Res (KM Dbl × Dbl) :=
  points.foldlM (assignOne dist) (s, .fin 0)

/-- `m_centers[i] += *samples->point(id)` for the ids of a cluster.  Models KMeans.hpp:79-81, Point.hpp:364-370. -/
def addSamples (samples : List (Pt Dbl)) (center : List Dbl) (ids : List Nat) : Res (List Dbl) :=
  ids.foldlM (fun (c : List Dbl) (id : Nat) => do
    let p ← vget samples id
    if c.length = p.x.length then .ok (List.zipWith Dbl.add c p.x) else .error .assertFail) center

/-- One centre of `compute_centers`; `center /= size`, the size as a `double`.  Models KMeans.hpp:79-87,
Point.hpp:491-497. -/
def newCenter (samples : List (Pt Dbl)) (cc : List Dbl × List Nat) : Res (List Dbl) := do
  let c ← addSamples samples cc.1 cc.2
  pure (c.map (fun v => v.div (Dbl.ofNat cc.2.length)))

/-- `compute_centers()`, the two loops fused.  Models KMeans.hpp:75-89. -/
def computeCenters (samples : List (Pt Dbl)) (s : KM Dbl) : Res (KM Dbl) := do
  let cs ← (s.centers.zip s.clusters).mapM (newCenter samples)
  pure { s with centers := cs }

/-- The training loop; `expired i` tells whether the time is over at iteration `i`, `diverges` that the loop has not ended
after `fuel` iterations.  Models KMeans.hpp:146-166. -/
def kmLoop (dist : List Dbl → List Dbl → Res Dbl) (samples points : List (Pt Dbl)) (eps : Dbl)
    (expired : Nat → Bool) : Nat → Nat → KM Dbl → Dbl → Res (KM Dbl)
  | 0, _, _, _ => .error .diverges
  | fuel + 1, i, s, old => do
    let (s, cost) ← assignClusters dist s points
    let s ← computeCenters samples s
    if expired i then pure s
    else if ((cost.sub old).abs).le eps then pure { s with clusters := s.clusters.map (fun _ => []) }
    else kmLoop dist samples points eps expired fuel (i + 1) { s with clusters := s.clusters.map (fun _ => []) } cost

/-- `KMeans::train` with the `random` initialisation; `points` are the shuffled samples, `draws` the values of
`intInRange(0, size)`.  Models KMeans.hpp:91-113, 145-169. -/
def kmTrain (dist : List Dbl → List Dbl → Res Dbl) (samples points : List (Pt Dbl)) (draws : List Nat)
    (eps : Dbl) (expired : Nat → Bool) (fuel : Nat) (s : KM Dbl) : Res (KM Dbl) := do
  let cs ← draws.mapM (fun i => do let p ← vget samples i; pure p.x)
  kmLoop dist samples points eps expired fuel 0 { s with centers := cs } (.fin 0)

/-- `KMeans::evaluate`.  Models KMeans.hpp:171-179. -/
def kmEvaluate (dist : List Dbl → List Dbl → Res Dbl) (s : KM Dbl) (p : List Dbl) : Res Nat := do
  let ds ← s.centers.mapM (fun c => dist c p)
  pure (minElement ds)

end MLTK.Fp
