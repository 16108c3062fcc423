import Verif.Model.Split
import Mathlib.Algebra.Field.Defs
import Mathlib.Algebra.Order.Floor.Defs
import Mathlib.Data.Rat.Floor
import Mathlib.Order.Defs.LinearOrder
/-!
# Over-sampling, random subspaces and artificial datasets

Models Sampling.hpp and Datasets.cpp of ufjfmltk-core.  Numbers are elements of an ordered field.  The distance, the order
in which `std::sort` leaves equal distances, the shuffles and the random draws are arguments.
-/
namespace MLTK.Sampling
open MLTK.Data

section
variable {K : Type} [Field K] [DecidableEq K]

/-- `std::unique`: an element that matches the last one kept is dropped. -/
def uniqueFrom {α : Type} (eq : α → α → Bool) (a : α) : List α → List α
  | [] => [a]
  | b :: l => if eq a b then uniqueFrom eq a l else a :: uniqueFrom eq b l

/-- `std::unique` followed by `erase`. -/
def unique {α : Type} (eq : α → α → Bool) : List α → List α
  | [] => []
  | a :: l => uniqueFrom eq a l

/-- Position of `std::min_element`: the first least element; the length if there is none. -/
def minIdx (l : List Nat) : Nat :=
  match l.min? with
  | none => 0
  | some v => l.idxOf v

/-- The positions (counted from 1) and distances of the neighbours kept for `z` among the points `Z`.
Models Sampling.hpp:155-183; `distance_metric` is `dist`. -/
def neighbours (dist : List K → List K → K) (srt : List (Nat × K) → List (Nat × K)) (k : Nat) (Z : List (Pt K)) (z : Pt K) :
    List (Nat × K) :=
  let ds := Z.zipIdx.map (fun p => (p.2 + 1, dist z.x p.1.x))
  let u := unique (fun a b => decide (a.2 = b.2) || decide (a.1 = b.1)) (srt ds)
  (u.filter (fun p => decide (p.2 ≠ 0))).take k

/-- The samples of a class.  Models `classesCopy`, Data.hpp:1526-1536 (the copies are not observable). -/
def ofClass (m : Mem K) (c : Int) : List Nat → Res (List (Pt K))
  | [] => .ok []
  | r :: rs => do
    let p ← deref m r
    let l ← ofClass m c rs
    pure (if p.y = c then p :: l else l)

/-- The new points for one sample `z`: the `i`-th neighbour is looked up in the whole dataset, and `a` is the number of
random numbers already drawn.  Models Sampling.hpp:180-196. -/
def synth (m : Mem K) (pts : List Nat) (alpha : Nat → K) (c : Int) (z : Pt K) : Nat → List (Nat × K) → Res (List (Pt K))
  | _, [] => .ok []
  | a, q :: qs => do
    let r ← vget pts (q.1 - 1)
    let p ← deref m r
    let l ← synth m pts alpha c z (a + 1) qs
    pure ({ x := List.zipWith (fun u v => u + alpha a * (u - v)) z.x p.x, y := c } :: l)

/-- All new points.  Models Sampling.hpp:154-197. -/
def synthAll (m : Mem K) (pts : List Nat) (dist : List K → List K → K) (srt : List (Nat × K) → List (Nat × K)) (k : Nat)
    (alpha : Nat → K) (c : Int) (Z : List (Pt K)) : Nat → List (Pt K) → Res (List (Pt K))
  | _, [] => .ok []
  | a, z :: zs => do
    let ns := neighbours dist srt k Z z
    let l ← synth m pts alpha c z a ns
    let l' ← synthAll m pts dist srt k alpha c Z (a + ns.length) zs
    pure (l ++ l')

/-- `SMOTE::operator()`; the replication factor `r` is only used for a number that is never read.
Models Sampling.hpp:136-204. -/
def smote (dist : List K → List K → K) (srt : List (Nat × K) → List (Nat × K)) (k : Nat) (_r : K) (alpha : Nat → K)
    (σ : List Nat → List Nat) (m : Mem K) (d : Data) : Res (Mem K × Data) := do
  let c ← vget d.classes (minIdx d.dist)
  let Z ← ofClass m c d.points
  let art ← synthAll m d.points dist srt k alpha c Z 0 Z
  insertAll false (m ++ art) d (σ (List.range' m.length art.length))

/-! ### Borderline SMOTE -/

/-- Position of `std::max_element`: the first greatest element. -/
def maxIdx (l : List Nat) : Nat :=
  match l.max? with
  | none => 0
  | some v => l.idxOf v

/-- The labels of the neighbours `M`; entries that were not filled are null pointers and reading them fails.
Models Sampling.hpp:262-270. -/
def dangerCount (m : Mem K) (pts : List Nat) (maj : Int) (mm : Nat) (ns : List (Nat × K)) : Res Nat := do
  let ys ← ns.mapM (fun q => do
    let r ← vget pts (q.1 - 1)
    let p ← deref m r
    pure p.y)
  if ns.length < mm then .error .badPointer else pure (ys.count maj)

/-- The danger subset: the points themselves are inserted, which gives them new ids, after their old ids were recorded.
Models Sampling.hpp:232-277. -/
def dangerLoop (dist : List K → List K → K) (srt : List (Nat × K) → List (Nat × K)) (mm : Nat) (maj : Int) (pts : List Nat)
    (all : List (Pt K)) : List Nat → Mem K → Data → List Nat → Res (Mem K × Data × List Nat)
  | [], m, dg, ids => .ok (m, dg, ids)
  | r :: rs, m, dg, ids => do
    let z ← deref m r
    let cnt ← dangerCount m pts maj mm (neighbours dist srt mm all z)
    if mm / 2 ≤ cnt ∧ cnt < mm then do
      let (m, dg, _) ← insertPtr m dg r false
      dangerLoop dist srt mm maj pts all rs m dg (z.id :: ids)
    else dangerLoop dist srt mm maj pts all rs m dg ids

/-- Members of the danger subset whose id was recorded go (back) to the dataset.  Models Sampling.hpp:285-291. -/
def returnLoop (ids : List Nat) : List Nat → Mem K → Data → Res (Mem K × Data)
  | [], m, d => .ok (m, d)
  | r :: rs, m, d => do
    let p ← deref m r
    if p.id ∈ ids then do
      let (m, d, _) ← insertPtr m d r false
      returnLoop ids rs m d
    else returnLoop ids rs m d

/-- `BorderlineSMOTEOne::operator()`; distances only depend on the features, which never change.
Models Sampling.hpp:226-294. -/
def borderline (dist : List K → List K → K) (srt : List (Nat × K) → List (Nat × K)) (k : Nat) (r : K) (mm : Nat) (alpha : Nat → K)
    (σ : List Nat → List Nat) (m : Mem K) (d : Data) : Res (Mem K × Data) := do
  let maj ← vget d.classes (maxIdx d.dist)
  let all ← d.points.mapM (deref m)
  let (m, dg, ids) ← dangerLoop dist srt mm maj d.points all d.points m Data.empty []
  if dg.points = [] then pure (m, d)
  else do
    let (m, dg) ← smote dist srt k r alpha σ m dg
    returnLoop ids dg.points m d

/-! ### Random subspaces -/

/-- The constructor of `RSM`: how many features each subspace gets, and the features in order.  A negative number cannot be
converted to `size_t`.  Models Sampling.hpp:90-95. -/
def rsmInit (r : ℚ) (dims : Nat) : Res (Nat × List Nat) :=
  if ⌈r * (dims : ℚ)⌉ < 0 then .error .overflow else .ok (⌈r * (dims : ℚ)⌉.toNat, List.range dims)

/-- `RSM::operator()`: the features kept in the object are shuffled by `σ`.  Models Sampling.hpp:96-103. -/
def rsmCall (n : Nat) (σ : List Nat → List Nat) (feats : List Nat) : Res (List Nat × List Nat) := do
  let feats := σ feats
  let l ← (List.range n).mapM (fun j => vget feats j)
  pure (l, feats)

/-- A sequence of calls of `RSM::operator()`, each with its own shuffle. -/
def rsmCalls (n : Nat) : List (List Nat → List Nat) → List Nat → Res (List (List Nat))
  | [], _ => .ok []
  | σ :: σs, feats => do
    let (l, feats) ← rsmCall n σ feats
    let ls ← rsmCalls n σs feats
    pure (l :: ls)

/-- What is found in a fresh subspace, `size_t(-1)`.  Models Sampling.hpp:23. -/
def unset : Nat := 2 ^ 64 - 1

/-- `std::set_intersection`; the subspaces are not sorted, so this is what the usual implementation does with them.
Used by Sampling.hpp:36-39. -/
def setIntersection : List Nat → List Nat → List Nat
  | [], _ => []
  | _ :: _, [] => []
  | a :: as, b :: bs =>
    if a < b then setIntersection as (b :: bs)
    else if b < a then setIntersection (a :: as) bs
    else a :: setIntersection as bs
termination_by as bs => as.length + bs.length

/-- The largest share of another subspace found in subspace `i`.  Models Sampling.hpp:31-44. -/
def divMs (subs : List (List Nat)) (i : Nat) : ℚ :=
  1 - subs.zipIdx.foldl (fun mx p =>
    if p.2 = i then mx
    else
      let v : ℚ := ((setIntersection (subs.getD i []) p.1).length : ℚ) / (p.1.length : ℚ)
      if v > mx then v else mx) 0

/-- How rarely a feature has been used.  Models Sampling.hpp:46-54. -/
def divMx (subs : List (List Nat)) (feat : Nat) : ℚ :=
  1 - (subs.foldl (fun c s => if feat ∈ s then c + 1 else c) (0 : ℚ)) / (subs.length : ℚ)

/-- Models Sampling.hpp:27-29. -/
def divM (subs : List (List Nat)) (i feat : Nat) : ℚ := (divMx subs feat + divMs subs i) / 2

/-- The score of a feature for subspace `j`; `corr` is the correlation with the labels.  Models Sampling.hpp:66-71. -/
def dsmScore (corr : Nat → ℚ) (alpha : ℚ) (subs : List (List Nat)) (j c : Nat) : ℚ :=
  if c ∈ subs.getD j [] then -101 / 100 else alpha * corr c + (1 - alpha) * divM subs j c

/-- The first greatest score.  Models `std::max_element`, Sampling.hpp:72. -/
def firstMax (f : Nat → ℚ) (n : Nat) : Nat :=
  (List.range n).foldl (fun b c => if f b < f c then c else b) 0

/-- One feature for every subspace.  Models Sampling.hpp:65-75. -/
def dsmRound (corr : Nat → ℚ) (alpha : ℚ) (dim i : Nat) (subs : List (List Nat)) : List (List Nat) :=
  (List.range subs.length).foldl (fun s j =>
    s.set j ((s.getD j []).set i (firstMax (dsmScore corr alpha s j) dim))) subs

/-- `DSM::operator()`.  Models Sampling.hpp:63-78. -/
def dsmCall (corr : Nat → ℚ) (alpha : ℚ) (dim n : Nat) (subs : List (List Nat)) : List (List Nat) :=
  (List.range n).foldl (fun s i => dsmRound corr alpha dim i s) subs

/-- The constructor of `DSM`.  Models Sampling.hpp:18-25. -/
def dsmInit (k n : Nat) : List (List Nat) := List.replicate k (List.replicate n unset)

/-! ### Artificial datasets -/

/-- The label of the `c`-th of `n` centres.  Models Datasets.cpp:25-26, 81-87. -/
def blobLabel (n c : Nat) : Int := if n = 2 then (if c = 0 then -1 else 1) else (c : Int) + 1

/-- The label of a point that was given none, `-DBL_MAX`.  Models Point.hpp:47. -/
def noLabel : Int := -((2 ^ 53 - 1) * 2 ^ 971)

/-- The features of one point; `normal a mu sd` is the `a`-th random number.  Models Datasets.cpp:76-80. -/
def blobPoint (normal : Nat → K → K → K) (dims : Nat) (center : List K) (sd : K) (a : Nat) : Res (List K) :=
  (List.range dims).mapM (fun j => do
    let mu ← vget center j
    pure (normal (a + j) mu sd))

/-- `n` points around the `c`-th centre; `a` random numbers have been drawn.  Models Datasets.cpp:74-89. -/
def blobCentre (normal : Nat → K → K → K) (dims : Nat) (hasClasses : Bool) (centers : List (List K)) (sds : List K) (c : Nat) :
    Nat → Nat → Mem K → Data → Res (Mem K × Data)
  | 0, _, m, d => .ok (m, d)
  | n + 1, a, m, d => do
    let center ← vget centers c
    let sd ← vget sds c
    let x ← blobPoint normal dims center sd a
    let (m, d, _) ← insertVal m d { x := x, y := if hasClasses then blobLabel centers.length c else noLabel } false
    blobCentre normal dims hasClasses centers sds c n (a + dims) m d

/-- One entry of `n_samples`: `n` points around every centre.  Models Datasets.cpp:73-90. -/
def blobCentres (normal : Nat → K → K → K) (dims : Nat) (hasClasses : Bool) (centers : List (List K)) (sds : List K) (n : Nat) :
    List Nat → Nat → Mem K → Data → Res (Mem K × Data)
  | [], _, m, d => .ok (m, d)
  | c :: cs, a, m, d => do
    let (m, d) ← blobCentre normal dims hasClasses centers sds c n a m d
    blobCentres normal dims hasClasses centers sds n cs (a + n * dims) m d

/-- The three loops.  Models Datasets.cpp:72-91. -/
def blobLoop (normal : Nat → K → K → K) (dims : Nat) (hasClasses : Bool) (centers : List (List K)) (sds : List K) :
    List Nat → Nat → Mem K → Data → Res (Mem K × Data)
  | [], _, m, d => .ok (m, d)
  | n :: ns, a, m, d => do
    let (m, d) ← blobCentres normal dims hasClasses centers sds n (List.range centers.length) a m d
    blobLoop normal dims hasClasses centers sds ns (a + centers.length * n * dims) m d

/-- Renumbering: `dataset[idx]->Id() = idx + 1`.  Models Datasets.cpp:36-39, 98-101. -/
def renumber : Nat → List Nat → Mem K → Res (Mem K)
  | _, [], m => .ok m
  | i, r :: rs, m => do
    let p ← deref m r
    renumber (i + 1) rs (m.set r { p with id := i + 1 })

/-- Shuffling, renumbering and the new index.  Models Datasets.cpp:30-41, 92-103. -/
def finish (shuffled : Bool) (σ : List Nat → List Nat) (m : Mem K) (d : Data) : Res (Mem K × Data) := do
  let d ← if shuffled then Data.shuffle d σ else pure d
  let m ← renumber 0 d.points m
  pure (m, { d with index := iota 0 d.points.length })

/-- `make_blobs` with given centres.  Models Datasets.cpp:62-108. -/
def makeBlobs (normal : Nat → K → K → K) (shuffled hasClasses : Bool) (σ : List Nat → List Nat) (ns : List Nat)
    (centers : List (List K)) (sds : List K) (dims : Nat) : Res (Mem K × Data) := do
  let d : Data := { Data.empty with name := "blobs", type := if hasClasses then "Classification" else "Clustering" }
  let (m, d) ← blobLoop normal dims hasClasses centers sds ns 0 [] d
  finish shuffled σ m d

/-- `make_blobs` with drawn centres: `n / n_centers` samples per centre.  Models Datasets.cpp:46-60; a negative or zero
`n_centers` is not modelled. -/
def makeBlobsDrawn (normal : Nat → K → K → K) (shuffled hasClasses : Bool) (σ : List Nat → List Nat) (n : Nat)
    (centers : List (List K)) (sd : K) (dims : Nat) : Res (Mem K × Data) :=
  if centers.length = 0 then .error .divByZero
  else makeBlobs normal shuffled hasClasses σ (List.replicate centers.length (n / centers.length)) centers
    (List.replicate centers.length sd) dims

/-- The points of one spiral; `coord i j` are the coordinates of the `j`-th point.  Models Datasets.cpp:23-28. -/
def spiralClass (coord : Nat → Nat → K × K) (classes i : Nat) : List Nat → Mem K → Data → Res (Mem K × Data)
  | [], m, d => .ok (m, d)
  | j :: js, m, d => do
    let (m, d, _) ← insertVal m d { x := [(coord i j).1, (coord i j).2], y := blobLabel classes i } false
    spiralClass coord classes i js m d

/-- All spirals.  Models Datasets.cpp:18-29. -/
def spiralLoop (coord : Nat → Nat → K × K) (classes per : Nat) : List Nat → Mem K → Data → Res (Mem K × Data)
  | [], m, d => .ok (m, d)
  | i :: is, m, d => do
    let (m, d) ← spiralClass coord classes i (List.range per) m d
    spiralLoop coord classes per is m d

/-- `make_spirals`; sines, cosines and random numbers are in `coord`; a negative number of classes is not modelled.
The division of the sizes is an integer one.  Models Datasets.cpp:8-44. -/
def makeSpirals (coord : Nat → Nat → K × K) (shuffled : Bool) (σ : List Nat → List Nat) (n classes : Nat) :
    Res (Mem K × Data) :=
  if classes = 0 then .error .divByZero
  else do
    let (m, d) ← spiralLoop coord classes (n / classes) (List.range classes) [] { Data.empty with name := "spirals" }
    finish shuffled σ m d

/-! ### Regression problems -/

/-- A sample of a regression dataset: labels are real numbers here. -/
structure RegPt (K : Type) where
  x : List K
  y : K
  id : Nat
  deriving Repr

/-- `dot`: the loop over the components; both points have the same size.  Models Point.hpp `dot` as modelled in `Model/Point`. -/
def dotLoop (p q : List K) : K := (List.zip p q).foldl (fun s u => s + u.1 * u.2) 0

/-- The features of all samples: `g` is the stream of random numbers, `a` of which are used up.  Models Datasets.cpp:117-121. -/
def regRows (g : Nat → K) (dims : Nat) : Nat → List Nat → List (RegPt K)
  | _, [] => []
  | a, i :: is => { x := (List.range dims).map (fun j => g (a + j)), y := 0, id := i + 1 } :: regRows g dims (a + dims) is

/-- The coefficients, drawn after the samples.  Models Datasets.cpp:115-116, 123-125. -/
def regCoef (g : Nat → K) (dims informative a : Nat) : List K :=
  (List.range (min dims informative)).foldl (fun c i => c.set i (g (a + i))) (List.replicate dims 0)

/-- The labels; `e` is the stream of noise values.  Models Datasets.cpp:127-136. -/
def regLabels (e : Nat → K) (bias : K) (noisy : Bool) (coef : List K) : Nat → List (RegPt K) → List (RegPt K)
  | _, [] => []
  | a, p :: ps =>
    { p with y := if noisy then dotLoop p.x coef + bias + e a else dotLoop p.x coef + bias } ::
      regLabels e bias noisy coef (a + 1) ps

/-- `make_regression`: the dataset (ids are kept when it is shuffled) and the coefficients.  `noisy` is `noise > 0`.
Models Datasets.cpp:110-146; the assignment of the results to the pair is not modelled. -/
def makeRegression (g e : Nat → K) (bias : K) (noisy shuffled : Bool) (σ : List (RegPt K) → List (RegPt K))
    (n dims informative : Nat) : List (RegPt K) × List K :=
  let rows := regRows g dims 0 (List.range n)
  let coef := regCoef g dims informative (n * dims)
  let rows := regLabels e bias noisy coef 0 rows
  (if shuffled then σ rows else rows, coef)

end
end MLTK.Sampling
