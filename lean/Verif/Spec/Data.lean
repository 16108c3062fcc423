import Verif.Model.Data
/-!
# Specification vocabulary for datasets

Independent of how the operations are implemented: what a user can read from a dataset, and what it
means for a class table to describe a list of labels.
-/
namespace MLTK.Spec
open MLTK.Data

variable {T : Type}

/-- The samples a user reads through `d[0], d[1], …`. -/
def samples (m : Mem T) (d : Data) : List (Pt T) := d.points.filterMap (fun r => m[r]?)

/-- The labels of the samples, in order. -/
def labels (m : Mem T) (d : Data) : List Int := (samples m d).map Pt.y

/-- `classes` lists every label exactly once and `dist` counts the occurrences of each. -/
structure ClassTable (labels classes : List Int) (dist : List Nat) : Prop where
  nodup : classes.Nodup
  mem : ∀ c, c ∈ classes ↔ c ∈ labels
  counts : dist = classes.map (fun c => labels.count c)

/-- `classes` is ordered by first appearance in `labels`. -/
def FirstAppearanceOrder (labels classes : List Int) : Prop :=
  classes.Pairwise (fun a b => labels.idxOf a < labels.idxOf b)

/-- What a sample carries apart from its id. -/
def content (p : Pt T) : List T × Int × Rat := (p.x, p.y, p.alpha)

/-- Two heaps that agree on everything but ids. -/
def SameUpToIds (m m' : Mem T) : Prop := m.map content = m'.map content

/-- `classes` has no repetition, covers all labels, and `dist` is the number of samples of each class
(a class may have become empty). -/
structure Counts (labels classes : List Int) (dist : List Nat) : Prop where
  nodup : classes.Nodup
  covers : ∀ y ∈ labels, y ∈ classes
  counts : dist = classes.map (fun c => labels.count c)

/-- A classification dataset whose bookkeeping agrees with the samples it holds. -/
structure Consistent (m : Mem T) (d : Data) : Prop where
  /-- every pointer is live -/
  live : ∀ r ∈ d.points, ∃ p, m[r]? = some p
  /-- the size counter is the number of points -/
  msize : d.msize = d.points.length
  /-- it is a classification dataset -/
  cls : d.isClassification = true
  /-- classes and class distribution describe the labels -/
  counts : Counts (labels m d) d.classes d.dist
  /-- all points share the dimension recorded -/
  dims : ∀ p ∈ samples m d, p.x.length = d.mdim
  /-- an empty dataset has no dimension -/
  mdim0 : d.points = [] → d.mdim = 0

/-- The part of `Consistent` that does not speak about dimensions. -/
structure Counted (m : Mem T) (d : Data) : Prop where
  /-- every pointer is live -/
  live : ∀ r ∈ d.points, ∃ p, m[r]? = some p
  /-- the size counter is the number of points -/
  msize : d.msize = d.points.length
  /-- it is a classification dataset -/
  cls : d.isClassification = true
  /-- classes and class distribution describe the labels -/
  counts : Counts (labels m d) d.classes d.dist

/-- A sequence of writes through pointers: each overwrites one point. -/
def writes (m : Mem T) : List (Nat × Pt T) → Mem T
  | [] => m
  | w :: ws => writes (m.set w.1 w.2) ws

/-! ## Histories of insertions -/

/-- One `insertPoint` call: by value, or by shared pointer to an existing point. -/
inductive InsOp (T : Type) where
  | val (p : Pt T) (keep : Bool)
  | ptr (r : Nat) (keep : Bool)

/-- The point handed to the call. -/
def InsOp.payload (m : Mem T) : InsOp T → Option (Pt T)
  | .val p _ => some p
  | .ptr r _ => m[r]?

/-- The `keepIndex` argument of the call. -/
def InsOp.keep : InsOp T → Bool
  | .val _ k => k
  | .ptr _ k => k

/-- Execute one call (Data.hpp 1448-1492). -/
def InsOp.exec (m : Mem T) (d : Data) : InsOp T → Res (Mem T × Data × Bool)
  | .val p k => insertVal m d p k
  | .ptr r k => insertPtr m d r k

/-- Execute a sequence of calls, collecting the returned flags (Data.hpp 1448-1492). -/
def runInserts (m : Mem T) (d : Data) : List (InsOp T) → Res (Mem T × Data × List Bool)
  | [] => .ok (m, d, [])
  | op :: ops => do
    let (m, d, b) ← op.exec m d
    let (m, d, bs) ← runInserts m d ops
    return (m, d, b :: bs)


/-- The pointers handed over by the calls. -/
def InsOp.ref? : InsOp T → Option Nat
  | .val _ _ => none
  | .ptr r _ => some r

/-- The points handed to a sequence of calls, with the `keepIndex` flag. -/
def given (m : Mem T) (ops : List (InsOp T)) : List (Pt T × Bool) :=
  ops.filterMap (fun op => (op.payload m).map (fun p => (p, op.keep)))

/-- Dimension of the first point handed over (0 if there is none). -/
def firstDim (l : List (Pt T × Bool)) : Nat := (l.head?.map (fun g => g.1.x.length)).getD 0

/-- The points that have the dimension of the first one. -/
def conforming (l : List (Pt T × Bool)) : List (Pt T × Bool) :=
  l.filter (fun g => g.1.x.length = firstDim l)

end MLTK.Spec
