import Mathlib.Analysis.SpecialFunctions.Pow.Real
import Verif.Model.Data
/-!
# Further members of `mltk::Data`: normalisation, filled datasets, columns

Simplification for `normalize`: `double` is the real numbers, `std::pow` is `Real.rpow` (used with positive exponents).
-/
namespace MLTK.Data

/-- `v.resize(n)` for a vector of numbers: cut, or filled with zeros. -/
def resizeTo {T : Type} [Zero T] (v : List T) (n : Nat) : List T := v.take n ++ List.replicate (n - v.length) 0

/-- One sample in `normalize`: the sum over the old features, the added feature 1, the root and the division.
Models Data.hpp:1652-1661. -/
noncomputable def normalizeRow (p : ℝ) (oldDim : Nat) (x : List ℝ) : Res (List ℝ) := do
  let s ← (List.range oldDim).foldlM (fun (s : ℝ) j => do
    let v ← vget x j
    pure (s + |v| ^ p)) 0
  let x ← vset (resizeTo x (oldDim + 1)) oldDim 1
  let v ← vget x oldDim
  let norm := (s + |v| ^ p) ^ (1 / p)
  if norm = 0 then .error .nonFinite
  pure (x.map (· / norm))

/-- The loop of `normalize` over the samples: each is overwritten through its pointer.  Models Data.hpp:1651-1662. -/
noncomputable def normalizeLoop (p : ℝ) (oldDim : Nat) : Mem ℝ → List Nat → Res (Mem ℝ)
  | m, [] => .ok m
  | m, r :: rs => do
    let q ← deref m r
    let x ← normalizeRow p oldDim q.x
    normalizeLoop p oldDim (m.set r { q with x := x }) rs

/-- `normalize(p)`: Data.hpp:1646-1667.  `fnames.push_back(this->dim())` reads the new dimension through the first
sample. -/
noncomputable def normalize (m : Mem ℝ) (d : Data) (p : ℝ) : Res (Mem ℝ × Data) := do
  let oldDim ← dim m d
  if d.points.length < d.msize then .error .outOfBounds
  let m ← normalizeLoop p oldDim m (d.points.take d.msize)
  let newDim ← dim m d
  pure (m, { d with mdim := oldDim + 1, fnames := d.fnames ++ [(newDim : Int)], normalized := true })

/-- `Data(size, dim, val)`: Data.hpp:560-578. -/
def filled {T : Type} (m : Mem T) (size dim : Nat) (val : T) : Mem T × Data :=
  (m ++ (List.range size).map (fun i => { x := List.replicate dim val, y := 0, alpha := 0, id := i + 1 }),
   { points := List.range' m.length size, fnames := iota 1 dim, index := iota 0 size, msize := size, mdim := dim,
     isEmpty := !(decide (size > 0)) })

/-- `getFeature(idx)`: Data.hpp:2107-2113.  A negative or too large `idx` reads outside the sample. -/
def getFeature {T : Type} (m : Mem T) (d : Data) (idx : Int) : Res (List T) :=
  (List.range d.msize).mapM (fun i => do
    let r ← vget d.points i
    let p ← deref m r
    if idx < 0 then .error .outOfBounds
    vget p.x idx.toNat)

/-- `getLabels()` and `labels()`: Data.hpp:2115-2127. -/
def getLabels {T : Type} (m : Mem T) (d : Data) : Res (List Int) :=
  (List.range d.msize).mapM (fun i => do
    let r ← vget d.points i
    let p ← deref m r
    pure p.y)

/-- `changeXVector(_index)`: Data.hpp:1495-1507.  `nPoints` holds `m_size` null pointers; the first assignment in the
loop goes through one of them. -/
def changeXVector {T : Type} (m : Mem T) (d : Data) (_index : List Int) : Res (Mem T × Data) :=
  if 0 < d.msize then .error .badPointer
  else pure (m, { d with points := [] })

/-- `copyZero(other)`: Data.hpp:1588-1595. -/
def copyZero (self other : Data) : Data :=
  { self with fnames := other.fnames, mdim := other.mdim, msize := 0, isEmpty := other.isEmpty,
              normalized := other.normalized, cdistComputed := false }

end MLTK.Data
