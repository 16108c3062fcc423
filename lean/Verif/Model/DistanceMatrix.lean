import Verif.Model.Basic
import Verif.Model.ThreadPool
/-!
# `mltk::metrics::dist::DistanceMatrix`

Every assignment to the shared matrix is one atomic action; a block task submitted to the pool is the
list of its actions, and an execution is an interleaving of those lists.

The data are abstracted to what the class reads: the list of the `Id()`s by position and the distance
`d i j` of the samples at positions `i` and `j`.
-/
namespace MLTK.DistMat

/-- A write performed by the loop body of `compute`.  Models DistanceMatrix.hpp:43, 46, 52. -/
inductive Action (K : Type) where
  /-- `rows[idx] = Point(len)` (a point of `len` zeros) -/
  | alloc (idx len : Nat)
  /-- `rows[r][c] = v` -/
  | write (r c : Nat) (v : K)
  deriving DecidableEq, Repr

/-- Effect of one action; `operator[]` outside a vector is undefined behaviour.
Models `std::vector::operator[]`, `Point::operator[]` as used in DistanceMatrix.hpp:43-52. -/
def act {K : Type} [Zero K] (rows : List (List K)) : Action K → Res (List (List K))
  | .alloc idx len => vset rows idx (List.replicate len 0)
  | .write r c v => do
    let row ← vget rows r
    let row' ← vset row c v
    vset rows r row'

/-- `data(i).Id() - 1` in `size_t` arithmetic.  Models DistanceMatrix.hpp:46, 52. -/
def slot (ids : List Nat) (i : Nat) : Nat := decSize (ids.getD i 0)

/-- The actions of one iteration of the loop body.  Models DistanceMatrix.hpp:43-53. -/
def rowProg {K : Type} (ids : List Nat) (d : Nat → Nat → K) (tri : Bool) (idx : Nat) : List (Action K) :=
  [.alloc idx (if tri then idx + 1 else ids.length)] ++
  (List.range idx).map (fun j => .write (slot ids idx) (slot ids j) (d idx j)) ++
  (if tri then [] else
    (List.range' (idx + 1) (ids.length - (idx + 1))).map
      (fun j => .write (slot ids idx) (slot ids j) (d idx j)))

/-- The actions of the block task `loop(a, b)`.  Models DistanceMatrix.hpp:41-55. -/
def blockProg {K : Type} (ids : List Nat) (d : Nat → Nat → K) (tri : Bool) (b : Int × Int) :
    List (Action K) :=
  (List.range' b.1.toNat (b.2.toNat - b.1.toNat)).flatMap (rowProg ids d tri)

/-- The tasks `compute` hands to the pool.  Models DistanceMatrix.hpp:39, 57; the thread count is also
the requested number of blocks. -/
def tasks {K : Type} (ids : List Nat) (d : Nat → Nat → K) (tri : Bool) (threads hw : Nat) :
    Res (List (List (Action K))) := do
  let bs ← Pool.blocks 0 ids.length (if threads = 0 then hw else threads) threads
  pure (bs.map (blockProg ids d tri))

/-- Perform a sequence of actions on the freshly constructed matrix.
Models the constructor, DistanceMatrix.hpp:64-70. -/
def perform {K : Type} [Zero K] (n : Nat) (l : List (Action K)) : Res (List (List K)) :=
  l.foldlM act (List.replicate n [])

end MLTK.DistMat
