import Verif.Model.Aos
import Verif.Model.Features
import Verif.Model.Perceptron
/-!
# The admissible ordered search itself

ufjfmltk-featselect/include/ufjfmltk/featselect/AOS.hpp: `selectFeatures` and `mainLoop` with the queue and the table of
`Model/Aos`.

Modelled configuration: `sorting_shape = 1`, `choice_shape = 1`, `look_ahead_depth = 0`, no cross-validation (the values of the
constructor) and the inner product kernel (which cannot be changed).  `breadth`, `cut` and the depth are not negative.
The classifier is an arbitrary function of the number of trainings so far and of the data: what `train` answers and the `w` and
`margin` of `getSolution` afterwards.  Ties of `std::sort` are decided by an arbitrary sorting function.  A division by a zero
norm of `w` is the fault `nonFinite`.  Labels, times, counters and messages are left out.
-/
namespace MLTK.Aos
open MLTK.Feat (Tbl removeFeatures)
open MLTK.Perc (Libm)

/-- The settings: AOS.hpp:128-150, 192-199; `cap` is `MAX_HEAP`, `hlen` and `hwidth` are `HASH_SIZE` and `HASH_WIDTH`. -/
structure Cfg (K : Type) where
  breadth : Nat
  depth : Nat
  cut : Nat
  gMargin : K
  q : K
  cap : Nat
  hlen : Nat
  hwidth : Nat

/-- The state of the search: nodes, the field `w` of the nodes, queue, table, `lool`, `stmp_partial` and the number of
trainings so far. -/
structure Srch (K : Type) where
  mem : Nodes K
  ws : List (List K)
  heap : Heap
  hash : Hash
  lool : Nat
  part : Tbl K
  calls : Nat

section
variable {K : Type} [Field K] [LinearOrder K]

/-- `std::sort` with a descending comparison of ints: AOS.hpp:808-811. -/
def sortDesc (l : List Int) : List Int := l.insertionSort (· ≥ ·)

/-- `mltk::norm(w, q)`: AOS.hpp:734, Point.hpp:651-656 (`q` is not the maximum norm). -/
def normQ (lm : Libm K) (q : K) (w : List K) : K := lm.pow ((w.map (fun x => lm.pow |x| q)).sum) (1 / q)

/-- The projected margin of position `i`, whose weight is `wi`; every other position adds the same term.  With one dimension
`tpmargin` keeps its initial value 0.  AOS.hpp:743-752. -/
def projMargin (lm : Libm K) (q : K) (dim i : Nat) (wi wnorm margin : K) : Res K :=
  if dim > 1 then
    if wnorm = 0 then .error .nonFinite
    else pure (lm.pow (((List.range dim).map (fun j => if i ≠ j then lm.pow (|wi / wnorm| * margin) q else 0)).sum) (1 / q))
  else pure 0

/-- One round of the branching loop.  The field `w` of a new node is not set: it is overwritten before it is read.
AOS.hpp:742-844. -/
def branch (lm : Libm K) (c : Cfg K) (dim level : Nat) (ofnames : List Int) (weights : List (K × Int)) (wnorm margin : K)
    (st : Srch K) (i : Nat) : Res (Srch K) := do
  let wt ← vget weights i
  let tp ← projMargin lm c.q dim i wt.1 wnorm margin
  let old ← (List.range level).mapM (fun j => vget ofnames j)
  let p := st.mem.length
  let mem := st.mem ++ [some ⟨sortDesc (old ++ [wt.2]), level + 1, tp, tp, -1⟩]
  let (mem, hash, new) ← add mem st.hash p
  let st := { st with mem := mem, ws := st.ws ++ [[]], hash := hash }
  if i ≠ 0 ∧ tp < (19 / 20) * c.gMargin then pure st
  else if new then do
    let (heap, _) ← insert c.cap st.mem st.heap p
    pure { st with heap := heap }
  else pure st

/-- The first node expanded on a level: its data are kept and the queue is cut.  AOS.hpp:542-543, 613-625. -/
def closeLevel (c : Cfg K) (sample : Tbl K) (first : Bool) (st : Srch K) : Res (Srch K) :=
  if first then do
    let (mem, heap) ← cutHeap st.lool c.cut ((19 / 20) * c.gMargin) st.mem st.heap
    pure { st with part := sample, mem := mem, heap := heap }
  else pure st

omit [Field K] [LinearOrder K] in
/-- The weights with the names of their features: AOS.hpp:634-642. -/
def weightsOf (sample : Tbl K) (w : List K) : Res (List (K × Int)) :=
  (List.range sample.dim).mapM (fun i => do
    let wi ← vget w i
    let f ← vget sample.fnames i
    pure (wi, f))

/-- Expanding a node: the end of `mainLoop`.  `first` tells that the level of the node is reached for the first time.
AOS.hpp:541-844. -/
def expand (lm : Libm K) (c : Cfg K) (srt : List (K × Int) → List (K × Int)) (sample : Tbl K) (w : List K) (margin : K)
    (level : Nat) (ofnames : List Int) (first : Bool) (st : Srch K) : Res (Srch K) := do
  let st ← closeLevel c sample first st
  let weights ← weightsOf sample w
  (List.range c.breadth).foldlM (branch lm c sample.dim level ofnames (srt weights) (normQ lm c.q w) margin) st

/-- Expanding a node of the queue: AOS.hpp:516-528. -/
def expandNode (lm : Libm K) (c : Cfg K) (srt : List (K × Int) → List (K × Int)) (sample : Tbl K) (w : List K) (margin : K)
    (nd : Node K) (st : Srch K) : Res (Srch K) :=
  if nd.level > st.lool then expand lm c srt sample w margin nd.level nd.fnames true { st with lool := nd.level }
  else expand lm c srt sample w margin nd.level nd.fnames false st

/-- `mainLoop`: AOS.hpp:431-845. -/
def mainLoop (lm : Libm K) (c : Cfg K) (srt : List (K × Int) → List (K × Int)) (learn : Nat → Tbl K → Bool × List K × K)
    (sample : Tbl K) (st : Srch K) : Res (Srch K) :=
  if st.heap.size = 0 then
    let r := learn st.calls sample
    expand lm c srt sample r.2.1 r.2.2 0 [] (decide (st.lool = 0)) { st with calls := st.calls + 1 }
  else do
    let (heap, p) ← pop st.mem st.heap
    let st := { st with heap := heap }
    let nd ← deref st.mem p
    if nd.level > c.depth then pure st
    else if nd.rgamma > 0 then do
      let w ← vget st.ws (p.getD 0)
      expandNode lm c srt sample w nd.rgamma nd st
    else
      let r := learn st.calls sample
      let st := { st with calls := st.calls + 1 }
      if r.1 = false then pure st
      else do
        let nd' := { nd with value := r.2.2, rgamma := r.2.2 }
        let st := { st with mem := store st.mem (p.getD 0) nd' }
        let top ← deref st.mem (st.heap.elements 1)
        if nd'.value < top.value ∨ nd.level = c.depth then do
          let ws ← vset st.ws (p.getD 0) r.2.1
          let (heap, _) ← insert c.cap st.mem st.heap (p.getD 0)
          pure { st with ws := ws, heap := heap }
        else expandNode lm c srt sample r.2.1 r.2.2 nd' st

/-- The loop of `selectFeatures`, at most `n` rounds; the result is the returned dataset and the final `lool`.
AOS.hpp:252-425.  The stop criterion compares the dimension of the whole dataset with itself minus the depth. -/
def searchLoop (lm : Libm K) (c : Cfg K) (srt : List (K × Int) → List (K × Int)) (learn : Nat → Tbl K → Bool × List K × K)
    (samples : Tbl K) : Nat → Bool → Srch K → Res (Tbl K × Nat)
  | 0, _, _ => .error .diverges
  | n + 1, ftime, st =>
    if st.heap.size = 0 then
      if ftime = false then pure (st.part, st.lool)
      else do
        let st ← mainLoop lm c srt learn samples st
        if st.heap.size = 0 then pure (⟨[], [], 0⟩, st.lool)
        else searchLoop lm c srt learn samples n false st
    else do
      let nd ← deref st.mem (st.heap.elements 1)
      let (d, _) ← removeFeatures samples nd.fnames
      if (samples.dim : Int) = (samples.dim : Int) - c.depth ∧ nd.rgamma > 0 then pure (d, st.lool)
      else do
        let st ← mainLoop lm c srt learn d st
        searchLoop lm c srt learn samples n ftime st

/-- `selectFeatures` of an object whose `lool` is `lool` (0 in a new object) for a final dimension `finalDim`, in at most `n`
rounds: AOS.hpp:193, 210-425.  The limits `MAX_BREATH` and `MAX_DEPTH` (99999) are left out. -/
def aosSelect (lm : Libm K) (breadth finalDim cut : Nat) (gMargin q : K) (cap hlen hwidth : Nat)
    (srt : List (K × Int) → List (K × Int)) (learn : Nat → Tbl K → Bool × List K × K) (samples : Tbl K) (lool n : Nat) :
    Res (Tbl K × Nat) :=
  searchLoop lm ⟨min breadth samples.dim, min (samples.dim - finalDim) (samples.dim - 1), cut, gMargin, q, cap, hlen, hwidth⟩
    srt learn samples n true ⟨[], [], Heap.new, Hash.new hlen hwidth, lool, samples, 0⟩

end
end MLTK.Aos
