import Verif.Model.AosRun
/-!
# The admissible ordered search with look-ahead

ufjfmltk-featselect/include/ufjfmltk/featselect/AOS.hpp: `lookAhead` and its use in `mainLoop`, on top of `Model/AosRun`, whose
simplifications apply here too.  The classifier still holds the data `mainLoop` gave it while it looks ahead.
-/
namespace MLTK.Aos
open MLTK.Feat (Tbl removeFeatures)
open MLTK.Perc (Libm)

/-- The search together with the member `g_margin` and the weights of the classifier's present solution: AOS.hpp:134, 985. -/
structure AState (K : Type) where
  st : Srch K
  g : K
  sol : List K

section
variable {K : Type} [Field K] [LinearOrder K]

/-- The feature with the least absolute weight, the first one among equals: AOS.hpp:889-898. -/
def leastFeature (stmp : Tbl K) (w : List K) : Res Int := do
  let w0 ← vget w 0
  let f0 ← vget stmp.fnames 0
  let r ← (List.range (stmp.dim - 1)).foldlM (fun (b : K × Int) i => do
    let wi ← vget w (i + 1)
    if |wi| < b.1 then do
      let f ← vget stmp.fnames (i + 1)
      pure (|wi|, f)
    else pure b) (|w0|, f0)
  pure r.2

omit [Field K] [LinearOrder K] in
/-- The weights handed to the next training; the loop stops one position early.  The vector is not emptied between the rounds,
but what training starts from is left to the classifier, so only the reads matter here.  AOS.hpp:901-908. -/
def fatherWeights (primal : Bool) (sample : Tbl K) (w : List K) (feat : Int) : Res (List K) :=
  (List.range (if primal then sample.dim - 1 else 0)).foldlM (fun (r : List K) j => do
    let f ← vget sample.fnames j
    if f ≠ feat then do
      let wj ← vget w j
      pure (r ++ [wj])
    else pure r) []

/-- The loop of `lookAhead`.  The first argument is the number of rounds left, `count` the number of rounds done, `feats` the
features chosen so far; the level is `level0 + count`.  A node is new if the table does not hold it; then the classifier is
trained, on the data it holds.  AOS.hpp:870-998. -/
def aheadLoop (c : Cfg K) (primal : Bool) (learn : Nat → Tbl K → Bool × List K × K) (sample : Tbl K) (level0 : Nat)
    (ofnames : List Int) : Nat → Nat → List Int → List K → Tbl K → Srch K → List K → Res (Srch K × List K)
  | 0, _, _, _, _, st, sol => pure (st, sol)
  | n + 1, count, feats, w, stmp, st, sol =>
    if count = sample.dim - 1 ∨ (stmp.dim : Int) = (sample.dim : Int) - c.depth ∨ level0 + count = c.depth then pure (st, sol)
    else do
      let feat ← leastFeature stmp w
      let _ ← fatherWeights primal sample w feat
      let feats := feats ++ [feat]
      let (stmp, _) ← removeFeatures sample feats
      let old ← (List.range level0).mapM (fun j => vget ofnames j)
      let p := st.mem.length
      let mem := st.mem ++ [some ⟨sortDesc (old ++ feats), level0 + count + 1, -1, 0, -1⟩]
      let (mem, hash, new) ← add mem st.hash p
      let st := { st with mem := mem, ws := st.ws ++ [[]], hash := hash }
      if new then
        let r := learn st.calls sample
        let st := { st with calls := st.calls + 1 }
        if r.1 = false then pure (st, r.2.1)
        else do
          let nd ← deref st.mem (some p)
          let ws ← vset st.ws p r.2.1
          let st := { st with mem := store st.mem p { nd with value := r.2.2, rgamma := r.2.2 }, ws := ws }
          let (heap, _) ← insert c.cap st.mem st.heap p
          aheadLoop c primal learn sample level0 ofnames n (count + 1) feats (if primal then r.2.1 else w) stmp
            { st with heap := heap } r.2.1
      else aheadLoop c primal learn sample level0 ofnames n (count + 1) feats (if primal then sol else w) stmp st sol

/-- `lookAhead` called for the first node expanded on a level, before the queue is cut: `g_margin` becomes what it returns,
which is always 0.  AOS.hpp:609-623, 852-1004. -/
def lookAhead (c : Cfg K) (ahead : Nat) (primal : Bool) (learn : Nat → Tbl K → Bool × List K × K) (sample : Tbl K) (w : List K)
    (level : Nat) (ofnames : List Int) (first : Bool) (a : AState K) : Res (AState K) :=
  if first ∧ ahead > 0 then do
    let (st, sol) ← aheadLoop c primal learn sample level ofnames ahead 0 [] w sample a.st a.sol
    pure { st := st, g := 0, sol := sol }
  else pure a

/-- Expanding a node: AOS.hpp:541-844. -/
def expandA (lm : Libm K) (c : Cfg K) (ahead : Nat) (primal : Bool) (srt : List (K × Int) → List (K × Int))
    (learn : Nat → Tbl K → Bool × List K × K) (sample : Tbl K) (w : List K) (margin : K) (level : Nat) (ofnames : List Int)
    (first : Bool) (a : AState K) : Res (AState K) := do
  let a ← lookAhead c ahead primal learn sample w level ofnames first a
  let st ← expand lm { c with gMargin := a.g } srt sample w margin level ofnames first a.st
  pure { a with st := st }

/-- Expanding a node of the queue: AOS.hpp:516-528. -/
def expandNodeA (lm : Libm K) (c : Cfg K) (ahead : Nat) (primal : Bool) (srt : List (K × Int) → List (K × Int))
    (learn : Nat → Tbl K → Bool × List K × K) (sample : Tbl K) (w : List K) (margin : K) (nd : Node K) (a : AState K) :
    Res (AState K) :=
  if nd.level > a.st.lool then
    expandA lm c ahead primal srt learn sample w margin nd.level nd.fnames true
      { a with st := { a.st with lool := nd.level } }
  else expandA lm c ahead primal srt learn sample w margin nd.level nd.fnames false a

/-- `mainLoop` with look-ahead: AOS.hpp:431-845. -/
def mainLoopA (lm : Libm K) (c : Cfg K) (ahead : Nat) (primal : Bool) (srt : List (K × Int) → List (K × Int))
    (learn : Nat → Tbl K → Bool × List K × K) (sample : Tbl K) (a : AState K) : Res (AState K) :=
  if a.st.heap.size = 0 then
    let r := learn a.st.calls sample
    expandA lm c ahead primal srt learn sample r.2.1 r.2.2 0 [] (decide (a.st.lool = 0))
      { a with st := { a.st with calls := a.st.calls + 1 }, sol := r.2.1 }
  else do
    let (heap, p) ← pop a.st.mem a.st.heap
    let a := { a with st := { a.st with heap := heap } }
    let nd ← deref a.st.mem p
    if nd.level > c.depth then pure a
    else if nd.rgamma > 0 then do
      let w ← vget a.st.ws (p.getD 0)
      expandNodeA lm c ahead primal srt learn sample w nd.rgamma nd a
    else
      let r := learn a.st.calls sample
      let a := { a with st := { a.st with calls := a.st.calls + 1 }, sol := r.2.1 }
      if r.1 = false then pure a
      else do
        let nd' := { nd with value := r.2.2, rgamma := r.2.2 }
        let a := { a with st := { a.st with mem := store a.st.mem (p.getD 0) nd' } }
        let top ← deref a.st.mem (a.st.heap.elements 1)
        if nd'.value < top.value ∨ nd.level = c.depth then do
          let ws ← vset a.st.ws (p.getD 0) r.2.1
          let (heap, _) ← insert c.cap a.st.mem a.st.heap (p.getD 0)
          pure { a with st := { a.st with ws := ws, heap := heap } }
        else expandNodeA lm c ahead primal srt learn sample r.2.1 r.2.2 nd' a

/-- The loop of `selectFeatures`, at most `n` rounds: AOS.hpp:252-425. -/
def searchLoopA (lm : Libm K) (c : Cfg K) (ahead : Nat) (primal : Bool) (srt : List (K × Int) → List (K × Int))
    (learn : Nat → Tbl K → Bool × List K × K) (samples : Tbl K) : Nat → Bool → AState K → Res (Tbl K × Nat)
  | 0, _, _ => .error .diverges
  | n + 1, ftime, a =>
    if a.st.heap.size = 0 then
      if ftime = false then pure (a.st.part, a.st.lool)
      else do
        let a ← mainLoopA lm c ahead primal srt learn samples a
        if a.st.heap.size = 0 then pure (⟨[], [], 0⟩, a.st.lool)
        else searchLoopA lm c ahead primal srt learn samples n false a
    else do
      let nd ← deref a.st.mem (a.st.heap.elements 1)
      let (d, _) ← removeFeatures samples nd.fnames
      if (samples.dim : Int) = (samples.dim : Int) - c.depth ∧ nd.rgamma > 0 then pure (d, a.st.lool)
      else do
        let a ← mainLoopA lm c ahead primal srt learn d a
        searchLoopA lm c ahead primal srt learn samples n ftime a

/-- `selectFeatures` of an object with the look-ahead depth `ahead`; `primal` tells that the classifier's formulation is
"Primal".  AOS.hpp:193-425, 1027-1030. -/
def aosSelectA (lm : Libm K) (breadth finalDim ahead cut : Nat) (gMargin q : K) (cap hlen hwidth : Nat) (primal : Bool)
    (srt : List (K × Int) → List (K × Int)) (learn : Nat → Tbl K → Bool × List K × K) (samples : Tbl K) (lool n : Nat) :
    Res (Tbl K × Nat) :=
  searchLoopA lm
    ⟨min breadth samples.dim, min (samples.dim - finalDim) (samples.dim - 1), cut, gMargin, q, cap, hlen, hwidth⟩
    ahead primal srt learn samples n true ⟨⟨[], [], Heap.new, Hash.new hlen hwidth, lool, samples, 0⟩, gMargin, []⟩

end
end MLTK.Aos
