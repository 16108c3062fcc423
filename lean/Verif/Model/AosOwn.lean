import Verif.Model.AosRun
/-!
# What an admissible ordered search leaves behind

ufjfmltk-featselect/include/ufjfmltk/featselect/AOS.hpp: the end of a search and the destruction of its queue and table.  The
configuration is that of `Model/AosRun`.
-/
namespace MLTK.Aos
open MLTK.Feat (Tbl removeFeatures)
open MLTK.Perc (Libm)

section
variable {K : Type}

/-- The loop of `~Heap`, for the positions `i, i+1, ...`, `n` of them: AOS.hpp:1460-1463. -/
def freeFrom (a : Arr) : Nat → Nat → Nodes K → Res (Nodes K)
  | 0, _, m => .ok m
  | n + 1, i, m => do
    let m ← free m (a i)
    freeFrom a n (i + 1) m

/-- `~Heap`: AOS.hpp:1457-1466.  `~Hash` (AOS.hpp:1221-1230) gives back its rows only, no nodes. -/
def destroy (m : Nodes K) (h : Heap) : Res (Nodes K) := freeFrom h.elements h.size 1 m

variable [Field K] [LinearOrder K]

/-- `searchLoop`, with the state at the end in place of its `lool`: AOS.hpp:252-425. -/
def searchEnd (lm : Libm K) (c : Cfg K) (srt : List (K × Int) → List (K × Int)) (learn : Nat → Tbl K → Bool × List K × K)
    (samples : Tbl K) : Nat → Bool → Srch K → Res (Tbl K × Srch K)
  | 0, _, _ => .error .diverges
  | n + 1, ftime, st =>
    if st.heap.size = 0 then
      if ftime = false then pure (st.part, st)
      else do
        let st ← mainLoop lm c srt learn samples st
        if st.heap.size = 0 then pure (⟨[], [], 0⟩, st)
        else searchEnd lm c srt learn samples n false st
    else do
      let nd ← deref st.mem (st.heap.elements 1)
      let (d, _) ← removeFeatures samples nd.fnames
      if (samples.dim : Int) = (samples.dim : Int) - c.depth ∧ nd.rgamma > 0 then pure (d, st)
      else do
        let st ← mainLoop lm c srt learn d st
        searchEnd lm c srt learn samples n ftime st

/-- `aosSelect` followed by the destruction of the object (or by another search, which replaces queue and table): the returned
dataset, the final `lool`, and the nodes before and after the destruction.  AOS.hpp:210-425, 239-241. -/
def selectAndDestroy (lm : Libm K) (breadth finalDim cut : Nat) (gMargin q : K) (cap hlen hwidth : Nat)
    (srt : List (K × Int) → List (K × Int)) (learn : Nat → Tbl K → Bool × List K × K) (samples : Tbl K) (lool n : Nat) :
    Res (Tbl K × Nat × Nodes K × Nodes K) := do
  let (d, st) ← searchEnd lm ⟨min breadth samples.dim, min (samples.dim - finalDim) (samples.dim - 1), cut, gMargin, q, cap,
    hlen, hwidth⟩ srt learn samples n true ⟨[], [], Heap.new, Hash.new hlen hwidth, lool, samples, 0⟩
  let m ← destroy st.mem st.heap
  pure (d, st.lool, st.mem, m)

end
end MLTK.Aos
