import Verif.Model.AosRun
import Verif.Model.Select
/-!
# The admissible ordered search: orders of the features and values of the nodes

ufjfmltk-featselect/include/ufjfmltk/featselect/AOS.hpp: the part of `mainLoop` that depends on `sorting_shape` (5 and 6) and
on `choice_shape`.  Real numbers are exact; a division by zero and the root of a negative number are the fault `nonFinite`.
-/
namespace MLTK.Aos
open MLTK.Feat (Tbl)
open MLTK.Perc (Libm)
open MLTK.Select (sumStep devStep quot)

section
variable {K : Type} [Field K] [LinearOrder K]

omit [Field K] [LinearOrder K] in
/-- The number of samples of class `c` as recorded: `classesDistribution()[find(classes, c)]`.  AOS.hpp:662-667. -/
def recorded (classes : List Int) (dist : List Nat) (c : Int) : Res Nat := vget dist (classes.idxOf c)

/-- The averages and the sums of squared deviations of one feature, of the negative and of the other samples:
`((avg_neg, avg_pos), (sd_neg, sd_pos))` with the recorded class sizes.  AOS.hpp:660-697. -/
def shapeMoments (classes : List Int) (dist : List Nat) (col : List (K × Int)) :
    Res ((Nat × Nat) × (K × K) × (K × K)) := do
  let np ← recorded classes dist 1
  let nn ← recorded classes dist (-1)
  let s := col.foldl sumStep ((0, 0), (0, 0))
  let an ← quot s.1.2 nn
  let ap ← quot s.2.2 np
  pure ((nn, np), (an, ap), col.foldl (devStep an ap) (0, 0))

/-- The root of a double: AOS.hpp:700-701. -/
def rootOf (sqrt : K → K) (x : K) : Res K := if x < 0 then .error .nonFinite else .ok (sqrt x)

/-- The field `golub` of a feature: AOS.hpp:700-701. -/
def shapeGolub (sqrt : K → K) (classes : List Int) (dist : List Nat) (col : List (K × Int)) : Res K := do
  let m ← shapeMoments classes dist col
  let vp ← quot m.2.2.2 m.1.2
  let rp ← rootOf sqrt (vp - 1)
  let a ← quot |m.2.1.2 - m.2.1.2| rp
  let vn ← quot m.2.2.1 m.1.1
  let rn ← rootOf sqrt (vn - 1)
  pure (a + rn)

/-- The field `fisher` of a feature: AOS.hpp:702. -/
def shapeFisher (classes : List Int) (dist : List Nat) (col : List (K × Int)) : Res K := do
  let m ← shapeMoments classes dist col
  quot ((m.2.1.2 - m.2.1.1) ^ 2) (m.2.2.2 + m.2.2.1)

/-- What the features are sorted by, in descending order: `fabs(w * golub)` for shape 5, `fabs(w * fisher)` for shape 6.
AOS.hpp:707-716. -/
def sortKey (sqrt : K → K) (shape : Nat) (classes : List Int) (dist : List Nat) (col : List (K × Int)) (w : K) : Res K :=
  if shape = 6 then do
    let f ← shapeFisher classes dist col
    pure |w * f|
  else if shape = 5 then do
    let g ← shapeGolub sqrt classes dist col
    pure |w * g|
  else pure |w|

/-- The field `dcents` of a weight: -1 unless the features are sorted by shape 2 or 3; `dist` is `distCenters(sample, fname)`.
AOS.hpp:639, 644-652. -/
def dcentsOf (shape : Nat) (dist : Int → K) (fname : Int) : K := if shape = 2 ∨ shape = 3 then dist fname else -1

/-- The field `value` of a new node: AOS.hpp:773-777. -/
def childValue (choice : Nat) (tp dcents : K) : K := if choice = 2 then tp * dcents else tp

/-- One round of the branching loop with a choice shape; a weight carries the name of its feature and `dcents`.
AOS.hpp:742-844. -/
def branchC (lm : Libm K) (c : Cfg K) (choice dim level : Nat) (ofnames : List Int) (weights : List (K × Int × K))
    (wnorm margin : K) (st : Srch K) (i : Nat) : Res (Srch K) := do
  let wt ← vget weights i
  let tp ← projMargin lm c.q dim i wt.1 wnorm margin
  let old ← (List.range level).mapM (fun j => vget ofnames j)
  let p := st.mem.length
  let v := childValue choice tp wt.2.2
  let mem := st.mem ++ [some ⟨sortDesc (old ++ [wt.2.1]), level + 1, v, tp, -1⟩]
  let (mem, hash, new) ← add mem st.hash p
  let st := { st with mem := mem, ws := st.ws ++ [[]], hash := hash }
  if i ≠ 0 ∧ v < (19 / 20) * c.gMargin then pure st
  else if new then do
    let (heap, _) ← insert c.cap st.mem st.heap p
    pure { st with heap := heap }
  else pure st

/-- The branching loop: AOS.hpp:742-844. -/
def branchesC (lm : Libm K) (c : Cfg K) (choice dim level : Nat) (ofnames : List Int) (weights : List (K × Int × K))
    (wnorm margin : K) (st : Srch K) : Res (Srch K) :=
  (List.range c.breadth).foldlM (branchC lm c choice dim level ofnames weights wnorm margin) st

end
end MLTK.Aos
