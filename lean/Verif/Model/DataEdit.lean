import Verif.Model.Data
import Verif.Model.Features
/-!
# Changing samples behind the dataset's back, and removing features from a copy

Source: ufjfmltk-core/include/ufjfmltk/core/Data.hpp.

Simplification: the function given to `apply` changes only the sample it is given, and does so by a function of it.
-/
namespace MLTK.Data

variable {T : Type}

/-- `setPoint(index, p)`, and `d[index] = p` through the reference `operator[]` returns: the pointer is replaced and nothing else.
Models Data.hpp:507, 1515-1517. -/
def setPoint (d : Data) (idx : Int) (r : Nat) : Res Data :=
  if idx < 0 then .error .outOfBounds
  else do
    let ps ← vset d.points idx.toNat r
    pure { d with points := ps }

/-- `apply(f)`: the function is called with every pointer in turn.  Models Data.hpp:2130-2132. -/
def applyAll (m : Mem T) (f : Pt T → Pt T) : List Nat → Res (Mem T)
  | [] => .ok m
  | r :: rs => do
    let p ← deref m r
    applyAll (m.set r (f p)) f rs

end MLTK.Data

namespace MLTK.Feat

/-- `removeFeatures(feats, fsize) const`: the first `fsize` of the features (all of them for -1) are removed from a copy; whether that succeeded is
not reported.  Models Data.hpp:1359-1365. -/
def removeFirst {T : Type} (d : Tbl T) (feats : List Int) (fsize : Int) : Res (Tbl T) :=
  if fsize = -1 then do
    let r ← removeFeatures d feats
    pure r.1
  else if fsize < 0 ∨ feats.length < fsize.toNat then .error .outOfBounds
  else do
    let r ← removeFeatures d (feats.take fsize.toNat)
    pure r.1

end MLTK.Feat
