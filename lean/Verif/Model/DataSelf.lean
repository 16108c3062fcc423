import Verif.Model.Data
/-!
# Operations of `mltk::Data` whose argument is the dataset itself, and `classesCopy` into any dataset

`Data.assign`, `Data.join`, `Data.insertFrom` and `Data.eqv` read everything they need of their argument
before they change the dataset, so `assign d d`, `join m d d`, `insertFrom m d d i k` and `eqv m d d`
are the calls with the dataset itself.  `copy` and `classesCopy` change the vector they read.
-/
namespace MLTK.Data
variable {T : Type}

/-- The loop of `d.copy(d)`: the vector of points, cleared before, is read and appended to; `n` rounds
are left, the next position is `i`.  Models Data.hpp:1561-1570. -/
def copySelfLoop (m : Mem T) (pts : List Nat) : Nat → Nat → Res (Mem T × List Nat)
  | 0, _ => .ok (m, pts)
  | n + 1, i => do
    let r ← vget pts i
    let p ← deref m r
    copySelfLoop (m ++ [p]) (pts ++ [m.length]) n (i + 1)

/-- `d.copy(d)`.  Models Data.hpp:1557-1585: `_size` is read before the points are cleared, `m_size` and
`m_dim` are read afterwards. -/
def copySelf (m : Mem T) (d : Data) : Res (Mem T × Data) := do
  let (m', ps) ← copySelfLoop m [] d.size 0
  let dm ← dim m' { d with points := ps }
  return (m', { d with points := ps, msize := ps.length, mdim := dm })

/-- The loop of `classesCopy` for a target that is another dataset: Data.hpp:1526-1536. -/
def appendClasses (cs : List Int) : Mem T → List Nat → List Nat → Res (Mem T × List Nat)
  | m, acc, [] => .ok (m, acc)
  | m, acc, r :: rs => do
    let p ← deref m r
    if p.y ∈ cs then appendClasses cs (m ++ [p]) (acc ++ [m.length]) rs
    else appendClasses cs m acc rs

/-- `self.classesCopy(src, cs)` for two different datasets: Data.hpp:1519-1548.  The points of `self` are
not removed, `m_size` is set to the number of copied points; names, counts and the name of the dataset
are left as they were. -/
def classesCopyInto (m : Mem T) (self src : Data) (cs : List Int) : Res (Mem T × Data) := do
  let (m', pts) ← appendClasses cs m self.points src.points
  let dm ← dim m src
  return (m', { self with points := pts, fnames := src.fnames, msize := pts.length - self.points.length,
                          classes := cs, mdim := dm, type := src.type, index := src.index,
                          isEmpty := src.isEmpty, normalized := src.normalized, timeMult := src.timeMult,
                          cdistComputed := false })

/-- The loop of `d.classesCopy(d, cs)`: the vector grows while it is read; `fuel` bounds the number of
rounds, `diverges` says that they do not suffice.  Models Data.hpp:1526-1536. -/
def classesSelfLoop (cs : List Int) : Nat → Mem T → List Nat → Nat → Res (Mem T × List Nat)
  | fuel, m, pts, i =>
    if i < pts.length then
      match fuel with
      | 0 => .error .diverges
      | fuel + 1 => do
        let r ← vget pts i
        let p ← deref m r
        if p.y ∈ cs then classesSelfLoop cs fuel (m ++ [p]) (pts ++ [m.length]) (i + 1)
        else classesSelfLoop cs fuel m pts (i + 1)
    else .ok (m, pts)

/-- `d.classesCopy(d, cs)` with at most `fuel` rounds of its loop.  Models Data.hpp:1519-1548. -/
def classesCopySelf (fuel : Nat) (m : Mem T) (d : Data) (cs : List Int) : Res (Mem T × Data) := do
  let (m', pts) ← classesSelfLoop cs fuel m d.points 0
  let dm ← dim m' { d with points := pts }
  return (m', { d with points := pts, msize := pts.length - d.points.length, classes := cs, mdim := dm,
                       cdistComputed := false })

end MLTK.Data
