import Verif.Model.Point
import Verif.Model.Seeds
/-!
# Model of `AutoWeightedVoting`

Source: ufjfmltk-ensemble/include/ufjfmltk/ensemble/AutoWeightedVoting.hpp.  The file ends with an `#endif` that has no `#if`; it is read as
if that line were not there.

Simplifications: numbers are a linearly ordered field; `Point::norm()` is a parameter `norm`; the voter with given weights is a function
`vote` (its members were trained before, line 204); the outputs of the generator are functions of the generation, the member and
the number of the draw, so they range over everything that a generator can give; a loop that draws until it finds a
parent is given `fuel` draws and answers `diverges` when they are used up.
-/
namespace MLTK.AutoVote

section
variable {K : Type} [Field K] [LinearOrder K]

/-- The loop of `simplex_projection` from the position `i` down: `tmax` where it breaks (`none`: it does not), and `tmpsum`.
`t` is computed but never used.  Models AutoWeightedVoting.hpp:47-60. -/
def projLoop (u : List K) (n : Nat) : Nat → K → Option K × K
  | 0, tmp => (none, tmp)
  | i+1, tmp =>
    let tmp := tmp + u.getD i 0
    let tmax := (tmp - 1) / ((n - i : Nat) : K)
    if tmax ≥ u.getD i 0 then (some tmax, tmp) else projLoop u n i tmp

/-- `simplex_projection(y)`: with fewer than two components `t[i]` is outside and `Point::operator[]` asserts.
Models AutoWeightedVoting.hpp:38-71. -/
def simplexProjection (y : List K) : Res (List K) :=
  if y.length < 2 then .error .assertFail
  else
    let u := y.insertionSort (· ≤ ·)
    let n := y.length
    let r := projLoop u n (n - 1) 0
    let that := match r.1 with
      | some t => t
      | none => (r.2 + u.getD (n - 1) 0 - 1) / (n : K)
    .ok (y.map (fun v => if v - that < 0 then 0 else v - that))

/-- `compute_acc(data, learner)`, times 100: for an empty dataset the quotient is not a number.
Models AutoWeightedVoting.hpp:73-82, 84-106. -/
def objective (vote : List K → List K → Int) (test : List (List K × Int)) (w : List K) : Res K :=
  if test = [] then .error .nonFinite
  else .ok (100 * (((test.filter (fun p => vote w p.1 = p.2)).length : K) / (test.length : K)))

/-- What a search is given: `F`, `CR`, `use_simplex`, the norm, and the outputs of the generator: the positions drawn for the parents, the
cut point, and the numbers compared with `CR`. -/
structure Search (K : Type) where
  F : K
  CR : K
  simplex : Bool
  norm : List K → K
  fuel : Nat
  draw : Nat → Nat → Nat → Nat
  cut : Nat → Nat → Nat
  cr : Nat → Nat → Nat → K

/-- `do { pos = dist(generator); P = population[pos]; } while (P == …)`: draws number `pos`, `pos + 1`, …
Models AutoWeightedVoting.hpp:149-152 (and 154-157, 160-163). -/
def pick (pop bad : List (List K)) (d : Nat → Nat) : Nat → Nat → Res (List K × Nat)
  | 0, _ => .error .diverges
  | f+1, pos =>
    let p := pop.getD (d pos % pop.length) []
    if p ∈ bad then pick pop bad d f (pos + 1) else .ok (p, pos + 1)

/-- `new_sample(P0, population)` in generation `g` for member `i`.  Models AutoWeightedVoting.hpp:142-185. -/
def newSample (s : Search K) (n g i : Nat) (p0 : List K) (pop : List (List K)) : Res (List K) := do
  let r1 ← pick pop [p0] (s.draw g i) s.fuel 0
  let r2 ← pick pop [p0, r1.1] (s.draw g i) s.fuel r1.2
  let r3 ← pick pop [p0, r1.1, r2.1] (s.draw g i) s.fuel r2.2
  let S := (List.range n).map (fun j => if j = s.cut g i % n ∨ s.cr g i j < s.CR
    then r3.1.getD j 0 + s.F * (r1.1.getD j 0 - r2.1.getD j 0) else p0.getD j 0)
  if s.simplex then simplexProjection (S.map (fun v => |v|))
  else if s.norm S = 0 then .error .nonFinite
  else .ok (S.map (fun v => |v / s.norm S|))

/-- One member of the next population: `p_costs[i]` is the value of the member.  Models AutoWeightedVoting.hpp:218-226. -/
def nextMember (s : Search K) (obj : List K → Res K) (n g : Nat) (best : List K) (pop : List (List K)) (i : Nat) (x : List K) (c : K) :
    Res (List K) := do
  let si ← newSample s n g i best pop
  let v ← obj si
  pure (if v ≤ c then si else x)

/-- `get_best_solution`: the first of the greatest costs.  Models AutoWeightedVoting.hpp:137-140. -/
def bestOf : List (List K × K) → Res (List K × K)
  | [] => .error .outOfBounds
  | a :: l => .ok (l.foldl (fun b c => if b.2 < c.2 then c else b) a)

/-- The variables of `train` after some generations: the population with its costs, `Sbest`, `best_generation`, and how many generations
were made. -/
structure State (K : Type) where
  pop : List (List K × K)
  best : List K × K
  bestGen : Nat
  made : Nat
  deriving DecidableEq, Repr

/-- The population of the next generation with its costs.  Models AutoWeightedVoting.hpp:217-228, 128-135. -/
def generation (s : Search K) (obj : List K → Res K) (n g : Nat) (best : List K) (pop : List (List K × K)) : Res (List (List K × K)) := do
  let new ← pop.zipIdx.mapM (fun p => nextMember s obj n g best (pop.map Prod.fst) p.2 p.1.1 p.1.2)
  new.mapM (fun x => do let c ← obj x; pure (x, c))

/-- The loop over the generations, at most `m` more.  Models AutoWeightedVoting.hpp:215-242. -/
def evolve (s : Search K) (obj : List K → Res K) (n : Nat) : Nat → State K → Res (State K)
  | 0, t => .ok t
  | m+1, t => do
    let pop ← generation s obj n t.made t.best.1 t.pop
    let cand ← bestOf pop
    let t' := if t.best.2 < cand.2 then State.mk pop cand t.made (t.made + 1) else State.mk pop t.best t.bestGen (t.made + 1)
    if t'.best.2 = 1 then .ok t' else evolve s obj n m t'

/-- `init_population`: `raw` are the vectors drawn.  Models AutoWeightedVoting.hpp:108-126. -/
def initPopulation (s : Search K) (raw : List (List K)) : Res (List (List K)) :=
  raw.mapM (fun w => if s.simplex then simplexProjection w else .ok (w.map (fun v => |v|)))

/-- `train()` after the members were trained: `n` members, `maxIt` generations; `best_weights` is the first component of `best`.
Models AutoWeightedVoting.hpp:205-244. -/
def train (s : Search K) (obj : List K → Res K) (n maxIt : Nat) (raw : List (List K)) : Res (State K) := do
  let pop ← initPopulation s raw
  let costed ← pop.mapM (fun x => do let c ← obj x; pure (x, c))
  let best ← bestOf costed
  evolve s obj n maxIt ⟨costed, best, 0, 0⟩

end

/-- The parts that `train()` trains and validates on: the seed of the object is handed over as `stratified`; the seed of the split is its
default, 0.  Models AutoWeightedVoting.hpp:202, Validation.hpp:167. -/
def trainParts {T : Type} (shuf : Nat → List Nat → List Nat) (m : Mem T) (d : Data) (seed : Nat) :
    Data.Draw (Res (Mem T × Data.TrainTest)) :=
  Data.partTrainTestSeeded shuf m d 10 (seed != 0) true 0

end MLTK.AutoVote
