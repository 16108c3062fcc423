import Verif.Model.Split
import Verif.Model.Features
/-!
# Sampling of a dataset and the training of `BaggingClassifier`

The draws are parameters, as in `Model/Features.lean`: `draw k hi` is the result of the `k`-th call of a
`uniform_int_distribution(0, hi)`.  The seed enters only through the draws.
-/
namespace MLTK.Bag
variable {T : Type}

/-- `Data::sampling(samp_size, with_replacement, seed)`: the points of the class datasets are inserted as shared
pointers, without keeping their ids.  `none` when some `while` needs more than `fuel` draws.  The draws do not depend
on the insertions, so all of them are made first.  Models Data.hpp:2030-2066. -/
def samplingData (m : Mem T) (d : Data) (draw : Nat → Nat → Nat) (fuel samp : Nat) (repl : Bool) :
    Res (Option (Mem T × Data)) := do
  if samp > d.size then .error .assertFail
  let (m, parts) ← MLTK.Data.splitByClasses m d false
  let shares := d.dist.map (Feat.share d.size samp)
  let his ← shares.mapM Feat.upper
  let out ← Feat.drawAll draw repl fuel ((parts.map Data.points).zip (his.zip (shares.map Feat.quota))) ([], 0)
  match out with
  | none => return none
  | some xs => do
    let r ← MLTK.Data.insertAll false m MLTK.Data.empty xs.flatten
    return some r

/-- The loop over the estimators `i, i+1, …`, with `n` left: `setSamples(const Data&)` makes a deep copy of the sample
(Learner.hpp:150).  What `train` of an estimator does to its own copy is not modelled.
Models BaggingClassifier.hpp:36-41. -/
def trainLoop (d : Data) (draws : Nat → Nat → Nat → Nat) (fuel samp : Nat) :
    Nat → Nat → Mem T → Res (Option (Mem T × List Data))
  | 0, _, m => return some (m, [])
  | n + 1, i, m => do
    let s ← samplingData m d (draws i) fuel samp true
    match s with
    | none => return none
    | some (m, s) => do
      let (m, c) ← MLTK.Data.copy m s
      let r ← trainLoop d draws fuel samp n (i + 1) m
      match r with
      | none => return none
      | some (m, cs) => return some (m, c :: cs)

/-- `BaggingClassifier::train()` with `n` estimators: the datasets given to them.  `draws i` are the draws made with the
seed of estimator `i`.  Dividing by zero estimators is undefined.  Models BaggingClassifier.hpp:32-43. -/
def train (m : Mem T) (d : Data) (n : Nat) (draws : Nat → Nat → Nat → Nat) (fuel : Nat) :
    Res (Option (Mem T × List Data)) := do
  if n = 0 then .error .divByZero
  trainLoop d draws fuel (d.size / n) n 0 m

/-- The two members called `seed`: `own` is BaggingClassifier.hpp:15, `base` is Learner.hpp:46. -/
structure Seeds where
  own : Nat
  base : Nat
  deriving DecidableEq, Repr

/-- `setSeed` is a function of `Learner` and writes its member.  Models Learner.hpp:145. -/
def setSeed (s : Seeds) (v : Nat) : Seeds := { s with base := v }

/-- The seed given to estimator `i`; `rd k` is the result of the `k`-th `std::random_device()()` of the call.  The
second draw from the device is made when the first one gave zero.  Returns the members as they are left, too.
Models BaggingClassifier.hpp:32, 36-38. -/
def seedOf (s : Seeds) (rd : Nat → Nat) (i : Nat) : Nat × Seeds :=
  let seed := if s.own = 0 then rd 0 else s.own
  (seed + (if seed = 0 then rd (i + 1) else i), { s with own := seed })

end MLTK.Bag
