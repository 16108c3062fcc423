import Mathlib.Analysis.SpecialFunctions.Pow.Real
import Verif.Model.Point
/-!
# Model of `mltk::stats` (Statistics.hpp)

Simplifications: `double` is an arbitrary field (the reals where a square root or an order is needed),
division by zero gives zero.  A dataset is the list of the feature vectors of its samples with the
list of feature names and labels; `dim` is passed explicitly.
-/
namespace MLTK.Stats
open MLTK.PointM

section
variable {K : Type} [Field K]

/-- `mean(p)`: Statistics.hpp 102-106. -/
def mean (p : List K) : Res K :=
  if p.length > 0 then .ok (psum id p / p.length) else .error .assertFail

/-- `var(p)`: Statistics.hpp 141-145. -/
def var (p : List K) : Res K := do
  if p.length > 0 then
    let m ← mean p
    let d ← (Expr.un (fun v => v ^ 2) (.sub (.pt p) (.sc m))).construct
    return psum id d / p.length
  else .error .assertFail

/-- `covar(p, p1)`: Statistics.hpp 179-183. -/
def covar (p q : List K) : Res K := do
  if p.length = q.length then
    let m ← mean p
    let m1 ← mean q
    let d ← (Expr.mul (.sub (.pt p) (.sc m)) (.sub (.pt q) (.sc m1))).construct
    return psum id d / ((q.length : K) - 1)
  else .error .assertFail

/-- Summing feature `j` over the samples: Statistics.hpp 111-113, 158-160, 197-199. -/
def colSum (rows : List (List K)) (j : Nat) : Res K :=
  rows.foldlM (fun s r => do let v ← vget r j; return s + v) 0

/-- `mean(data, feat)`: Statistics.hpp 108-116. -/
def meanFeat (dim : Nat) (rows : List (List K)) (feat : Nat) : Res K :=
  if feat < dim then do
    let s ← colSum rows feat
    return if rows.length > 0 then s / rows.length else 0
  else .error .assertFail

/-- The averages of the features not named `feat`: Statistics.hpp 155-163, 194-202; a feature that is
skipped keeps the zero it was created with. -/
def avgs (dim : Nat) (names : List Int) (rows : List (List K)) (skip : Int → Bool) : Res (List K) :=
  (List.range dim).foldlM (fun acc j => do
    let f ← vget names j
    if skip f then return acc ++ [0]
    let s ← colSum rows j
    return acc ++ [s / rows.length]) []

/-- Squared distance of a sample to the averages over the features not skipped: Statistics.hpp 167-172,
205-209. -/
def sqToAvg (dim : Nat) (names : List Int) (avg row : List K) (skip : Int → Bool) : Res K :=
  (List.range dim).foldlM (fun s j => do
    let f ← vget names j
    if skip f then return s
    let a ← vget avg j
    let x ← vget row j
    return s + (a - x) ^ 2) 0

/-- `var(data, feat)`: Statistics.hpp 147-177.  `feat` is unsigned, so `feat < 0` is never true. -/
def varFeat (dim : Nat) (names : List Int) (rows : List (List K)) (feat : Nat) : Res K := do
  let avg ← avgs dim names rows (fun f => f = (feat : Int))
  let s ← rows.foldlM (fun s r => do let v ← sqToAvg dim names avg r (fun f => f = (feat : Int)); return s + v) 0
  return s / rows.length

/-- Class averages: Statistics.hpp 241-252, 275-286 (`pos` selects the samples with label 1). -/
def classAvg (dim : Nat) (rows : List (List K × Int)) (pos : Bool) : Res (List K) :=
  (List.range dim).foldlM (fun acc j => do
    let s ← colSum ((rows.filter (fun r => (r.2 = 1) = pos)).map Prod.fst) j
    return acc ++ [s / (rows.countP (fun r => (r.2 = 1) = pos) : Nat)]) []

end

/-- `std_dev(p)`: Statistics.hpp 118-122. -/
noncomputable def stdDev (p : List ℝ) : Res ℝ := do
  let v ← var p
  return Real.sqrt v

/-- `std_dev(data, feat)`: Statistics.hpp 124-139; for no samples the divisor is the unsigned `0 - 1`. -/
noncomputable def stdDevFeat (dim : Nat) (rows : List (List ℝ)) (feat : Nat) : Res ℝ := do
  if rows.length = 1 then return 0
  let avg ← meanFeat dim rows feat
  let sd ← rows.foldlM (fun s r => do let v ← vget r feat; return s + (v - avg) * (v - avg)) 0
  return Real.sqrt (sd / (decSize rows.length : Nat))

/-- `feat < 0 || fnames[j] != feat` negated: Statistics.hpp 196, 207, 218, 255. -/
def skipFeat (feat : Int) (f : Int) : Bool := ¬ (feat < 0) ∧ f = feat

/-- `radius(data, feat, q)`: Statistics.hpp 185-226. -/
noncomputable def radius (dim : Nat) (names : List Int) (rows : List (List ℝ)) (feat : Int) (q : ℝ) : Res ℝ := do
  if q = 2 then
    let avg ← avgs dim names rows (skipFeat feat)
    rows.foldlM (fun mx r => do
      let n ← sqToAvg dim names avg r (skipFeat feat)
      return if mx < Real.sqrt n then Real.sqrt n else mx) 0
  else if q = 1 then
    rows.foldlM (fun mx r => (List.range dim).foldlM (fun mx j => do
      let f ← vget names j
      if skipFeat feat f then return mx
      let x ← vget r j
      return if mx < |x| then |x| else mx) mx) 0
  else return 1

/-- `distCenters(data, feat)`: Statistics.hpp 228-260. -/
noncomputable def distCenters (dim : Nat) (names : List Int) (rows : List (List ℝ × Int)) (feat : Int) : Res ℝ := do
  let ap ← classAvg dim rows true
  let an ← classAvg dim rows false
  let d ← (List.range dim).foldlM (fun s j => do
    let f ← vget names j
    if skipFeat feat f then return s
    let a ← vget ap j
    let b ← vget an j
    return s + (a - b) ^ 2) (0 : ℝ)
  return Real.sqrt d

/-- `distCentersWithoutFeats(data, feats, index)`: Statistics.hpp 262-296. -/
noncomputable def distCentersWithoutFeats (dim : Nat) (names : List Int) (rows : List (List ℝ × Int))
    (feats : List Int) : Res ℝ := do
  let ap ← classAvg dim rows true
  let an ← classAvg dim rows false
  let d ← (List.range dim).foldlM (fun s j => feats.foldlM (fun s g => do
    let f ← vget names j
    if f = g then
      let a ← vget ap j
      let b ← vget an j
      return s - (a - b) ^ 2
    else return s) s) (0 : ℝ)
  return Real.sqrt |d|

end MLTK.Stats
