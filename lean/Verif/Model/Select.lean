import Verif.Model.Features
/-!
# Golub, Fisher and recursive feature elimination

Numbers are elements of an ordered field with a given square root; a result that is not a finite number is the fault
`nonFinite` (in the program it is a NaN or an infinity that reaches `std::sort`).  The order in which `std::sort` leaves
equal keys is unknown, so the sorting is an argument.  Training is an argument too: the `k`-th call of `train()`
succeeds or not, and leaves a weight vector.  Printed text, times and cross-validation are left out.
-/
namespace MLTK.Select
open MLTK.Feat (Tbl removeFeatures)

section
variable {K : Type} [Field K] [LinearOrder K]

/-- One sample in the loop of the averages: number and sum of the negative and of the other samples.
Models Golub.hpp:54-62, Fisher.hpp:63-71. -/
def sumStep (s : (Nat × K) × (Nat × K)) (xy : K × Int) : (Nat × K) × (Nat × K) :=
  if xy.2 = -1 then ((s.1.1 + 1, s.1.2 + xy.1), s.2) else (s.1, (s.2.1 + 1, s.2.2 + xy.1))

/-- One sample in the loop of the standard deviations.  Models Golub.hpp:72-76, Fisher.hpp:81-85. -/
def devStep (an ap : K) (s : K × K) (xy : K × Int) : K × K :=
  if xy.2 = -1 then (s.1 + (xy.1 - an) ^ 2, s.2) else (s.1, s.2 + (xy.1 - ap) ^ 2)

/-- A quotient of doubles. -/
def quot (a b : K) : Res K := if b = 0 then .error .nonFinite else .ok (a / b)

/-- Averages and standard deviations of one feature; with no or one sample in a class they are not numbers.
Models Golub.hpp:49-79, Fisher.hpp:58-88. -/
def moments (sqrt : K → K) (col : List (K × Int)) : Res ((K × K) × (K × K)) := do
  let s := col.foldl sumStep ((0, 0), (0, 0))
  let an ← quot s.1.2 s.1.1
  let ap ← quot s.2.2 s.2.1
  let d := col.foldl (devStep an ap) (0, 0)
  let vn ← quot d.1 ((s.1.1 : K) - 1)
  let vp ← quot d.2 ((s.2.1 : K) - 1)
  pure ((an, ap), (sqrt vn, sqrt vp))

/-- The score of a feature.  Models Golub.hpp:85. -/
def golubScore (sqrt : K → K) (col : List (K × Int)) : Res K := do
  let m ← moments sqrt col
  quot |m.1.2 - m.1.1| (m.2.2 + m.2.1)

/-- The score of a feature.  Models Fisher.hpp:94. -/
def fisherScore (sqrt : K → K) (col : List (K × Int)) : Res K := do
  let m ← moments sqrt col
  quot ((m.1.2 - m.1.1) ^ 2) (m.2.2 + m.2.1)

/-- `(*samples)[j]->X()[i]` and `Y()` for every `j`. -/
def column (d : Tbl K) (ys : List Int) (i : Nat) : Res (List (K × Int)) :=
  (d.rows.zip ys).mapM (fun r => do
    let x ← vget r.1 i
    pure (x, r.2))

/-- The scores with the feature names.  Models Golub.hpp:81-89, Fisher.hpp:90-98. -/
def scores (score : List (K × Int) → Res K) (d : Tbl K) (ys : List Int) : Res (List (Int × K)) :=
  (List.range d.dim).mapM (fun i => do
    let c ← column d ys i
    let s ← score c
    let n ← vget d.fnames i
    pure (n, s))

/-- The elimination loop: `n` steps left, `i` done; `part` is the last dataset that was trained.
Models Golub.hpp:114-139, Fisher.hpp:123-148. -/
def elim (train : Nat → Tbl K → Bool) (sorted : List (Int × K)) : Nat → Nat → List Int → Tbl K → Tbl K → Res (Tbl K)
  | 0, _, _, stmp, _ => .ok stmp
  | n + 1, i, remove, stmp, part => do
    let s ← vget sorted i
    let remove ← vset remove i s.1
    let r ← removeFeatures stmp remove
    if train (i + 1) r.1 then elim train sorted n (i + 1) remove r.1 r.1 else .ok part

/-- `selectFeatures` of Golub (`fill = 0`) and Fisher (`fill = -1`); `number` is the wanted dimension, `train = none`
a null classifier.  Models Golub.hpp:37-148, Fisher.hpp:46-157. -/
def filterSelect (score : List (K × Int) → Res K) (fill : Int) (srt : List (Int × K) → List (Int × K))
    (train : Option (Nat → Tbl K → Bool)) (number : Int) (d : Tbl K) (ys : List Int) : Res (Tbl K) :=
  if (d.dim : Int) < number then .error .exception
  else do
    let sc ← scores score d ys
    match train with
    | none => .error .badPointer
    | some train =>
      let n := ((d.dim : Int) - number).toNat
      elim train (srt sc) n 0 (List.replicate n fill) d d

/-! ### Recursive feature elimination -/

/-- The weights with the feature names.  Models RFE.hpp:192-199. -/
def weights (stmp : Tbl K) (w : List K) : Res (List (Int × K)) :=
  (List.range stmp.dim).mapM (fun i => do
    let x ← vget w i
    let n ← vget stmp.fnames i
    pure (n, x))

/-- Recording the removed names: `features[i] = weight[i - level].fname` for `i` in `level … leveljump-1`.
Models RFE.hpp:273-277. -/
def record (ws : List (Int × K)) (level n : Nat) (features : List Int) : Res (List Int) :=
  (List.range n).foldlM (fun fs i => do
    let s ← vget ws i
    vset fs (level + i) s.1) features

/-- The loop of `selectFeatures`; `learn k` is the `k`-th training (`none` when it fails), `stop k` says whether the
cross-validation error stops the search there, `lj` is `leveljump`.  Returned are the dataset and the member `jump`,
which the search may change.  A stop with `leveljump = 0` prints eliminated features without bound (line 220).
The weights kept for the next training (lines 249-269) are part of `learn`.  Models RFE.hpp:88-291. -/
def rfeLoop (learn : Nat → Tbl K → Option (List K)) (stop : Nat → Bool) (srt : List (Int × K) → List (Int × K))
    (samples : Tbl K) (depth : Nat) : Nat → Nat → Nat → Nat → Nat → List Int → Tbl K → Res (Tbl K × Nat)
  | 0, _, _, _, _, _, _ => .error .diverges
  | fuel + 1, k, level, jump, lj, features, stmp =>
    match learn k stmp with
    | none => .ok (if level > 0 then samples else stmp, jump)
    | some w => do
      let ws ← weights stmp w
      if level ≥ depth ∨ stop k = true then (if lj = 0 then .error .outOfBounds else .ok (stmp, jump))
      else do
        let lj := if level + jump > depth then depth else level + jump
        let features ← record (srt ws) level (lj - level) features
        let r ← removeFeatures stmp features
        if level + jump > depth then rfeLoop learn stop srt samples depth fuel (k + 1) depth 0 lj features r.1
        else rfeLoop learn stop srt samples depth fuel (k + 1) (level + jump) jump lj features r.1

/-- `RFE::selectFeatures`, where the constructor sets `depth` to `dim - final_dim`; the first argument bounds the number
of trainings.  Models RFE.hpp:37, 53-76, 297-303. -/
def rfe (fuel : Nat) (learn : Nat → Tbl K → Option (List K)) (stop : Nat → Bool)
    (srt : List (Int × K) → List (Int × K)) (jump : Nat) (finalDim : Int) (d : Tbl K) : Res (Tbl K × Nat) :=
  let depth := (d.dim : Int) - finalDim
  if depth < 1 ∨ depth ≥ d.dim then .ok (⟨[], [], 0⟩, jump)
  else rfeLoop learn stop srt d depth.toNat fuel 0 0 jump 0 (List.replicate depth.toNat (-1)) d

end
end MLTK.Select
