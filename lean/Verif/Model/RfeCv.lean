import Verif.Model.Select
import Verif.Model.DataMore
/-!
# Recursive feature elimination with cross-validation

`RFE` may be given a `CrossValidation` (Validation.hpp:62-71).  In some rounds it then runs `kfold` several times on the
current features, with the same classifier object, before it reads the weights.  What a cross-validation reports and the
weights it leaves in the classifier are arguments: `err k i t` is the error of the `i`-th cross-validation of round `k` on
the dataset `t`, and `left k t` the weight vector after the last of them.  The accuracy is 100 minus the error
(Validation.hpp:408-409).  The counters of the structure are taken as natural numbers.
-/
namespace MLTK.Select
open MLTK.Feat (Tbl removeFeatures)

section
variable {K : Type} [Field K] [LinearOrder K]

/-- The part of `validation::CrossValidation` that controls the search.  Models Validation.hpp:62-71. -/
structure Cv (K : Type) where
  /-- Number of cross-validations in a round. -/
  qtde : Nat
  /-- Levels between two validated levels. -/
  jump : Nat
  /-- Rise of the error that stops the search. -/
  limit : K

/-- The loop that sums the errors of the cross-validations.  Models RFE.hpp:170-173, 225-228. -/
def sumErrors (err : Nat → K) (n : Nat) : K := (List.range n).foldl (fun s i => s + (100 - (100 - err i))) 0

/-- The loop for the initial error, which assigns where the other one adds.  Models RFE.hpp:164-167. -/
def lastError (err : Nat → K) (n : Nat) : K := (List.range n).foldl (fun _ i => err i) 0

/-- The cross-validations of one round: the two errors, and the weights in the classifier afterwards.
Models RFE.hpp:162-176, 192. -/
def validateRound (cv : Cv K) (err : Nat → K) (left : List K) (level : Nat) (w : List K) (ia : K × K) :
    Res ((K × K) × List K) :=
  if cv.qtde = 0 then .ok (ia, w)
  else if level = 0 then .ok ((lastError err cv.qtde, ia.2), left)
  else if cv.jump = 0 then .error .divByZero
  else if level % cv.jump = 0 then .ok ((ia.1, sumErrors err cv.qtde), left)
  else .ok (ia, w)

/-- The errors reported at the end.  Models RFE.hpp:118-125, 223-230. -/
def finalErrors (cv : Cv K) (err : Nat → K) (level : Nat) (ia : K × K) : Res (K × K) :=
  if cv.qtde = 0 then .ok ia
  else if cv.jump = 0 then .error .divByZero
  else if level % cv.jump ≠ 0 then .ok (ia.1, sumErrors err cv.qtde)
  else .ok ia

/-- The loop of `selectFeatures`; `prev` is the level of the last successful training (`dim - partial_dim`), the other
arguments are those of `rfeLoop`.  Returned are the dataset, the member `jump`, and the initial and the actual error left
in the structure.  Models RFE.hpp:88-291. -/
def rfeCvLoop (learn : Nat → Tbl K → Option (List K)) (err : Nat → Nat → Tbl K → K) (left : Nat → Tbl K → List K)
    (srt : List (Int × K) → List (Int × K)) (samples : Tbl K) (depth : Nat) (cv : Cv K) :
    Nat → Nat → Nat → Nat → Nat → Nat → List Int → Tbl K → K × K → Res (Tbl K × Nat × (K × K))
  | 0, _, _, _, _, _, _, _, _ => .error .diverges
  | fuel + 1, k, level, prev, jump, lj, features, stmp, ia =>
    match learn k stmp with
    | none =>
      if level = 0 then .ok (stmp, jump, ia)
      else do
        let e ← finalErrors cv (fun i => err k i stmp) prev ia
        .ok (samples, jump, e)
    | some w => do
      let v ← validateRound cv (fun i => err k i stmp) (left k stmp) level w ia
      let ws ← weights stmp v.2
      if level ≥ depth ∨ (0 < cv.qtde ∧ v.1.2 - v.1.1 > cv.limit) then
        (if lj = 0 then .error .outOfBounds
         else do
          let e ← finalErrors cv (fun i => err k i stmp) level v.1
          .ok (stmp, jump, e))
      else do
        let lj := if level + jump > depth then depth else level + jump
        let features ← record (srt ws) level (lj - level) features
        let r ← removeFeatures stmp features
        if level + jump > depth then
          rfeCvLoop learn err left srt samples depth cv fuel (k + 1) depth level 0 lj features r.1 v.1
        else rfeCvLoop learn err left srt samples depth cv fuel (k + 1) (level + jump) level jump lj features r.1 v.1

/-- `RFE::selectFeatures` with a cross-validation; `ia` are the errors in the structure before, which are reset when it
is in use.  Models RFE.hpp:37, 53-84, 297-303. -/
def rfeCv (fuel : Nat) (learn : Nat → Tbl K → Option (List K)) (err : Nat → Nat → Tbl K → K)
    (left : Nat → Tbl K → List K) (srt : List (Int × K) → List (Int × K)) (jump : Nat) (finalDim : Int) (cv : Cv K)
    (ia : K × K) (d : Tbl K) : Res (Tbl K × Nat × (K × K)) :=
  let depth := (d.dim : Int) - finalDim
  if depth < 1 ∨ depth ≥ d.dim then .ok (⟨[], [], 0⟩, jump, ia)
  else rfeCvLoop learn err left srt d depth.toNat cv fuel 0 0 0 jump 0 (List.replicate depth.toNat (-1)) d
    (if 0 < cv.qtde then (0, 0) else ia)

/-- The loop that clears the weights of the features that go; it compares the values, not the positions.
Models RFE.hpp:251-254. -/
def clearWeights (ws : List (Int × K)) (n : Nat) (w : List K) : List K :=
  w.map (fun x => if (ws.take n).any (fun p => decide (p.2 = x)) then 0 else x)

/-- The weights kept for the next training of a primal classifier: `old` is the vector `new_w` of the round before, `ws`
the sorted weights, `n` features go, and the new vector has `size` entries.  Models RFE.hpp:250-265. -/
def keepWeights (ws : List (Int × K)) (n : Nat) (old : List K) (size : Nat) (w : List K) : Res (List K) := do
  let r ← ((clearWeights ws n w).filter (fun x => decide (x ≠ 0))).foldlM
    (fun (s : Nat × List K) x => do
      let v ← vset s.2 s.1 x
      pure (s.1 + 1, v)) (0, Data.resizeTo old size)
  pure r.2

end
end MLTK.Select
