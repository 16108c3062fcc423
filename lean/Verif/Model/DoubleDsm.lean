import Verif.Model.DoubleCentres
import Verif.Model.DoubleVote
import Verif.Model.Sampling
/-!
# The diverse subspace method in `double` arithmetic

`DSM` with the scores computed as in `Model/Double`, from the features and the labels.  `std::sqrt` is a parameter.
-/
namespace MLTK.Fp
open MLTK.Sampling (setIntersection)

/-- `std_dev(p)`.  Models Statistics.hpp:118-122. -/
def stdDevPoint (sqrt : Dbl → Dbl) (xs : List Dbl) : Res Dbl := do
  let v ← varPoint xs
  return sqrt v

/-- `DSM::qual_correlation`; `x` are the values of the feature.  Models Sampling.hpp:56-59. -/
def qualCorrelation (sqrt : Dbl → Dbl) (x labels : List Dbl) : Res Dbl := do
  let c ← covarPoint x labels
  let s ← stdDevPoint sqrt x
  let t ← stdDevPoint sqrt labels
  return c.div (s.mul t)

/-- `DSM::div_ms`.  Models Sampling.hpp:31-44. -/
def divMsD (subs : List (List Nat)) (i : Nat) : Dbl :=
  (Dbl.fin 1).sub (subs.zipIdx.foldl (fun mx p =>
    if p.2 = i then mx
    else
      let v := (Dbl.ofNat (setIntersection (subs.getD i []) p.1).length).div (.ofNat p.1.length)
      if mx.lt v then v else mx) (.fin 0))

/-- `DSM::div_mx`.  Models Sampling.hpp:46-54. -/
def divMxD (subs : List (List Nat)) (feat : Nat) : Dbl :=
  (Dbl.fin 1).sub ((subs.foldl (fun c s => if feat ∈ s then c.add (.fin 1) else c) (Dbl.fin 0)).div (.ofNat subs.length))

/-- `DSM::div_m`.  Models Sampling.hpp:27-29. -/
def divMD (subs : List (List Nat)) (i feat : Nat) : Dbl := ((divMxD subs feat).add (divMsD subs i)).div (.fin 2)

/-- The score of feature `c` for subspace `j`; `corr c` is the correlation of the feature with the labels.  Models Sampling.hpp:66-71. -/
def dsmScoreD (corr : Nat → Dbl) (alpha : Dbl) (subs : List (List Nat)) (j c : Nat) : Dbl :=
  if c ∈ subs.getD j [] then rnd (-101 / 100)
  else (alpha.mul (corr c)).add (((Dbl.fin 1).sub alpha).mul (divMD subs j c))

/-- The feature chosen for subspace `j`.  Models Sampling.hpp:66-72. -/
def dsmChoice (corr : Nat → Dbl) (alpha : Dbl) (dim : Nat) (subs : List (List Nat)) (j : Nat) : Nat :=
  maxElement ((List.range dim).map (dsmScoreD corr alpha subs j))

/-- One feature for every subspace.  Models Sampling.hpp:65-75. -/
def dsmRoundD (corr : Nat → Dbl) (alpha : Dbl) (dim i : Nat) (subs : List (List Nat)) : List (List Nat) :=
  (List.range subs.length).foldl (fun s j => s.set j ((s.getD j []).set i (dsmChoice corr alpha dim s j))) subs

/-- A call of a `DSM` object with the subspaces `subs`; `feats` are the features of the dataset, each with the values of the samples.
Simplified: the correlations are computed once, before the loops, and not again for every subspace; without subspaces or without places in them
they would not be computed at all.  Models Sampling.hpp:63-78. -/
def dsmCallD (sqrt : Dbl → Dbl) (feats : List (List Dbl)) (labels : List Dbl) (n : Nat) (alpha : Dbl) (subs : List (List Nat)) :
    Res (List (List Nat)) := do
  let cs ← feats.mapM (fun x => qualCorrelation sqrt x labels)
  return (List.range n).foldl (fun s i => dsmRoundD (fun c => cs.getD c .nan) alpha feats.length i s) subs

/-- `DSM(data, k, n, alpha)` and the first call of it.  Models Sampling.hpp:18-25, 63-78. -/
def dsmRun (sqrt : Dbl → Dbl) (feats : List (List Dbl)) (labels : List Dbl) (k n : Nat) (alpha : Dbl) : Res (List (List Nat)) :=
  dsmCallD sqrt feats labels n alpha (MLTK.Sampling.dsmInit k n)

/-- Calls of one `DSM` object with the dataset it was constructed from, each after `setAlpha` with one of the weights; the subspaces are kept from
call to call.  Models Sampling.hpp:61-78. -/
def dsmCallsD (sqrt : Dbl → Dbl) (feats : List (List Dbl)) (labels : List Dbl) (n : Nat) : List Dbl → List (List Nat) → Res (List (List Nat))
  | [], subs => .ok subs
  | alpha :: alphas, subs => do
    let subs' ← dsmCallD sqrt feats labels n alpha subs
    dsmCallsD sqrt feats labels n alphas subs'

end MLTK.Fp
