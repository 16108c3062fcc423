import Verif.Spec.Select
/-!
# What eliminating features under the control of cross-validation means
-/
namespace MLTK.Spec
open MLTK.Feat (Tbl)

/-- Elimination step by step that ends with the wanted number of features or when the validation is worse than allowed:
`used k level d` are the weights round `k` goes by; a round must stop when `must` holds and stops early only when `may`
holds. -/
inductive ValidatedElimination {K : Type} [Field K] [LinearOrder K] (used : Nat → Nat → Tbl K → List K)
    (must may : Nat → Nat → Tbl K → Prop) (jump depth : Nat) : Nat → Nat → Tbl K → Tbl K → Prop where
  | final (k : Nat) (d : Tbl K) : ValidatedElimination used must may jump depth k depth d d
  | stop (k level : Nat) (d : Tbl K) : may k level d → ValidatedElimination used must may jump depth k level d d
  | step (k level : Nat) (d d' : Tbl K) (gone : List Int) :
      level < depth → ¬ must k level d → gone.length = min jump (depth - level) →
      RemovesWorst (d.fnames.zip ((used k level d).map (fun x => |x|))) gone →
      ValidatedElimination used must may jump depth (k + 1) (level + gone.length) (withoutFeatures d gone) d' →
      ValidatedElimination used must may jump depth k level d d'

/-- The mean error of the `q` cross-validations of a round. -/
def meanError {K : Type} [Field K] (q : Nat) (err : Nat → K) : K := ((List.range q).map err).sum / (q : K)

/-- The weights of the features that stay, in their order. -/
def keptWeights {K : Type} (d : Tbl K) (w : List K) (gone : List Int) : List K :=
  ((d.fnames.zip w).filter (fun p => decide (p.1 ∉ gone))).map Prod.snd

end MLTK.Spec
