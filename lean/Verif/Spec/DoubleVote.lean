import Verif.Model.Double
/-!
# Weighted votes in `double` arithmetic
-/
namespace MLTK.Spec
open MLTK.Fp

/-- The weights of the voters for `c`, in the order of the voters. -/
def votersOf {K : Type} (weights : List K) (preds : List Int) (c : Int) : List K :=
  ((weights.zip preds).filter (fun v => v.2 = c)).map Prod.fst

/-- The weights of the voters for `c` added up one by one, every sum rounded to a `double`. -/
def doubleSupport (weights : List Dbl) (preds : List Int) (c : Int) : Dbl :=
  (votersOf weights preds c).foldl Dbl.add (.fin 0)

/-- `c` is the first of the classes whose score, a `double`, is greatest. -/
def FirstGreatest (classes : List Int) (score : Int → Dbl) (c : Int) : Prop :=
  ∃ before after, classes = before ++ c :: after ∧ (∀ c' ∈ classes, (score c').le (score c) = true) ∧
    ∀ c' ∈ before, (score c').lt (score c) = true

end MLTK.Spec
