import Mathlib.Order.Basic
import Verif.Model.Basic
/-!
# Specification: asking about many points at once
-/
namespace MLTK.Spec
variable {S K X : Type}

/-- The states a learner can be in after being asked any number of questions. -/
inductive Asked (ev : S → X → Res (K × S)) (s : S) : S → Prop
  | none : Asked ev s s
  | more {s' s'' : S} {x : X} {y : K} : Asked ev s s' → ev s' x = .ok (y, s'') → Asked ev s s''

/-- The answer to a question, without the state it leaves. -/
def answer (ev : S → X → Res (K × S)) (s : S) (x : X) : Res K := (ev s x).map Prod.fst

/-- Asking questions does not change the answers. -/
def Steady (ev : S → X → Res (K × S)) (s : S) : Prop := ∀ s', Asked ev s s' → ∀ x, answer ev s' x = answer ev s x

/-- `preds` has one entry for each point, the answer to that point. -/
def EachAnswered (ev : S → X → Res (K × S)) (s : S) (points : List X) (preds : List K) : Prop :=
  preds.length = points.length ∧ ∀ (i : Nat) x, points[i]? = some x → ∃ y, answer ev s x = .ok y ∧ preds[i]? = some y

end MLTK.Spec
