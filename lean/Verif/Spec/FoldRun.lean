import Verif.Model.FoldRun
/-!
# Cross-validation as it is meant: every fold with the classifier as it was given
-/
namespace MLTK.Spec
open MLTK.Ens MLTK.Valid
variable {D M X : Type}

/-- Labels and answers of the test samples of a fold when the classifier as it was given is trained on the training samples
of that fold only. -/
def honestFold (k : Kind D M X) (seed : Nat) (m : M) (f : D × List (X × Int)) : Res (List Outcome) := do
  let (m', d) ← k.fit seed m f.1
  f.2.mapM (fun t => do
    let r ← k.ans m' d t.1
    return (⟨t.2, r⟩ : Outcome))

/-- Training starts over: whatever the object has learnt before, after training on `d` it answers the same. -/
def Restarts (k : Kind D M X) : Prop := ∀ s m m' d,
  (∃ e, k.fit s m d = .error e ∧ k.fit s m' d = .error e) ∨
  ∃ a a' d1 d1', k.fit s m d = .ok (a, d1) ∧ k.fit s m' d = .ok (a', d1') ∧ ∀ x, k.ans a d1 x = k.ans a' d1' x

end MLTK.Spec
