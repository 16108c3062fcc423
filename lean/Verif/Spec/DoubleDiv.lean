import Verif.Model.Double
/-!
# Diversity of subspaces in `double` arithmetic
-/
namespace MLTK.Spec
open MLTK.Fp

/-- The number of features of `t` that are also in `s`. -/
def commonFeatures (s t : List Nat) : Nat := (t.filter (fun f => decide (f ∈ s))).length

/-- The share of the features of `t` that are also in `s`, as a `double`. -/
def commonShare (s t : List Nat) : Dbl := (Dbl.ofNat (commonFeatures s t)).div (.ofNat t.length)

/-- `r` is the greatest share of another subspace that is also in subspace `i`; zero if there is no other one. -/
def GreatestShare (subs : List (List Nat)) (i : Nat) (r : ℚ) : Prop :=
  (∀ j t, subs[j]? = some t → j ≠ i → ∃ q, commonShare (subs.getD i []) t = .fin q ∧ q ≤ r) ∧
  (r = 0 ∨ ∃ j t, subs[j]? = some t ∧ j ≠ i ∧ commonShare (subs.getD i []) t = .fin r)

/-- The number of subspaces that hold the feature. -/
def usedIn (subs : List (List Nat)) (f : Nat) : Nat := (subs.filter (fun s => decide (f ∈ s))).length

end MLTK.Spec
