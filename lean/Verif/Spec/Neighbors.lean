import Mathlib.Data.Finset.Card
import Mathlib.Algebra.BigOperators.Group.Finset.Basic
import Verif.Model.Neighbors
/-!
# What "nearest neighbours" and "majority" mean
-/
namespace MLTK.Spec

/-- `S` is a set of `k` of the indices `0 … n-1` none of which is farther than an index left out. -/
structure KNearest {K : Type} [LinearOrder K] (d : Nat → K) (n k : Nat) (S : Finset Nat) : Prop where
  inside : ∀ i ∈ S, i < n
  card : S.card = k
  nearest : ∀ i ∈ S, ∀ j < n, j ∉ S → d i ≤ d j

/-- `c` is the earliest entry of `classes` whose score is maximal among all of them. -/
def FirstBest {K : Type} [LinearOrder K] (classes : List Int) (score : Int → K) (c : Int) : Prop :=
  ∃ before after, classes = before ++ c :: after ∧ (∀ c' ∈ classes, score c' ≤ score c) ∧
    ∀ c' ∈ before, score c' < score c

/-- Number of indices in `S` whose sample has the label `c`. -/
def votesIn {T : Type} (samples : List (Pt T)) (S : Finset Nat) (c : Int) : Nat :=
  (S.filter (fun i => (samples[i]?).map (·.y) = some c)).card

/-- A strict weak order, the precondition of the sorting functions of the standard library. -/
structure StrictWeak (lt : Nat → Nat → Bool) (l : List Nat) : Prop where
  irrefl : ∀ a ∈ l, lt a a = false
  trans : ∀ a ∈ l, ∀ b ∈ l, ∀ c ∈ l, lt a b = true → lt b c = true → lt a c = true
  incomp : ∀ a ∈ l, ∀ b ∈ l, ∀ c ∈ l, lt a b = false → lt b a = false → lt b c = false → lt c b = false →
    lt a c = false ∧ lt c a = false

/-- The standard's postcondition of `nth_element`: the range is rearranged so that no element from
position `n` on precedes one before it; nothing is promised when `comp` is not a strict weak order. -/
def NthElement (nth : Knn.NthFn) : Prop :=
  ∀ (lt : Nat → Nat → Bool) (n : Nat) (l : List Nat), n ≤ l.length → StrictWeak lt l →
    (nth lt n l).Perm l ∧ ∀ a ∈ (nth lt n l).take n, ∀ b ∈ (nth lt n l).drop n, lt b a = false

end MLTK.Spec
