import Mathlib.Data.List.Basic
/-!
# Datasets that lost their end
-/
namespace MLTK.Spec

/-- The samples `qs` are the first ones of `ps`, in the same order, with the same labels and the same features; except that the last feature of
the last one may have lost its last `j` digits (`x.tdiv (10 ^ j)`: 1234 becomes 12 if `j` is 2; nothing is lost if `j` is 0). -/
def Beginning (ps qs : List (Int × List Int)) : Prop :=
  ∃ (pre post : List (Int × List Int)) (y : Int) (xs : List Int) (x : Int) (j : Nat),
    ps = pre ++ (y, xs ++ [x]) :: post ∧ qs = pre ++ [(y, xs ++ [x.tdiv (10 ^ j)])]

end MLTK.Spec
