import Verif.Model.Print
/-!
# What printed points and tables should look like
-/
namespace MLTK.Spec
open MLTK.Print

/-- The numbers shown for a point: its components and then its label, if it has one. -/
def shownNumbers {K : Type} (p : PPoint K) : List K := p.x ++ p.y.toList

/-- `7:[1, 2, 3]`; the number of the point is left out if it is 0. -/
def pointLine {K : Type} (str : K → List Char) (p : PPoint K) : List Char :=
  (if p.id = 0 then [] else Nat.toDigits 10 p.id ++ [':']) ++ ['['] ++
    List.intercalate [',', ' '] ((shownNumbers p).map str) ++ [']']

/-- `n` rows of `n` numbers. -/
def SquareTable (n : Nat) (m : List (List Nat)) : Prop := m.length = n ∧ ∀ r ∈ m, r.length = n

end MLTK.Spec
