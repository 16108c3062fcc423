import Mathlib.Algebra.Order.Floor.Ring
import Verif.Model.Basic
/-!
# The operator `%` of points

Source: ufjfmltk-core/include/ufjfmltk/core/ExprOps.hpp, Point.hpp.

Simplifications: those of `Model/Point`; `int` has 32 bits.  `Point<double> % double` is not modelled: two partial
specialisations of `A_Mod` fit it equally well, so that it does not compile.
-/
namespace MLTK.PointM

/-- `a % b` of two `int`s: rounded towards zero; undefined for `b = 0` and for `INT_MIN % -1`.  Models ExprOps.hpp:198-200. -/
def intMod (a b : Int) : Res Int :=
  if b = 0 then .error .divByZero
  else if a = -2147483648 ∧ b = -1 then .error .overflow
  else .ok (Int.tmod a b)

/-- A point of `int`s made of `p % s`: one component after the other.  Models Point.hpp:725-727, 78-90. -/
def modInt (p : List Int) (s : Int) : Res (List Int) := p.mapM (fun a => intMod a s)

section
variable {K : Type} [Field K] [LinearOrder K] [FloorRing K]

/-- The integer next to `q` towards zero. -/
def towardsZero (q : K) : Int := if 0 ≤ q then ⌊q⌋ else ⌈q⌉

/-- `std::fmod(a, b)`; not a number for `b = 0`.  Models ExprOps.hpp:208-210, 218-220. -/
def fmod (a b : K) : Res K := if b = 0 then .error .nonFinite else .ok (a - towardsZero (a / b) * b)

/-- A point of `double`s made of `p % s` with an `int` `s`.  Models Point.hpp:731-733, ExprOps.hpp:214-221, Point.hpp:78-90. -/
def modReal (p : List K) (s : Int) : Res (List K) := p.mapM (fun a => fmod a (s : K))

end
end MLTK.PointM
