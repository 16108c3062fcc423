import Mathlib.Algebra.Field.Basic
import Mathlib.Algebra.Order.Ring.Abs
import Mathlib.Data.List.Sort
import Verif.Model.Basic
/-!
# Model of `mltk::Point` and its expression templates

Source: ufjfmltk-core/include/ufjfmltk/core/{Point,ExprOps,ExprScalar,ExprTraits}.hpp.

Simplifications: the component type is an arbitrary (ordered) field or ring instead of a machine
number, so rounding, overflow, infinities and NaN are not modelled and `x / 0` is the field's `0`;
asserts are enabled; expression objects are evaluated within the full expression that builds them (the
templates keep references to temporaries).
-/
namespace MLTK.PointM

/-! ## Expression templates -/

/-- Expression trees built by the overloaded operators: ExprOps.hpp 50-191, 224-250 and Point.hpp
724-858 (`+ - * /` on points and scalars), 612-647 (`abs cos sin exp log pow` are `un`), 257-260
(`p[idx]` with a point of indices is `sub`). -/
inductive Expr (K : Type) where
  /-- a point stored in a vector -/
  | pt (x : List K)
  /-- `A_Scalar`: ExprScalar.hpp 11-29 -/
  | sc (c : K)
  | add (a b : Expr K)
  | sub (a b : Expr K)
  | mul (a b : Expr K)
  | div (a b : Expr K)
  /-- `F_Exp`, `F_Log`, `F_Abs`, `F_Cos`, `F_Sin`, `F_Pow` with the scalar function they apply -/
  | un (f : K → K) (a : Expr K)
  /-- `A_Subscript` of a point by a point of indices -/
  | subscript (x : List K) (ix : List Nat)

namespace Expr
variable {K : Type}

/-- `BExprOp::size`: ExprOps.hpp 36-40. -/
def combineSize (a b : Nat) : Res Nat :=
  if a = 0 ∨ b = 0 ∨ a = b then .ok (if a ≠ 0 then a else b) else .error .assertFail

/-- `size()` of an expression: ExprOps.hpp 36-40, 124-126, 247-249, ExprScalar.hpp 26-28. -/
def size : Expr K → Res Nat
  | .pt x => .ok x.length
  | .sc _ => .ok 0
  | .add a b => do let m ← a.size; let n ← b.size; combineSize m n
  | .sub a b => do let m ← a.size; let n ← b.size; combineSize m n
  | .mul a b => do let m ← a.size; let n ← b.size; combineSize m n
  | .div a b => do let m ← a.size; let n ← b.size; combineSize m n
  | .un _ a => a.size
  | .subscript _ ix => .ok ix.length

variable [Field K]

/-- `operator[](idx)` of an expression: ExprOps.hpp 57-59, 73-75, 89-91, 105-107, 131-191, 238-240,
ExprScalar.hpp 21-23; vector accesses outside the bounds are undefined. -/
def at? : Expr K → Nat → Res K
  | .pt x, i => vget x i
  | .sc c, _ => .ok c
  | .add a b, i => do let x ← a.at? i; let y ← b.at? i; return x + y
  | .sub a b, i => do let x ← a.at? i; let y ← b.at? i; return x - y
  | .mul a b, i => do let x ← a.at? i; let y ← b.at? i; return x * y
  | .div a b, i => do let x ← a.at? i; let y ← b.at? i; return x / y
  | .un f a, i => do let x ← a.at? i; return f x
  | .subscript x ix, i => do let j ← vget ix i; vget x j

/-- Element-wise copy loop: Point.hpp 83-85, 96-98 (`n` elements from index `i`). -/
def copyLoop (e : Expr K) : Nat → Nat → Res (List K)
  | 0, _ => .ok []
  | n + 1, i => do let v ← e.at? i; let vs ← copyLoop e n (i + 1); return v :: vs

/-- Constructing a point from an expression: Point.hpp 78-90, 91-102 (the new point is empty, so it is
resized to the expression's size and filled; the label is the expression object's default). -/
def construct (e : Expr K) : Res (List K) := do
  let n ← e.size
  copyLoop e n 0

/-- `operator=(Point<T2,Rep2> const&)`: Point.hpp 312-321: asserts equal sizes. -/
def assign (x : List K) (e : Expr K) : Res (List K) := do
  let n ← e.size
  if x.length ≠ n then .error .assertFail
  copyLoop e n 0

end Expr

/-! ## A point with its label -/

/-- Fields of `mltk::Point`: Point.hpp 41-49. -/
structure LPt (K : Type) where
  x : List K
  y : Rat := 0
  alpha : Rat := 0
  id : Nat := 0
  deriving DecidableEq

/-- `operator=(Point const& b)`: Point.hpp 299-310: grows but never shrinks; label, alpha and id are
not assigned. -/
def LPt.assign {K : Type} (a b : LPt K) : LPt K := { a with x := b.x ++ a.x.drop b.x.length }

/-- Copy constructor: Point.hpp 71-76. -/
def LPt.copyCtor {K : Type} (b : LPt K) : LPt K := { x := b.x, y := b.y, alpha := b.alpha, id := b.id }

/-- `operator==`: Point.hpp 711-715. -/
def LPt.eq {K : Type} [DecidableEq K] (a b : LPt K) : Bool := a.x = b.x

/-! ## Reductions -/

section
variable {K : Type} [Field K]

/-- `dot(p, p1)`: Point.hpp 526-537. -/
def dotLoop : List K → List K → K → K
  | a :: as, b :: bs, r => dotLoop as bs (r + a * b)
  | _, _, r => r

/-- `dot(p, p1)` with its assert: Point.hpp 526-537. -/
def dot (p q : List K) : Res K :=
  if p.length = q.length then .ok (dotLoop p q 0) else .error .assertFail

/-- `sum(f)`: Point.hpp 285-293. -/
def psum (f : K → K) (p : List K) : K := p.foldl (fun s v => s + f v) 0

/-- `operator+=` and friends on two points: Point.hpp 364-371, 398-405, 431-438, 464-471. -/
def compound (f : K → K → K) (p q : List K) : Res (List K) :=
  if p.length = q.length then .ok (List.zipWith f p q) else .error .assertFail

/-- Filling loop of `linspace`: Point.hpp 683-685. -/
def linLoop (h : K) : Nat → K → List K
  | 0, _ => []
  | n + 1, v => v :: linLoop h n (v + h)

/-- `linspace(lower, upper, N)`: Point.hpp 678-688.  For `N = 0` the step is never used. -/
def linspace (lower upper : K) (N : Nat) : List K := linLoop ((upper - lower) / ((N : K) - 1)) N lower
end

/-- `max(p)`: Point.hpp 542-550; `lo` is `std::numeric_limits<T>::min()`. -/
def pmax {K : Type} [LinearOrder K] (lo : K) (p : List K) : K := p.foldl (fun m v => if v > m then v else m) lo

/-- `min(p)`: Point.hpp 556-563; `hi` is `std::numeric_limits<T>::max()`. -/
def pmin {K : Type} [LinearOrder K] (hi : K) (p : List K) : K := p.foldl (fun m v => if v < m then v else m) hi

/-- `Point::norm(NORM_LINF)`: Point.hpp 650-654. -/
def normInf {K : Type} [Field K] [LinearOrder K] (lo : K) (p : List K) : K := pmax lo (p.map (fun v => |v|))

/-- Loop of `Point::selectFeatures`: Point.hpp 221-226. -/
def selLoop {K : Type} (x : List K) : List Nat → Res (List K)
  | [] => .ok []
  | f :: fs =>
    match x[f]? with
    | none => .error .assertFail
    | some v => do let vs ← selLoop x fs; return v :: vs

/-- `Point::selectFeatures(feats)`: Point.hpp 217-231: the feature positions are sorted first. -/
def LPt.selectFeatures {K : Type} (p : LPt K) (feats : List Nat) : Res (LPt K) := do
  let x ← selLoop p.x (feats.insertionSort (· ≤ ·))
  return { p with x := x }

end MLTK.PointM
