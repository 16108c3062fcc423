import Verif.Model.Point
/-!
# Model of assigning to a point from operands that live inside it

Source: ufjfmltk-core/include/ufjfmltk/core/{Point,ExprOps,ExprScalar,ExprTraits}.hpp.  Every operand of an
expression template is kept by reference: a point through `A_Traits<T>::ExprRef = T const&` (ExprTraits.hpp 6-12),
a scalar through a copy of `A_Scalar` (ExprTraits.hpp 14-18) whose `value` is a `T const&` (ExprScalar.hpp 14-18).  The assignment loops write the components
of the target one by one while the expression still reads them.

Simplifications: those of `Model/Point.lean`; `float`/`double` mixtures are one field.
-/
namespace MLTK.PointM
variable {K : Type}

/-- Right hand sides of `p = …` and `p op= …` that may mention `p`: `self` is `p`, `elem k` the scalar operand `p[k]`
(a reference to the component), `pick ix` the point of indices `p[ix]` (`A_Subscript`, ExprOps.hpp 224-250), `other e`
an expression without `p`. -/
inductive AExpr (K : Type) where
  | self
  | elem (k : Nat)
  | pick (ix : List Nat)
  | other (e : Expr K)
  | add (a b : AExpr K)
  | sub (a b : AExpr K)
  | mul (a b : AExpr K)
  | div (a b : AExpr K)
  | un (f : K → K) (a : AExpr K)

/-- The expression the references denote while the components of `p` are `x`; `p[k]` asserts `k < size()` when the
operand is built.  Models Point.hpp 241-260, 724-858. -/
def AExpr.denote (x : List K) : AExpr K → Res (Expr K)
  | .self => .ok (.pt x)
  | .elem k => match x[k]? with
    | some v => .ok (.sc v)
    | none => .error .assertFail
  | .pick ix => .ok (.subscript x ix)
  | .other e => .ok e
  | .add a b => do let u ← a.denote x; let v ← b.denote x; return .add u v
  | .sub a b => do let u ← a.denote x; let v ← b.denote x; return .sub u v
  | .mul a b => do let u ← a.denote x; let v ← b.denote x; return .mul u v
  | .div a b => do let u ← a.denote x; let v ← b.denote x; return .div u v
  | .un f a => do let u ← a.denote x; return .un f u

variable [Field K]

/-- `for (idx = i; idx < i + n; ++idx) x[idx] = f(x[idx], b[idx]);` where `b` reads the components of the point being
written.  Models Point.hpp 316-318, 366-368, 391-393, 400-402, 410-412, 434-436, 444-446, 468-470, 478-480. -/
def sweep (f : K → K → K) (e : AExpr K) : Nat → Nat → List K → Res (List K)
  | 0, _, x => .ok x
  | n + 1, i, x => do
    let b ← e.denote x
    let v ← b.at? i
    let u ← vget x i
    let x ← vset x i (f u v)
    sweep f e n (i + 1) x

/-- `p op= e`, `f` being the operation on components; asserts equal sizes.
Models Point.hpp 364-370, 388-395, 398-404, 407-414, 432-438, 441-448, 466-472, 475-482. -/
def compoundInPlace (f : K → K → K) (x : List K) (e : AExpr K) : Res (List K) := do
  let b ← e.denote x
  let n ← b.size
  if x.length ≠ n then .error .assertFail
  sweep f e n 0 x

/-- `p = e` for an expression `e`.  Models Point.hpp 312-321. -/
def assignInPlace (x : List K) (e : AExpr K) : Res (List K) := compoundInPlace (fun _ v => v) x e

/-- A scalar operand `T const& b`: a value elsewhere in memory, or a component of the point itself. -/
inductive SRef (K : Type) where
  | value (c : K)
  | elem (k : Nat)

/-- What the reference denotes while the components are `x`. -/
def SRef.read (x : List K) : SRef K → Res K
  | .value c => .ok c
  | .elem k => match x[k]? with
    | some v => .ok v
    | none => .error .assertFail

/-- `for (idx = i; idx < i + n; ++idx) x[idx] = f(x[idx], b);` for a scalar reference `b`.
Models Point.hpp 349-351, 357-359, 373-375, 381-383, 417-419, 425-427, 451-453, 459-461, 485-487, 493-495. -/
def scalarSweep (f : K → K → K) (s : SRef K) : Nat → Nat → List K → Res (List K)
  | 0, _, x => .ok x
  | n + 1, i, x => do
    let v ← s.read x
    let u ← vget x i
    let x ← vset x i (f u v)
    scalarSweep f s n (i + 1) x

/-- `p op= b` for a scalar `b`.
Models Point.hpp 372-385, 416-429, 450-463, 484-497. -/
def scalarInPlace (f : K → K → K) (x : List K) (s : SRef K) : Res (List K) := do
  let _ ← s.read x
  scalarSweep f s x.length 0 x

/-- `p = b` for a scalar `b`.  Models Point.hpp 348-361. -/
def fillInPlace (x : List K) (s : SRef K) : Res (List K) := scalarInPlace (fun _ v => v) x s

/-- `for (idx = i; …) x[idx] = b[idx];` over a vector.  Models Point.hpp 328-330, 341-343. -/
def copyVec : List K → Nat → List K → Res (List K)
  | [], _, x => .ok x
  | v :: vs, i, x => do
    let x ← vset x i v
    copyVec vs (i + 1) x

/-- `p = v` for a `std::vector`: grows when the vector is longer, never shrinks.  Models Point.hpp 323-346. -/
def assignVec (x b : List K) : Res (List K) := do
  let x := if b.length > x.length then x ++ List.replicate (b.length - x.length) 0 else x
  copyVec b 0 x

end MLTK.PointM
