import Verif.Spec.Point
import Verif.Model.PointAlias
/-!
# Specification vocabulary for expressions that mention the assigned point
-/
namespace MLTK.Spec
open MLTK.PointM
variable {K : Type}

/-- The value at component `i` of an expression that mentions a point with components `x`. -/
def selfValueAt [Field K] (x : List K) : AExpr K → Nat → K
  | .self, i => x.getD i 0
  | .elem k, _ => x.getD k 0
  | .pick ix, i => x.getD (ix.getD i 0) 0
  | .other e, i => valueAt e i
  | .add a b, i => selfValueAt x a i + selfValueAt x b i
  | .sub a b, i => selfValueAt x a i - selfValueAt x b i
  | .mul a b, i => selfValueAt x a i * selfValueAt x b i
  | .div a b, i => selfValueAt x a i / selfValueAt x b i
  | .un f a, i => f (selfValueAt x a i)

/-- The dimensions of the points in an expression that mentions a point of dimension `n`. -/
def selfDims (n : Nat) : AExpr K → List Nat
  | .self => [n]
  | .elem _ => []
  | .pick ix => [ix.length]
  | .other e => dims e
  | .add a b | .sub a b | .mul a b | .div a b => selfDims n a ++ selfDims n b
  | .un _ a => selfDims n a

/-- Components and subscripts address existing components. -/
def selfSubscriptsOK (n : Nat) : AExpr K → Prop
  | .self => True
  | .elem k => k < n
  | .pick ix => ∀ j ∈ ix, j < n
  | .other e => subscriptsOK e
  | .add a b | .sub a b | .mul a b | .div a b => selfSubscriptsOK n a ∧ selfSubscriptsOK n b
  | .un _ a => selfSubscriptsOK n a

/-- A right hand side that makes sense for a point of dimension `n`: it has points in it, all of dimension `n`, and
all subscripts exist. -/
def Sensible (n : Nat) (e : AExpr K) : Prop :=
  selfDims n e ≠ [] ∧ (∀ m ∈ selfDims n e, m = n) ∧ selfSubscriptsOK n e

/-- Component `i` of the expression depends on no component of the point before the `i`-th, for every `i < n`: the
only single component it uses is the last, and a subscript never points back. -/
def LooksAhead (n : Nat) : AExpr K → Prop
  | .self => True
  | .elem k => n ≤ k + 1
  | .pick ix => ∀ i, i < n → i ≤ ix.getD i 0
  | .other _ => True
  | .add a b | .sub a b | .mul a b | .div a b => LooksAhead n a ∧ LooksAhead n b
  | .un _ a => LooksAhead n a

end MLTK.Spec
