import Verif.Model.Point
/-!
# Specification vocabulary for points: the mathematical meaning of an expression
-/
namespace MLTK.Spec
open MLTK.PointM
variable {K : Type}

/-- The value of an expression at component `i`: the expression with every point replaced by its
`i`-th component. -/
def valueAt [Field K] : Expr K → Nat → K
  | .pt x, i => x.getD i 0
  | .sc c, _ => c
  | .add a b, i => valueAt a i + valueAt b i
  | .sub a b, i => valueAt a i - valueAt b i
  | .mul a b, i => valueAt a i * valueAt b i
  | .div a b, i => valueAt a i / valueAt b i
  | .un f a, i => f (valueAt a i)
  | .subscript x ix, i => x.getD (ix.getD i 0) 0

/-- The dimensions of the points occurring in an expression. -/
def dims : Expr K → List Nat
  | .pt x => [x.length]
  | .sc _ => []
  | .add a b | .sub a b | .mul a b | .div a b => dims a ++ dims b
  | .un _ a => dims a
  | .subscript _ ix => [ix.length]

/-- All subscripts address existing components. -/
def subscriptsOK : Expr K → Prop
  | .pt _ | .sc _ => True
  | .add a b | .sub a b | .mul a b | .div a b => subscriptsOK a ∧ subscriptsOK b
  | .un _ a => subscriptsOK a
  | .subscript x ix => ∀ j ∈ ix, j < x.length

end MLTK.Spec
