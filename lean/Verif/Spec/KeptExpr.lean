import Verif.Model.KeptExpr
/-!
# Specification: programs with expressions in variables, read by name
-/
namespace MLTK.Spec
open MLTK.Kept

variable {K : Type}

/-- What a variable stands for: components, a scalar, or an expression in point and scalar variables. -/
inductive Binding (K : Type) where
  | pt (x : List K)
  | sc (c : K)
  | ex (t : Term K)

/-- The value of a scalar operand. -/
def scalarValue (env : List (Binding K)) : STerm K → Option K
  | .lit c => some c
  | .var v => match env[v]? with
    | some (.sc c) => some c
    | _ => none

/-- Component-wise combination of two points of the same dimension. -/
def pairwise (f : K → K → K) (x y : List K) : Option (List K) := if x.length = y.length then some (List.zipWith f x y) else none

/-- The operation an operator stands for. -/
def arith [Field K] (op : BinOp) (x y : K) : K :=
  match op with
  | .add => x + y
  | .sub => x - y
  | .mul => x * y
  | .div => x / y

/-- The component-wise value of an expression whose variables are points and scalars. -/
def valueOf [Field K] (env : List (Binding K)) : Term K → Option (List K)
  | .var v => match env[v]? with
    | some (.pt x) => some x
    | _ => none
  | .temp x => some x
  | .bin op s t => do
    let x ← valueOf env s
    let y ← valueOf env t
    pairwise (arith op) x y
  | .binS op t s => do
    let x ← valueOf env t
    let c ← scalarValue env s
    return x.map (fun a => arith op a c)
  | .sBin op s t => do
    let c ← scalarValue env s
    let x ← valueOf env t
    return x.map (fun a => arith op c a)
  | .un f t => do
    let x ← valueOf env t
    return x.map f

/-- The expression with every variable that holds an expression replaced by that expression. -/
def unfoldVars (env : List (Binding K)) : Term K → Term K
  | .var v => match env[v]? with
    | some (.ex t) => t
    | _ => .var v
  | .temp x => .temp x
  | .bin op s t => .bin op (unfoldVars env s) (unfoldVars env t)
  | .binS op t s => .binS op (unfoldVars env t) s
  | .sBin op s t => .sBin op s (unfoldVars env t)
  | .un f t => .un f (unfoldVars env t)

/-- The expression mentions only declared variables. -/
def inScope (n : Nat) : Term K → Bool
  | .var v => v < n
  | .temp _ => true
  | .bin _ s t => inScope n s && inScope n t
  | .binS _ t s => inScope n t && (match s with | .var v => v < n | .lit _ => true)
  | .sBin _ s t => inScope n t && (match s with | .var v => v < n | .lit _ => true)
  | .un _ t => inScope n t

/-- What a statement means when an expression in a variable stands for itself. -/
def means [Field K] (env : List (Binding K)) : Stmt K → Option (List (Binding K))
  | .point x => some (env ++ [.pt x])
  | .scalar c => some (env ++ [.sc c])
  | .keep t => match t with
    | .var v => match env[v]? with
      | some (.pt x) => some (env ++ [.pt x])
      | some (.ex t) => some (env ++ [.ex t])
      | _ => none
    | .temp x => some (env ++ [.pt x])
    | t => if inScope env.length t then some (env ++ [.ex (unfoldVars env t)]) else none
  | .construct t => do
    let x ← valueOf env (unfoldVars env t)
    return env ++ [.pt x]
  | .setPoint v x => match env[v]? with
    | some (.pt _) => some (env.set v (.pt x))
    | _ => none
  | .setScalar v c => match env[v]? with
    | some (.sc _) => some (env.set v (.sc c))
    | _ => none

/-- What a program means. -/
def meaning [Field K] (p : List (Stmt K)) : Option (List (Binding K)) := p.foldlM means []

/-- The operand is a variable. -/
def IsVar : Term K → Prop
  | .var _ => True
  | _ => False

/-- The scalar operand is a variable. -/
def IsSVar : STerm K → Prop
  | .var _ => True
  | _ => False

/-- A variable, or one operation on variables. -/
def OneOperation : Term K → Prop
  | .var _ => True
  | .temp _ => True
  | .bin _ s t => IsVar s ∧ IsVar t
  | .binS _ t s => IsVar t ∧ IsSVar s
  | .sBin _ s t => IsVar t ∧ IsSVar s
  | .un _ t => IsVar t

/-- An operand of the outermost operation is not a variable, but made in the expression. -/
def NestedOperand : Term K → Prop
  | .bin _ s t => ¬ IsVar s ∨ ¬ IsVar t
  | .binS _ t _ => ¬ IsVar t
  | .sBin _ _ t => ¬ IsVar t
  | .un _ t => ¬ IsVar t
  | _ => False

/-- Every expression the program keeps is one operation on variables. -/
def KeepsOneOperation (p : List (Stmt K)) : Prop := ∀ t, Stmt.keep t ∈ p → OneOperation t

end MLTK.Spec
