import Verif.Model.Point
/-!
# Model of expressions kept in variables

Source: ufjfmltk-core/include/ufjfmltk/core/{Point,ExprOps,ExprScalar,ExprTraits}.hpp.  `auto e = a + b;` keeps an expression object.  The object refers to
the representations of its operands (`A_Traits<T>::ExprRef = T const&`, ExprTraits.hpp 6-12; `OP const &op`, ExprOps.hpp 118); a scalar operand is a copy of
an `A_Scalar` (ExprTraits.hpp 14-18) that refers to the scalar (ExprScalar.hpp 14-18).  Operands that are results of other operators, literals and
points made in the statement end with the statement.

Simplifications: those of `Model/Point.lean`; memory of dead objects is not used again, and touching it is a fault; scalar operands have the type of the
parameter they are given to; variables live to the end of the program; subscripts by a point and `%` are left out.
-/
namespace MLTK.Kept
open MLTK.PointM

/-- `A_Add`, `A_Sub`, `A_Mult`, `A_Div`: ExprOps.hpp 50-108. -/
inductive BinOp where
  | add | sub | mul | div
  deriving DecidableEq, Repr

/-- What the operation does with two components.  Models ExprOps.hpp 57-59, 73-75, 89-91, 105-107. -/
def BinOp.apply {K : Type} [Field K] : BinOp → K → K → K
  | .add, x, y => x + y
  | .sub, x, y => x - y
  | .mul, x, y => x * y
  | .div, x, y => x / y

/-- An operand inside an expression object: a reference to the representation of a point, or an `A_Scalar` with its reference to the scalar.
Models ExprTraits.hpp 6-18, ExprScalar.hpp 14-18. -/
inductive Operand where
  | rep (a : Nat)
  | scal (a : Nat)

/-- An object in memory: the components of a point, a scalar, or an expression object.  Models ExprOps.hpp 24-40, 115-128. -/
inductive Cell (K : Type) where
  | pt (x : List K)
  | sc (c : K)
  | bin (op : BinOp) (p q : Operand)
  | un (f : K → K) (p : Nat)

/-- Memory; `none` is an object whose life has ended. -/
abbrev Heap (K : Type) := List (Option (Cell K))

/-- Scalar operands in the program text: a variable or a literal. -/
inductive STerm (K : Type) where
  | var (v : Nat)
  | lit (c : K)

/-- Point expressions in the program text: a variable (the number of its declaration), a point made in the expression, the operators on two points, a point and a
scalar, a scalar and a point, and the functions `abs`, `cos`, `sin`, `exp`, `log`, `pow`.  Models Point.hpp 612-647, 735-858. -/
inductive Term (K : Type) where
  | var (v : Nat)
  | temp (x : List K)
  | bin (op : BinOp) (s t : Term K)
  | binS (op : BinOp) (t : Term K) (s : STerm K)
  | sBin (op : BinOp) (s : STerm K) (t : Term K)
  | un (f : K → K) (t : Term K)

variable {K : Type}

/-- A new object at the end of memory. -/
def alloc (h : Heap K) (c : Cell K) : Heap K × Nat := (h ++ [some c], h.length)

/-- The address of a scalar operand. -/
def buildS (vars : List Nat) (h : Heap K) : STerm K → Res (Heap K × Nat)
  | .var v => do let a ← vget vars v; return (h, a)
  | .lit c => .ok (alloc h (.sc c))

/-- Build the objects of an expression; the result is the address of its representation.  Models Point.hpp 612-647, 735-858. -/
def build (vars : List Nat) (h : Heap K) : Term K → Res (Heap K × Nat)
  | .var v => do let a ← vget vars v; return (h, a)
  | .temp x => .ok (alloc h (.pt x))
  | .bin op s t => do
    let p ← build vars h s
    let q ← build vars p.1 t
    return alloc q.1 (.bin op (.rep p.2) (.rep q.2))
  | .binS op t s => do
    let p ← build vars h t
    let q ← buildS vars p.1 s
    return alloc q.1 (.bin op (.rep p.2) (.scal q.2))
  | .sBin op s t => do
    let p ← buildS vars h s
    let q ← build vars p.1 t
    return alloc q.1 (.bin op (.scal p.2) (.rep q.2))
  | .un f t => do
    let p ← build vars h t
    return alloc p.1 (.un f p.2)

/-- `size()` through the references; `A_Scalar::size` is 0 and reads nothing.  The number bounds the depth (an object refers only to older ones).
Models ExprOps.hpp 36-40, 124-126, ExprScalar.hpp 26-28. -/
def hsize (h : Heap K) : Nat → Operand → Res Nat
  | _, .scal _ => .ok 0
  | 0, .rep _ => .error .diverges
  | n + 1, .rep a =>
    match h[a]? with
    | some (some (.pt x)) => .ok x.length
    | some (some (.bin _ p q)) => do
      let m ← hsize h n p
      let k ← hsize h n q
      Expr.combineSize m k
    | some (some (.un _ b)) => hsize h n (.rep b)
    | _ => .error .badPointer

/-- `operator[]` through the references.  Models ExprOps.hpp 57-59, 73-75, 89-91, 105-107, 131-176, ExprScalar.hpp 21-23. -/
def hat [Field K] (h : Heap K) : Nat → Operand → Nat → Res K
  | _, .scal a, _ =>
    match h[a]? with
    | some (some (.sc c)) => .ok c
    | _ => .error .badPointer
  | 0, .rep _, _ => .error .diverges
  | n + 1, .rep a, i =>
    match h[a]? with
    | some (some (.pt x)) => vget x i
    | some (some (.bin op p q)) => do
      let x ← hat h n p i
      let y ← hat h n q i
      return op.apply x y
    | some (some (.un f b)) => do
      let x ← hat h n (.rep b) i
      return f x
    | _ => .error .badPointer

/-- The copy loop: Point.hpp 83-85. -/
def hcopy [Field K] (h : Heap K) (a : Nat) : Nat → Nat → Res (List K)
  | 0, _ => .ok []
  | n + 1, i => do
    let v ← hat h (h.length + 1) (.rep a) i
    let vs ← hcopy h a n (i + 1)
    return v :: vs

/-- Constructing a point from the expression at `a`.  Models Point.hpp 78-90. -/
def hconstruct [Field K] (h : Heap K) (a : Nat) : Res (List K) := do
  let n ← hsize h (h.length + 1) (.rep a)
  hcopy h a n 0

/-- The end of a statement: everything made in it, from address `n` on, dies. -/
def endStatement (n : Nat) (h : Heap K) : Heap K := h.take n ++ List.replicate (h.length - n) none

/-- Statements: declare a point with given components; a scalar; `auto v = t;`; `Point<T> v = t;`; give a point variable new components; give a scalar
variable a new value. -/
inductive Stmt (K : Type) where
  | point (x : List K)
  | scalar (c : K)
  | keep (t : Term K)
  | construct (t : Term K)
  | setPoint (v : Nat) (x : List K)
  | setScalar (v : Nat) (c : K)

/-- Memory and the addresses of the variables in the order of their declarations. -/
structure State (K : Type) where
  heap : Heap K
  vars : List Nat

/-- Declare a variable holding `c`, at the end of a statement that began with `n` objects. -/
def declare (vars : List Nat) (n : Nat) (h : Heap K) (c : Cell K) : State K :=
  ⟨endStatement n h ++ [some c], vars ++ [h.length]⟩

/-- One statement.  `keep` copies the object that the outermost operator returns, with its references (Point.hpp 116: `x(rb)`), or the variable; the representation
of a point variable is its components.  Models Point.hpp 78-90, 116, 312-361. -/
def step [Field K] (s : State K) : Stmt K → Res (State K)
  | .point x => .ok (declare s.vars s.heap.length s.heap (.pt x))
  | .scalar c => .ok (declare s.vars s.heap.length s.heap (.sc c))
  | .keep t => do
    let r ← build s.vars s.heap t
    match r.1[r.2]? with
    | some (some c) => .ok (declare s.vars s.heap.length r.1 c)
    | _ => .error .badPointer
  | .construct t => do
    let r ← build s.vars s.heap t
    let x ← hconstruct r.1 r.2
    return declare s.vars s.heap.length r.1 (.pt x)
  | .setPoint v x => do
    let a ← vget s.vars v
    match s.heap[a]? with
    | some (some (.pt _)) => .ok ⟨s.heap.set a (some (.pt x)), s.vars⟩
    | _ => .error .badPointer
  | .setScalar v c => do
    let a ← vget s.vars v
    match s.heap[a]? with
    | some (some (.sc _)) => .ok ⟨s.heap.set a (some (.sc c)), s.vars⟩
    | _ => .error .badPointer

/-- A program from its beginning. -/
def run [Field K] (p : List (Stmt K)) : Res (State K) := p.foldlM step ⟨[], []⟩

/-- The components of the point variable `v`. -/
def pointOf (s : State K) (v : Nat) : Option (List K) :=
  match s.vars[v]? with
  | none => none
  | some a =>
    match s.heap[a]? with
    | some (some (.pt x)) => some x
    | _ => none

end MLTK.Kept
