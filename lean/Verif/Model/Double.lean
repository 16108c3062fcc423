import Mathlib.Data.Rat.Floor
import Mathlib.Algebra.Order.Field.Rat
/-!
# The arithmetic of `double`

The numbers a C++ program computes with on the platforms the toolkit is built for: IEEE 754 binary64, rounding to nearest
with ties to even, gradual underflow, infinities and NaN.  The modules importing this one model code of the toolkit in this
arithmetic instead of an ordered field.

Simplifications: the sign of a zero is not kept (no modelled program can tell: none divides by a zero that carries a sign), NaNs
are not distinguished, and no operation is carried out with more precision than `double` (no contraction to fused
multiply-add, no extended registers).
-/
namespace MLTK.Fp

/-- A value of type `double`.  Models IEEE 754-2019 §3.3. -/
inductive Dbl where
  | fin (q : ℚ)
  | inf (negative : Bool)
  | nan
  deriving DecidableEq, Repr

/-- `2 ^ e`. -/
def two (e : ℤ) : ℚ := if 0 ≤ e then ((2 ^ e.toNat : ℕ) : ℚ) else mkRat 1 (2 ^ (-e).toNat)

/-- The exponent of a positive number: `2 ^ lg q ≤ q < 2 ^ (lg q + 1)`. -/
def lg (q : ℚ) : ℤ :=
  let e : ℤ := (Nat.log2 q.num.natAbs : ℤ) - (Nat.log2 q.den : ℤ)
  if two e ≤ q then e else e - 1

/-- The exponent of the last digit of the `double`s near `q`: 53 binary digits, but nothing below `2 ^ -1074`.
Models IEEE 754-2019 §3.3, table 3.5. -/
def ulpExp (q : ℚ) : ℤ := if q = 0 then -1074 else max (lg |q| - 52) (-1074)

/-- The nearest integer, the even one of two.  Models IEEE 754-2019 §4.3.1 (roundTiesToEven). -/
def rne (q : ℚ) : ℤ :=
  if q - ⌊q⌋ < 1 / 2 then ⌊q⌋ else if 1 / 2 < q - ⌊q⌋ then ⌊q⌋ + 1 else if ⌊q⌋ % 2 = 0 then ⌊q⌋ else ⌊q⌋ + 1

/-- The nearest number with 53 digits, if exponents had no upper bound. -/
def near (q : ℚ) : ℚ := (rne (q / two (ulpExp q)) : ℚ) * two (ulpExp q)

/-- The first power of two that is too large. -/
def huge : ℚ := ((2 ^ 1024 : ℕ) : ℚ)

/-- What an operation with the exact result `q` delivers.  Models IEEE 754-2019 §4.3.1, §7.4. -/
def rnd (q : ℚ) : Dbl := if near q ≤ -huge then .inf true else if huge ≤ near q then .inf false else .fin (near q)

namespace Dbl

/-- `-a`.  Models IEEE 754-2019 §5.5.1. -/
def neg : Dbl → Dbl
  | .fin q => .fin (-q)
  | .inf s => .inf (!s)
  | .nan => .nan

/-- `a + b`.  Models IEEE 754-2019 §5.4.1, §6.1, §7.2. -/
def add : Dbl → Dbl → Dbl
  | .fin p, .fin q => rnd (p + q)
  | .inf s, .fin _ => .inf s
  | .fin _, .inf s => .inf s
  | .inf s, .inf t => if s = t then .inf s else .nan
  | _, _ => .nan

/-- `a - b`.  Models IEEE 754-2019 §5.4.1, §6.1, §7.2. -/
def sub (a b : Dbl) : Dbl := add a (neg b)

/-- `a * b`.  Models IEEE 754-2019 §5.4.1, §6.1, §7.2. -/
def mul : Dbl → Dbl → Dbl
  | .fin p, .fin q => rnd (p * q)
  | .inf s, .fin q => if q = 0 then .nan else .inf (s ^^ decide (q < 0))
  | .fin p, .inf s => if p = 0 then .nan else .inf (s ^^ decide (p < 0))
  | .inf s, .inf t => .inf (s ^^ t)
  | _, _ => .nan

/-- `a / b`; a zero divisor counts as `+0`.  Models IEEE 754-2019 §5.4.1, §6.1, §7.2, §7.3. -/
def div : Dbl → Dbl → Dbl
  | .fin p, .fin q => if q = 0 then (if p = 0 then .nan else .inf (decide (p < 0))) else rnd (p / q)
  | .inf s, .fin q => .inf (s ^^ decide (q < 0))
  | .fin _, .inf _ => .fin 0
  | .inf _, .inf _ => .nan
  | _, _ => .nan

/-- `a < b`: never with a NaN.  Models IEEE 754-2019 §5.11. -/
def lt : Dbl → Dbl → Bool
  | .fin p, .fin q => decide (p < q)
  | .inf s, .fin _ => s
  | .fin _, .inf s => !s
  | .inf s, .inf t => s && !t
  | _, _ => false

/-- `a <= b`: never with a NaN.  Models IEEE 754-2019 §5.11. -/
def le : Dbl → Dbl → Bool
  | .fin p, .fin q => decide (p ≤ q)
  | .inf s, .fin _ => s
  | .fin _, .inf s => !s
  | .inf s, .inf t => s || !t
  | _, _ => false

/-- `a == b`: never with a NaN.  Models IEEE 754-2019 §5.11. -/
def eq : Dbl → Dbl → Bool
  | .fin p, .fin q => decide (p = q)
  | .inf s, .inf t => s == t
  | _, _ => false

/-- `fabs(a)`.  Models IEEE 754-2019 §5.5.1. -/
def abs : Dbl → Dbl
  | .fin q => .fin |q|
  | .inf _ => .inf false
  | .nan => .nan

/-- `std::floor(a)`.  Models IEEE 754-2019 §5.3.1 (roundToIntegralTowardNegative). -/
def floor : Dbl → Dbl
  | .fin q => .fin (⌊q⌋ : ℚ)
  | a => a

/-- `std::ceil(a)`.  Models IEEE 754-2019 §5.3.1 (roundToIntegralTowardPositive). -/
def ceil : Dbl → Dbl
  | .fin q => .fin (⌈q⌉ : ℚ)
  | a => a

/-- `double(n)` for a `size_t`.  Models IEEE 754-2019 §5.4.1 (convertFromInt). -/
def ofNat (n : Nat) : Dbl := rnd (n : ℚ)

/-- The conversion of a `double` to `size_t`: the part before the point; undefined if that does not fit.
Models [conv.fpint]. -/
def toSize : Dbl → Option Nat
  | .fin q => if -1 < q ∧ q < ((2 ^ 64 : ℕ) : ℚ) then some ⌊q⌋.toNat else none
  | _ => none

end Dbl
end MLTK.Fp
