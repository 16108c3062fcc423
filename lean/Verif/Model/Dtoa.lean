import Mathlib.Data.Nat.Log
import Mathlib.Algebra.Order.Floor.Semiring
import Mathlib.Data.Rat.Floor
import Mathlib.Algebra.Order.Field.Rat
import Verif.Model.Text
/-!
# Model of `utils::dtoa`

Source: ufjfmltk-core/src/Utils.cpp 94-166, ufjfmltk-core/include/ufjfmltk/core/Utils.hpp 8-9.

Simplifications: a finite `double` is a rational number and the arithmetic (`log10`, `pow`, `/`, `-`, `floor`) is
exact; the exponent of a `double` is not bounded, so `pow(10, m)` is neither zero nor infinite and line 129 always
holds.
-/
namespace MLTK.Text

/-- `PRECISION`.  Models Utils.hpp:8. -/
def precision : ℚ := 1 / 10 ^ 9

/-- `int m = log10(n);` for `n > 0`: the decimal logarithm rounded towards zero.  Models Utils.cpp:112. -/
def magnitude (n : ℚ) : Int :=
  if 1 ≤ n then (Nat.log 10 ⌊n⌋₊ : Int) else -(Nat.log 10 ⌊1 / n⌋₊ : Int)

/-- `while (n > PRECISION || m >= 0) { … m--; }`, the characters written; `fuel` bounds the iterations.  A `char`
is `'0' + digit`.  Models Utils.cpp:127-137. -/
def dtoaLoop : Nat → ℚ → Int → Res (List Char)
  | 0, _, _ => .error .diverges
  | fuel + 1, n, m =>
    if n > precision ∨ m ≥ 0 then do
      let weight : ℚ := 10 ^ m
      let digit := ⌊n / weight⌋
      let n := n - digit * weight
      let point := if m = 0 ∧ n > 0 then ['.'] else []
      let rest ← dtoaLoop fuel n (m - 1)
      return Char.ofNat (48 + digit.toNat) :: point ++ rest
    else .ok []

/-- `while (m1 > 0) { *(c++) = '0' + m1 % 10; m1 /= 10; }` and the exchange that puts the digits in order (the
`itos` loops; `fuel` bounds the digits).  Models Utils.cpp:149-162. -/
def exponentDigits (fuel m1 : Nat) : List Char :=
  let b := digitsLoop fuel m1
  ((List.range (b.length / 2)).foldl (fun b t => xorSwap b t (b.length - t - 1)) b).map Char.ofNat

/-- The characters `dtoa` writes for a number other than zero.  Models Utils.cpp:105-163. -/
def dtoaChars (n : ℚ) : Res (List Char) := do
  let neg := n < 0
  let n := if neg then -n else n
  let m := magnitude n
  let useExp := m ≥ 14 ∨ (neg ∧ m ≥ 9) ∨ m ≤ -9
  let sign := if neg then ['-'] else []
  let m1 := if useExp then (if m < 0 then m - 1 else m) else 0
  let n := if useExp then n / 10 ^ m1 else n
  let m := if useExp then 0 else m
  let m := if m < 1 then 0 else m
  let digits ← dtoaLoop 64 n m
  let tail := if useExp then
      'e' :: (if m1 > 0 then '+' else '-') :: exponentDigits 10 m1.natAbs
    else []
  return sign ++ digits ++ tail

/-- `dtoa` of a finite number: the text is built in `char s[32]`; writing beyond it is undefined.
Models Utils.cpp:94-166 (`nan` and `inf`, lines 98-101, are not numbers). -/
def dtoa (n : ℚ) : Res (List Char) := do
  let s ← if n = 0 then .ok ['0'] else dtoaChars n
  if s.length + 1 ≤ 32 then .ok s else .error .outOfBounds

end MLTK.Text
