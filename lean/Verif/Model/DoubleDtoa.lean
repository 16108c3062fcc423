import Verif.Model.Double
import Verif.Model.Dtoa
/-!
# Writing numbers in `double` arithmetic

`dtoa` of `Model/Dtoa` with `n` and `weight` as `double`s.  `log10` and `pow` belong to the C library and are parameters.
-/
namespace MLTK.Fp
open MLTK.Text (exponentDigits)

/-- The functions of the C library that are called: `(int) log10(n)` for a positive finite `n`, and `pow(10.0, m)`.
Models Utils.cpp:112, 120, 128 (calls). -/
structure Libm where
  log10 : ℚ → Int
  pow10 : Int → Dbl

/-- `PRECISION`, a literal of type `double`.  Models Utils.hpp:8. -/
def precisionD : Dbl := rnd (1 / 10 ^ 9)

/-- The conversion of a `double` to `int`: the part before the point; undefined if that does not fit.
Models [conv.fpint], used at Utils.cpp:130. -/
def intOf : Dbl → Res Int
  | .fin q =>
    let t := if 0 ≤ q then ⌊q⌋ else ⌈q⌉
    if -2 ^ 31 ≤ t ∧ t < 2 ^ 31 then .ok t else .error .overflow
  | _ => .error .overflow

/-- `while (n > PRECISION || m >= 0) { … m--; }`, the characters written; `fuel` bounds the iterations.  A `char` is
`'0' + digit`.  Models Utils.cpp:127-137. -/
def dtoaLoopD (lib : Libm) : Nat → Dbl → Int → Res (List Char)
  | 0, _, _ => .error .diverges
  | fuel + 1, n, m =>
    if precisionD.lt n = true ∨ m ≥ 0 then do
      let weight := lib.pow10 m
      let r ← (if (Dbl.fin 0).lt weight = true ∧ weight ≠ .inf false then do
          let digit ← intOf ((n.div weight).floor)
          pure (n.sub ((Dbl.fin digit).mul weight), [Char.ofNat (48 + digit).toNat])
        else pure (n, []) : Res (Dbl × List Char))
      let point := if m = 0 ∧ (Dbl.fin 0).lt r.1 = true then ['.'] else []
      let rest ← dtoaLoopD lib fuel r.1 (m - 1)
      pure (r.2 ++ point ++ rest)
    else .ok []

/-- The characters `dtoa` writes for a finite number other than zero.  Models Utils.cpp:105-163. -/
def dtoaCharsD (lib : Libm) (q : ℚ) : Res (List Char) := do
  let neg := q < 0
  let n := if neg then -q else q
  let m := lib.log10 n
  let useExp := m ≥ 14 ∨ (neg ∧ m ≥ 9) ∨ m ≤ -9
  let sign := if neg then ['-'] else []
  let m1 := if useExp then (if m < 0 then m - 1 else m) else 0
  let v := if useExp then (Dbl.fin n).div (lib.pow10 m1) else .fin n
  let m := if useExp then 0 else m
  let m := if m < 1 then 0 else m
  let digits ← dtoaLoopD lib 64 v m
  let tail := if useExp then
      'e' :: (if m1 > 0 then '+' else '-') :: exponentDigits 10 m1.natAbs
    else []
  pure (sign ++ digits ++ tail)

/-- `dtoa`: the text is built in `char s[32]`; writing beyond it is undefined.  Models Utils.cpp:94-166. -/
def dtoaD (lib : Libm) : Dbl → Res (List Char)
  | .nan => .ok "nan".toList
  | .inf _ => .ok "inf".toList
  | .fin q => do
    let s ← if q = 0 then .ok ['0'] else dtoaCharsD lib q
    if s.length + 1 ≤ 32 then .ok s else .error .outOfBounds

end MLTK.Fp
