import Verif.Model.Double
import Verif.Model.Text
/-!
# Reading decimals in `double` arithmetic

`atod` of `Model/Text` with `val` and `power` as `double`s.
-/
namespace MLTK.Fp
open MLTK.Text (isDigit isSpace digitVal)

/-- `for (…; isdigit(s[i]); i++) val = 10.0 * val + (s[i] - '0');` returning the value and the rest.
Models Utils.cpp:49-50. -/
def readWhole : List Char → Dbl → Dbl × List Char
  | [], v => (v, [])
  | c :: cs, v =>
    if isDigit c then readWhole cs (((Dbl.fin 10).mul v).add (.fin (digitVal c))) else (v, c :: cs)

/-- The second loop, which also keeps `power`; what follows the digits is not read.  Models Utils.cpp:53-56. -/
def readFrac : List Char → Dbl → Dbl → Dbl × Dbl
  | [], v, p => (v, p)
  | c :: cs, v, p =>
    if isDigit c then readFrac cs (((Dbl.fin 10).mul v).add (.fin (digitVal c))) (p.mul (.fin 10)) else (v, p)

/-- `atod`; `sign * val / power` is `(sign * val) / power`.  Models Utils.cpp:40-58. -/
def atodD (s : List Char) : Dbl :=
  let s := s.dropWhile isSpace
  let sign : Dbl := if s.head? = some '-' then .fin (-1) else .fin 1
  let s := if s.head? = some '+' ∨ s.head? = some '-' then s.tail else s
  let r := readWhole s (.fin 0)
  let s := if r.2.head? = some '.' then r.2.tail else r.2
  let q := readFrac s r.1 (.fin 1)
  (sign.mul q.1).div q.2

end MLTK.Fp
