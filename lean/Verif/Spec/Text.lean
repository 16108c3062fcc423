import Mathlib.Algebra.Order.Ring.Rat
/-!
# What numerals, decimals and tokens are
-/
namespace MLTK.Spec

/-- The maximal `d`-free non-empty pieces of a string, in order: the text is delimiters only, or delimiters, then a
non-empty `d`-free piece that ends at a delimiter or at the end of the text, then the pieces of what follows. -/
inductive Pieces (d : Char) : List Char → List (List Char) → Prop
  | nil (s : List Char) : (∀ c ∈ s, c = d) → Pieces d s []
  | cons (lead tok rest : List Char) (ts : List (List Char)) :
      (∀ c ∈ lead, c = d) → tok ≠ [] → d ∉ tok → (rest = [] ∨ rest.head? = some d) →
      Pieces d rest ts → Pieces d (lead ++ tok ++ rest) (tok :: ts)

/-- The character of a digit. -/
def digitChar (k : Nat) : Char := Char.ofNat (48 + k)

/-- The number denoted by a list of decimal digits, most significant first. -/
def digitsValue : List Nat → Nat
  | [] => 0
  | k :: ks => k * 10 ^ ks.length + digitsValue ks

/-- The canonical decimal numeral of an integer: a minus sign exactly for negative numbers, decimal digits, no
superfluous leading zero. -/
def IsNumeral (n : Int) (s : List Char) : Prop :=
  ∃ ks : List Nat, ks ≠ [] ∧ (∀ k ∈ ks, k < 10) ∧ (ks.head? = some 0 → ks = [0]) ∧
    digitsValue ks = n.natAbs ∧ s = (if n < 0 then ['-'] else []) ++ ks.map digitChar

/-- White space, as in the "C" locale. -/
def IsBlank (c : Char) : Prop := c = ' ' ∨ c = '\t' ∨ c = '\n' ∨ c = Char.ofNat 11 ∨ c = Char.ofNat 12 ∨ c = '\r'

/-- An optional sign and what it denotes. -/
inductive SignText : List Char → ℚ → Prop
  | none : SignText [] 1
  | plus : SignText ['+'] 1
  | minus : SignText ['-'] (-1)

/-- A decimal without exponent: optional sign, digits, optional point and digits; at least one digit. -/
def Decimal (s : List Char) (v : ℚ) : Prop :=
  ∃ (sg : List Char) (sv : ℚ) (is fs : List Nat) (point : List Char),
    SignText sg sv ∧ (∀ k ∈ is, k < 10) ∧ (∀ k ∈ fs, k < 10) ∧ is ++ fs ≠ [] ∧
    (point = ['.'] ∨ (point = [] ∧ fs = [])) ∧
    s = sg ++ is.map digitChar ++ point ++ fs.map digitChar ∧
    v = sv * (digitsValue is + digitsValue fs / 10 ^ fs.length)

/-- A number in the usual notation: a decimal, possibly followed by `e` and a signed integer exponent. -/
def Denotes (s : List Char) (v : ℚ) : Prop :=
  Decimal s v ∨
  ∃ (m sg : List Char) (mv : ℚ) (sv : ℚ) (es : List Nat),
    Decimal m mv ∧ SignText sg sv ∧ es ≠ [] ∧ (∀ k ∈ es, k < 10) ∧
    s = m ++ ['e'] ++ sg ++ es.map digitChar ∧
    v = if sv = 1 then mv * 10 ^ digitsValue es else mv / 10 ^ digitsValue es

/-- Labels separate names exactly: two positions have the same label just when they have the same name. -/
def Faithful {α β : Type} (names : List α) (labels : List β) : Prop :=
  names.length = labels.length ∧
  ∀ i j, i < names.length → j < names.length → (names[i]? = names[j]? ↔ labels[i]? = labels[j]?)

end MLTK.Spec
