/-!
# Common vocabulary of the model

Outcomes of C++ code that are not a normal return are values of `Fault`; a modelled function that
can end that way returns `Res α = Except Fault α`.
-/
namespace MLTK

/-- Ways in which a modelled call can fail to return normally.  Not a definition of the C++ code:
it names the undefined-behaviour / abort outcomes that the C++ source can reach. -/
inductive Fault where
  /-- access outside a `std::vector` (undefined behaviour) -/
  | outOfBounds
  /-- dereference of a null or dangling pointer (undefined behaviour) -/
  | badPointer
  /-- use of an invalidated iterator (undefined behaviour) -/
  | badIterator
  /-- a failing `assert` -/
  | assertFail
  /-- `exit(1)` -/
  | exit1
  /-- integer division by zero (undefined behaviour) -/
  | divByZero
  /-- read of an uninitialised variable (undefined behaviour) -/
  | uninit
  /-- an uncaught C++ exception -/
  | exception
  /-- the loop cannot terminate -/
  | diverges
  /-- a floating-point operation left the finite numbers (division by zero, root of a negative) -/
  | nonFinite
  /-- signed integer overflow (undefined behaviour) -/
  | overflow
  deriving DecidableEq, Repr

/-- Result of a modelled call. -/
abbrev Res := Except Fault

/-- `v[i]` on a `std::vector` read: undefined behaviour outside the bounds. -/
def vget {α : Type} (v : List α) (i : Nat) : Res α :=
  match v[i]? with
  | some a => .ok a
  | none => .error .outOfBounds

/-- `v[i] = a` on a `std::vector`: undefined behaviour outside the bounds. -/
def vset {α : Type} (v : List α) (i : Nat) (a : α) : Res (List α) :=
  if i < v.length then .ok (v.set i a) else .error .outOfBounds

/-- `std::iota(v.begin(), v.end(), start)` on a vector of `n` ints. -/
def iota (start : Int) (n : Nat) : List Int := (List.range n).map (fun (i : Nat) => start + (i : Int))

/-- `--x` on a `size_t` (64 bit): wraps at zero. -/
def decSize (n : Nat) : Nat := if n = 0 then 2 ^ 64 - 1 else n - 1

@[simp] theorem iota_length (s : Int) (n : Nat) : (iota s n).length = n := by simp [iota]

theorem iota_getElem? (s : Int) (n i : Nat) (h : i < n) : (iota s n)[i]? = some (s + i) := by
  simp [iota, h]

theorem iota_succ (s : Int) (n : Nat) : iota s (n+1) = iota s n ++ [s + n] := by
  simp [iota, List.range_succ]

@[simp] theorem vget_eq_ok {α : Type} {v : List α} {i : Nat} {a : α} :
    vget v i = .ok a ↔ v[i]? = some a := by
  unfold vget; split <;> simp_all

end MLTK
