import Mathlib.Algebra.Order.Field.Basic
import Mathlib.Algebra.Order.Group.Unbundled.Abs
import Mathlib.Data.Rat.Cast.Order
import Verif.Model.IntDll
/-!
# The SMO trainer

Simplifications.  `double` is an ordered field `K`.  The labels are the ints `take_step` reads them
as (`y1 = (*samples)[i1]->Y()` converts to `int`); class labels are whole numbers.  Vectors indexed by
samples are functions of the sample number; the numbers used by the loops are below `size`, and a
number read from the linked list is checked before use.  `srand(0); rand() % size` yields the same
number at every call; it is the parameter `k0` (any value).  Messages are not modelled.
-/
namespace MLTK.Smo
open MLTK.Dll

variable {K : Type} [Field K] [LinearOrder K]

/-- What training reads: number of samples, labels, kernel matrix, `EPS` and `MAX_EPOCH` (both can be
set on a `Learner`), and the number `rand() % size` draws after `srand(0)`.
Models SMO.hpp:41-45, Learner.hpp:33-39. -/
structure Cfg (K : Type) where
  n : Nat
  y : Nat → Int
  M : Nat → Nat → K
  eps : K
  maxEpoch : Nat
  k0 : Nat

/-- `const int C = 9999;`  Models SMO.hpp:41. -/
def boxC : K := 9999

/-- `const double TOL = 0.0001;`  Models SMO.hpp:42. -/
def tol : K := 1 / 10000

/-- Training state: the multipliers kept in the samples, `l_data[i].error`, `l_data[i].done`,
`l_data[i].sv`, the list nodes, `head` and `solution.bias`.  Models SMO.hpp:29-44. -/
structure St (K : Type) where
  alpha : Nat → K
  err : Nat → K
  done : Nat → Bool
  sv : Nat → Option Nat
  heap : Heap
  head : Option Nat
  bias : K

/-- `v[i] = a`. -/
def upd {β : Type} (f : Nat → β) (i : Nat) (a : β) : Nat → β := fun j => if j = i then a else f j

/-- A sample number read from the list, used as an index. -/
def sampleIdx (n : Nat) (i : Int) : Res Nat :=
  if 0 ≤ i ∧ i < n then .ok i.toNat else .error .outOfBounds

/-- Bound on the length of a list walk: more steps mean a cycle. -/
def walkFuel (s : St K) : Nat := s.heap.fresh + 1

/-- `function(index)`.  Models SMO.hpp:406-421. -/
def function (c : Cfg K) (s : St K) (index : Nat) : Res K := do
  let hd ← deref s.heap s.head
  let sum ← each s.heap (fun sum (i : Int) => do
    let i ← sampleIdx c.n i
    if 0 < s.alpha i then .ok (sum + s.alpha i * (c.y i : K) * c.M i index) else .ok sum)
    (walkFuel s) hd.next 0
  .ok (sum + s.bias)

/-- The error of a sample as both `examine_example` and `take_step` obtain it.
Models SMO.hpp:172-173, 280-285. -/
def errorOf (c : Cfg K) (s : St K) (i : Nat) : Res K :=
  if 0 < s.alpha i ∧ s.alpha i < boxC then .ok (s.err i)
  else do
    let f ← function c s i
    .ok (f - (c.y i : K))

/-- The interval the new second multiplier must lie in.  Models SMO.hpp:292-299. -/
def bounds (s : Int) (a1 a2 : K) : K × K :=
  if s = -1 then (max 0 (a2 - a1), min boxC (boxC + a2 - a1))
  else (max 0 (a2 + a1 - boxC), min boxC (a1 + a2))

/-- The new second multiplier before the change test.  Models SMO.hpp:308-324. -/
def newAlpha2 (eps eta : K) (y2 : Int) (e1 e2 a2 lo hi : K) : K :=
  if eta < 0 then
    let na := a2 + (y2 : K) * (e2 - e1) / eta
    if na < lo then lo else if hi < na then hi else na
  else
    let c1 := eta / 2
    let c2 := (y2 : K) * (e1 - e2) - eta * a2
    let fmin := c1 * lo * lo + c2 * lo
    let fmax := c1 * hi * hi + c2 * lo
    if fmax + eps < fmin then lo else if fmin < fmax - eps then hi else a2

/-- Adjustment of the pair when the first multiplier leaves the box.  Models SMO.hpp:333-340. -/
def adjust (s : Int) (na1 na2 : K) : K × K :=
  if na1 < 0 then (0, na2 + (s : K) * na1)
  else if boxC < na1 then (boxC, na2 + (s : K) * (na1 - boxC))
  else (na1, na2)

/-- Bookkeeping of the support vector list for one of the two samples.
Models SMO.hpp:345-352 and 354-360. -/
def saveSv (s : St K) (i : Nat) (na : K) : Res (St K) :=
  if 0 < na ∧ s.sv i = none then do
    let (p, h) ← append s.heap s.head
    let h' ← modify h p (fun m => { m with index := (i : Int) })
    .ok { s with heap := h', sv := upd s.sv i p }
  else if na = 0 ∧ s.sv i ≠ none then do
    let (_, h) ← remove s.heap (s.sv i)
    .ok { s with heap := h, sv := upd s.sv i none }
  else .ok s

/-- The new threshold `b = -bias`.  Models SMO.hpp:363-378. -/
def newB (c : Cfg K) (i1 i2 : Nat) (b e1 e2 na1 na2 t1 t2 : K) : K :=
  if 0 < na1 ∧ na1 < boxC then b + e1 + t1 * c.M i1 i1 + t2 * c.M i1 i2
  else if 0 < na2 ∧ na2 < boxC then b + e2 + t1 * c.M i1 i2 + t2 * c.M i2 i2
  else
    let b2 := b + e1 + t1 * c.M i1 i1 + t2 * c.M i1 i2
    let b1 := b + e2 + t1 * c.M i1 i2 + t2 * c.M i2 i2
    (b1 + b2) / 2

/-- Refresh of the error cache.  Models SMO.hpp:383-396. -/
def refresh (c : Cfg K) (i1 i2 : Nat) (s : St K) : Res (St K) := do
  let hd ← deref s.heap s.head
  let s' ← each s.heap (fun (s : St K) (i : Int) => do
    let i ← sampleIdx c.n i
    if (i ≠ i1 ∧ i ≠ i2) ∧ s.alpha i < boxC then do
      let f ← function c s i
      .ok { s with err := upd s.err i (f - (c.y i : K)) }
    else .ok s) (walkFuel s) hd.next s
  .ok { s' with err := upd (upd s'.err i1 0) i2 0 }

/-- The part of `take_step` after a change has been decided: new multipliers, list, bias, cache.
Models SMO.hpp:332-396. -/
def commit (c : Cfg K) (s : St K) (i1 i2 : Nat) (e1 e2 na2 : K) : Res (St K) := do
  let sg := c.y i1 * c.y i2
  let a1 := s.alpha i1
  let a2 := s.alpha i2
  let b := -s.bias
  let (na1, na2) := adjust sg (a1 - (sg : K) * (na2 - a2)) na2
  let s := { s with alpha := upd (upd s.alpha i1 na1) i2 na2 }
  let s ← saveSv s i1 na1
  let s ← saveSv s i2 na2
  let t1 := (c.y i1 : K) * (na1 - a1)
  let t2 := (c.y i2 : K) * (na2 - a2)
  let s := { s with bias := - newB c i1 i2 b e1 e2 na1 na2 t1 t2 }
  refresh c i1 i2 s

/-- `take_step(i1, i2)`; the Boolean is the returned flag.  Models SMO.hpp:260-403. -/
def takeStep (c : Cfg K) (s : St K) (i1 i2 : Nat) : Res (Bool × St K) := do
  let s := { s with done := upd s.done i2 true }
  let a1 := s.alpha i1
  let a2 := s.alpha i2
  let e1 ← errorOf c s i1
  let e2 ← errorOf c s i2
  let lo := (bounds (c.y i1 * c.y i2) a1 a2).1
  let hi := (bounds (c.y i1 * c.y i2) a1 a2).2
  if lo = hi then .ok (false, s)
  else
    let eta := 2 * c.M i1 i2 - c.M i1 i1 - c.M i2 i2
    let na2 := newAlpha2 c.eps eta (c.y i2) e1 e2 a2 lo hi
    if |na2 - a2| < c.eps * (na2 + a2 + c.eps) then .ok (false, s)
    else do
      let s' ← commit c s i1 i2 e1 e2 na2
      .ok (true, s')

/-- The choice made by `max_errors`: `(tmax, i2)` after the walk, `none` standing for `i2 = -1`.
Models SMO.hpp:199-213. -/
def pickMax (c : Cfg K) (s : St K) (e1 : K) : Res (K × Option Nat) := do
  let hd ← deref s.heap s.head
  each s.heap (fun (r : K × Option Nat) (k : Int) => do
    let k ← sampleIdx c.n k
    if s.done k = false ∧ s.alpha k < boxC then
      let temp := |e1 - s.err k|
      if r.1 < temp then .ok (temp, some k) else .ok r
    else .ok r) (walkFuel s) hd.next (0, none)

/-- `max_errors(i1, e1)`.  Models SMO.hpp:189-216. -/
def maxErrors (c : Cfg K) (s : St K) (i1 : Nat) (e1 : K) : Res (Bool × St K) := do
  let r ← pickMax c s e1
  match r.2 with
  | none => .ok (false, s)
  | some i2 => takeStep c s i1 i2

/-- The walk of `iterate_non_bound`.  Models SMO.hpp:226-232. -/
def nonBoundLoop (c : Cfg K) (i1 : Nat) : Nat → Option Nat → St K → Res (Bool × St K)
  | _, none, s => .ok (false, s)
  | 0, some _, _ => .error .diverges
  | f+1, some p, s => do
    let k ← sampleIdx c.n (← deref s.heap (some p)).index
    let r ← if s.done k = false ∧ s.alpha k < boxC then takeStep c s i1 k else .ok (false, s)
    if r.1 then .ok (true, r.2)
    else nonBoundLoop c i1 f (← deref r.2.heap (some p)).next r.2

/-- `iterate_non_bound(i1)`.  Models SMO.hpp:219-235. -/
def iterateNonBound (c : Cfg K) (s : St K) (i1 : Nat) : Res (Bool × St K) := do
  let hd ← deref s.heap s.head
  nonBoundLoop c i1 (walkFuel s) hd.next s

/-- Loop of `iterate_all_set` over the sample numbers still to try.  Models SMO.hpp:251-255. -/
def allSetLoop (c : Cfg K) (i1 : Nat) : List Nat → St K → Res (Bool × St K)
  | [], s => .ok (false, s)
  | i2 :: l, s => do
    let r ← if s.done i2 = false then takeStep c s i1 i2 else .ok (false, s)
    if r.1 then .ok (true, r.2) else allSetLoop c i1 l r.2

/-- `iterate_all_set(i1)`.  Models SMO.hpp:238-257. -/
def iterateAllSet (c : Cfg K) (s : St K) (i1 : Nat) : Res (Bool × St K) :=
  if c.n = 0 then .error .divByZero
  else
    let k0 := c.k0 % c.n
    allSetLoop c i1 ((List.range c.n).map (fun k => (k0 + k) % c.n)) s

/-- `examine_example(i1)`.  Models SMO.hpp:157-186. -/
def examineExample (c : Cfg K) (s : St K) (i1 : Nat) : Res (Bool × St K) := do
  let s := { s with done := fun i => if i = i1 then true else if i < c.n then false else s.done i }
  let y1 : K := (c.y i1 : K)
  let a1 := s.alpha i1
  let e1 ← errorOf c s i1
  let r1 := y1 * e1
  if (r1 < -tol ∧ a1 < boxC) ∨ (tol < r1 ∧ 0 < a1) then do
    let r ← maxErrors c s i1 e1
    if r.1 then .ok (true, r.2)
    else do
      let r ← iterateNonBound c r.2 i1
      if r.1 then .ok (true, r.2)
      else iterateAllSet c r.2 i1
  else .ok (false, s)

/-- One pass over the samples; returns `num_changed`.  Models SMO.hpp:446-454. -/
def onePass (c : Cfg K) (examineAll : Bool) (s : St K) : Res (Nat × St K) :=
  (List.range c.n).foldlM (fun (r : Nat × St K) k => do
    if examineAll ∨ (0 < r.2.alpha k ∧ r.2.alpha k < boxC) then do
      let q ← examineExample c r.2 k
      .ok (if q.1 then r.1 + 1 else r.1, q.2)
    else .ok r) (0, s)

/-- The `while (num_changed > 0 || examine_all)` loop; the first argument is the number of epochs
left before `epoch > MAX_EPOCH`.  Models SMO.hpp:441-460. -/
def routineLoop (c : Cfg K) : Nat → Nat → Bool → St K → Res (Bool × St K)
  | left, changed, all, s =>
    if 0 < changed ∨ all then
      match left with
      | 0 => .ok (false, s)
      | left+1 => do
        let r ← onePass c all s
        let all' := if all then false else if r.1 = 0 then true else false
        routineLoop c left r.1 all' r.2
    else .ok (true, s)

/-- `training_routine()`.  Models SMO.hpp:424-468. -/
def trainingRoutine (c : Cfg K) (s : St K) : Res (Bool × St K) :=
  let s := { s with
    bias := 0
    alpha := fun i => if i < c.n then 0 else s.alpha i
    err := fun i => if i < c.n then 0 else s.err i
    done := fun i => if i < c.n then false else s.done i }
  routineLoop c (c.maxEpoch + 1) 0 true s

/-- What `train` leaves in the learner, as far as modelled: return value, `solution.alpha`,
`solution.bias`, `solution.svs`, and the list nodes still allocated. -/
structure Trained (K : Type) where
  ret : Bool
  alpha : List K
  bias : K
  svs : Nat
  heap : Heap

/-- `train()`: `h` is the free store before the call and `alpha0` the multipliers found in the samples.
The weight vector and margin (SMO.hpp:117-129) are not modelled here.  Models SMO.hpp:93-153. -/
def train (c : Cfg K) (h : Heap) (alpha0 : Nat → K) : Res (Trained K) := do
  let (p, h) := alloc h
  let s : St K := { alpha := fun i => if i < c.n then 0 else alpha0 i, err := fun _ => 0, done := fun _ => false,
                    sv := fun _ => none, heap := h, head := some p, bias := 0 }
  let r ← trainingRoutine c s
  let s := r.2
  let svs := (List.range c.n).foldl (fun v i => if 0 < s.alpha i then v + 1 else v) 0
  let ret := (List.range c.n).foldl (fun b i => if boxC < s.alpha i then false else b) r.1
  let h ← free s.heap s.head
  .ok { ret := ret, alpha := (List.range c.n).map s.alpha, bias := s.bias, svs := svs, heap := h }

end MLTK.Smo
