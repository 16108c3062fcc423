import Verif.Model.Double
import Verif.Model.Smo
/-!
# SMO training in `double` arithmetic

The trainer of `Model/Smo` with every operation carried out as in `Model/Double`.  Simplifications as there; the labels are
whole numbers, and the conversions of an `int` to a `double` are exact.
-/
namespace MLTK.Fp
open MLTK.Dll
open MLTK.Smo (Cfg St upd sampleIdx walkFuel Trained)

local infixl:65 " +ᵈ " => Dbl.add
local infixl:65 " -ᵈ " => Dbl.sub
local infixl:70 " *ᵈ " => Dbl.mul
local infixl:70 " /ᵈ " => Dbl.div

/-- The conversion of an `int`.  Models IEEE 754-2019 §5.4.1 (convertFromInt). -/
def ofInt (z : Int) : Dbl := rnd (z : ℚ)

/-- `const int C = 9999;`, converted.  Models SMO.hpp:41. -/
def boxC : Dbl := .fin 9999

/-- `const double TOL = 0.0001;`  Models SMO.hpp:42. -/
def tol : Dbl := rnd (1 / 10000)

/-- `std::max(a, b)`.  Models [alg.min.max]. -/
def stdMax (a b : Dbl) : Dbl := if a.lt b then b else a

/-- `std::min(a, b)`.  Models [alg.min.max]. -/
def stdMin (a b : Dbl) : Dbl := if b.lt a then b else a

/-- `function(index)`.  Models SMO.hpp:406-421. -/
def function (c : Cfg Dbl) (s : St Dbl) (index : Nat) : Res Dbl := do
  let hd ← deref s.heap s.head
  let sum ← each s.heap (fun sum (i : Int) => do
    let i ← sampleIdx c.n i
    if (Dbl.fin 0).lt (s.alpha i) then .ok (sum +ᵈ s.alpha i *ᵈ ofInt (c.y i) *ᵈ c.M i index) else .ok sum)
    (walkFuel s) hd.next (.fin 0)
  .ok (sum +ᵈ s.bias)

/-- `0 < alpha < C`.  Models SMO.hpp:172, 280, 284. -/
def inside (a : Dbl) : Bool := (Dbl.fin 0).lt a && a.lt boxC

/-- The error of a sample as both `examine_example` and `take_step` obtain it.
Models SMO.hpp:172-173, 280-285. -/
def errorOf (c : Cfg Dbl) (s : St Dbl) (i : Nat) : Res Dbl :=
  if inside (s.alpha i) then .ok (s.err i)
  else do
    let f ← function c s i
    .ok (f -ᵈ ofInt (c.y i))

/-- The interval the new second multiplier must lie in.  Models SMO.hpp:292-299. -/
def bounds (s : Int) (a1 a2 : Dbl) : Dbl × Dbl :=
  if s = -1 then (stdMax (.fin 0) (a2 -ᵈ a1), stdMin boxC (boxC +ᵈ a2 -ᵈ a1))
  else (stdMax (.fin 0) (a2 +ᵈ a1 -ᵈ boxC), stdMin boxC (a1 +ᵈ a2))

/-- The new second multiplier before the change test.  Models SMO.hpp:308-324. -/
def newAlpha2 (eps eta : Dbl) (y2 : Int) (e1 e2 a2 lo hi : Dbl) : Dbl :=
  if eta.lt (.fin 0) then
    let na := a2 +ᵈ ofInt y2 *ᵈ (e2 -ᵈ e1) /ᵈ eta
    if na.lt lo then lo else if hi.lt na then hi else na
  else
    let c1 := eta /ᵈ .fin 2
    let c2 := ofInt y2 *ᵈ (e1 -ᵈ e2) -ᵈ eta *ᵈ a2
    let fmin := c1 *ᵈ lo *ᵈ lo +ᵈ c2 *ᵈ lo
    let fmax := c1 *ᵈ hi *ᵈ hi +ᵈ c2 *ᵈ lo
    if (fmax +ᵈ eps).lt fmin then lo else if fmin.lt (fmax -ᵈ eps) then hi else a2

/-- Adjustment of the pair when the first multiplier leaves the box.  Models SMO.hpp:333-340. -/
def adjust (s : Int) (na1 na2 : Dbl) : Dbl × Dbl :=
  if na1.lt (.fin 0) then (.fin 0, na2 +ᵈ ofInt s *ᵈ na1)
  else if boxC.lt na1 then (boxC, na2 +ᵈ ofInt s *ᵈ (na1 -ᵈ boxC))
  else (na1, na2)

/-- Bookkeeping of the support vector list for one of the two samples.
Models SMO.hpp:345-352 and 354-360. -/
def saveSv (s : St Dbl) (i : Nat) (na : Dbl) : Res (St Dbl) :=
  if (Dbl.fin 0).lt na ∧ s.sv i = none then do
    let (p, h) ← append s.heap s.head
    let h' ← modify h p (fun m => { m with index := (i : Int) })
    .ok { s with heap := h', sv := upd s.sv i p }
  else if na.eq (.fin 0) ∧ s.sv i ≠ none then do
    let (_, h) ← remove s.heap (s.sv i)
    .ok { s with heap := h, sv := upd s.sv i none }
  else .ok s

/-- The new threshold `b = -bias`.  Models SMO.hpp:363-378. -/
def newB (c : Cfg Dbl) (i1 i2 : Nat) (b e1 e2 na1 na2 t1 t2 : Dbl) : Dbl :=
  if inside na1 then b +ᵈ e1 +ᵈ t1 *ᵈ c.M i1 i1 +ᵈ t2 *ᵈ c.M i1 i2
  else if inside na2 then b +ᵈ e2 +ᵈ t1 *ᵈ c.M i1 i2 +ᵈ t2 *ᵈ c.M i2 i2
  else
    let b2 := b +ᵈ e1 +ᵈ t1 *ᵈ c.M i1 i1 +ᵈ t2 *ᵈ c.M i1 i2
    let b1 := b +ᵈ e2 +ᵈ t1 *ᵈ c.M i1 i2 +ᵈ t2 *ᵈ c.M i2 i2
    (b1 +ᵈ b2) /ᵈ .fin 2

/-- Refresh of the error cache.  Models SMO.hpp:383-396. -/
def refresh (c : Cfg Dbl) (i1 i2 : Nat) (s : St Dbl) : Res (St Dbl) := do
  let hd ← deref s.heap s.head
  let s' ← each s.heap (fun (s : St Dbl) (i : Int) => do
    let i ← sampleIdx c.n i
    if (i ≠ i1 ∧ i ≠ i2) ∧ (s.alpha i).lt boxC then do
      let f ← function c s i
      .ok { s with err := upd s.err i (f -ᵈ ofInt (c.y i)) }
    else .ok s) (walkFuel s) hd.next s
  .ok { s' with err := upd (upd s'.err i1 (.fin 0)) i2 (.fin 0) }

/-- The new pair of multipliers.  Models SMO.hpp:332-343. -/
def newPair (sg : Int) (a1 a2 na2 : Dbl) : Dbl × Dbl := adjust sg (a1 -ᵈ ofInt sg *ᵈ (na2 -ᵈ a2)) na2

/-- The part of `take_step` after a change has been decided: new multipliers, list, bias, cache.
Models SMO.hpp:332-396. -/
def commit (c : Cfg Dbl) (s : St Dbl) (i1 i2 : Nat) (e1 e2 na2 : Dbl) : Res (St Dbl) := do
  let a1 := s.alpha i1
  let a2 := s.alpha i2
  let b := s.bias.neg
  let na := newPair (c.y i1 * c.y i2) a1 a2 na2
  let s := { s with alpha := upd (upd s.alpha i1 na.1) i2 na.2 }
  let s ← saveSv s i1 na.1
  let s ← saveSv s i2 na.2
  let t1 := ofInt (c.y i1) *ᵈ (na.1 -ᵈ a1)
  let t2 := ofInt (c.y i2) *ᵈ (na.2 -ᵈ a2)
  let s := { s with bias := (newB c i1 i2 b e1 e2 na.1 na.2 t1 t2).neg }
  refresh c i1 i2 s

/-- `take_step(i1, i2)`; the Boolean is the returned flag.  Models SMO.hpp:260-403. -/
def takeStep (c : Cfg Dbl) (s : St Dbl) (i1 i2 : Nat) : Res (Bool × St Dbl) := do
  let s := { s with done := upd s.done i2 true }
  let a1 := s.alpha i1
  let a2 := s.alpha i2
  let e1 ← errorOf c s i1
  let e2 ← errorOf c s i2
  let lo := (bounds (c.y i1 * c.y i2) a1 a2).1
  let hi := (bounds (c.y i1 * c.y i2) a1 a2).2
  if lo.eq hi then .ok (false, s)
  else
    let eta := Dbl.fin 2 *ᵈ c.M i1 i2 -ᵈ c.M i1 i1 -ᵈ c.M i2 i2
    let na2 := newAlpha2 c.eps eta (c.y i2) e1 e2 a2 lo hi
    if (na2 -ᵈ a2).abs.lt (c.eps *ᵈ (na2 +ᵈ a2 +ᵈ c.eps)) then .ok (false, s)
    else do
      let s' ← commit c s i1 i2 e1 e2 na2
      .ok (true, s')

/-- The choice made by `max_errors`: `(tmax, i2)` after the walk, `none` standing for `i2 = -1`.
Models SMO.hpp:199-213. -/
def pickMax (c : Cfg Dbl) (s : St Dbl) (e1 : Dbl) : Res (Dbl × Option Nat) := do
  let hd ← deref s.heap s.head
  each s.heap (fun (r : Dbl × Option Nat) (k : Int) => do
    let k ← sampleIdx c.n k
    if s.done k = false ∧ (s.alpha k).lt boxC then
      let temp := (e1 -ᵈ s.err k).abs
      if r.1.lt temp then .ok (temp, some k) else .ok r
    else .ok r) (walkFuel s) hd.next (.fin 0, none)

/-- `max_errors(i1, e1)`.  Models SMO.hpp:189-216. -/
def maxErrors (c : Cfg Dbl) (s : St Dbl) (i1 : Nat) (e1 : Dbl) : Res (Bool × St Dbl) := do
  let r ← pickMax c s e1
  match r.2 with
  | none => .ok (false, s)
  | some i2 => takeStep c s i1 i2

/-- The walk of `iterate_non_bound`.  Models SMO.hpp:226-232. -/
def nonBoundLoop (c : Cfg Dbl) (i1 : Nat) : Nat → Option Nat → St Dbl → Res (Bool × St Dbl)
  | _, none, s => .ok (false, s)
  | 0, some _, _ => .error .diverges
  | f+1, some p, s => do
    let k ← sampleIdx c.n (← deref s.heap (some p)).index
    let r ← if s.done k = false ∧ (s.alpha k).lt boxC then takeStep c s i1 k else .ok (false, s)
    if r.1 then .ok (true, r.2)
    else nonBoundLoop c i1 f (← deref r.2.heap (some p)).next r.2

/-- `iterate_non_bound(i1)`.  Models SMO.hpp:219-235. -/
def iterateNonBound (c : Cfg Dbl) (s : St Dbl) (i1 : Nat) : Res (Bool × St Dbl) := do
  let hd ← deref s.heap s.head
  nonBoundLoop c i1 (walkFuel s) hd.next s

/-- Loop of `iterate_all_set` over the sample numbers still to try.  Models SMO.hpp:251-255. -/
def allSetLoop (c : Cfg Dbl) (i1 : Nat) : List Nat → St Dbl → Res (Bool × St Dbl)
  | [], s => .ok (false, s)
  | i2 :: l, s => do
    let r ← if s.done i2 = false then takeStep c s i1 i2 else .ok (false, s)
    if r.1 then .ok (true, r.2) else allSetLoop c i1 l r.2

/-- `iterate_all_set(i1)`.  Models SMO.hpp:238-257. -/
def iterateAllSet (c : Cfg Dbl) (s : St Dbl) (i1 : Nat) : Res (Bool × St Dbl) :=
  if c.n = 0 then .error .divByZero
  else
    let k0 := c.k0 % c.n
    allSetLoop c i1 ((List.range c.n).map (fun k => (k0 + k) % c.n)) s

/-- `examine_example(i1)`.  Models SMO.hpp:157-186. -/
def examineExample (c : Cfg Dbl) (s : St Dbl) (i1 : Nat) : Res (Bool × St Dbl) := do
  let s := { s with done := fun i => if i = i1 then true else if i < c.n then false else s.done i }
  let a1 := s.alpha i1
  let e1 ← errorOf c s i1
  let r1 := ofInt (c.y i1) *ᵈ e1
  if (r1.lt tol.neg ∧ a1.lt boxC) ∨ (tol.lt r1 ∧ (Dbl.fin 0).lt a1) then do
    let r ← maxErrors c s i1 e1
    if r.1 then .ok (true, r.2)
    else do
      let r ← iterateNonBound c r.2 i1
      if r.1 then .ok (true, r.2)
      else iterateAllSet c r.2 i1
  else .ok (false, s)

/-- One pass over the samples; returns `num_changed`.  Models SMO.hpp:446-454. -/
def onePass (c : Cfg Dbl) (examineAll : Bool) (s : St Dbl) : Res (Nat × St Dbl) :=
  (List.range c.n).foldlM (fun (r : Nat × St Dbl) k => do
    if examineAll ∨ inside (r.2.alpha k) then do
      let q ← examineExample c r.2 k
      .ok (if q.1 then r.1 + 1 else r.1, q.2)
    else .ok r) (0, s)

/-- The `while (num_changed > 0 || examine_all)` loop; the first argument is the number of epochs
left before `epoch > MAX_EPOCH`.  Models SMO.hpp:441-460. -/
def routineLoop (c : Cfg Dbl) : Nat → Nat → Bool → St Dbl → Res (Bool × St Dbl)
  | left, changed, all, s =>
    if 0 < changed ∨ all then
      match left with
      | 0 => .ok (false, s)
      | left+1 => do
        let r ← onePass c all s
        let all' := if all then false else if r.1 = 0 then true else false
        routineLoop c left r.1 all' r.2
    else .ok (true, s)

/-- `training_routine()`.  Models SMO.hpp:424-468. -/
def trainingRoutine (c : Cfg Dbl) (s : St Dbl) : Res (Bool × St Dbl) :=
  let s := { s with
    bias := .fin 0
    alpha := fun i => if i < c.n then .fin 0 else s.alpha i
    err := fun i => if i < c.n then .fin 0 else s.err i
    done := fun i => if i < c.n then false else s.done i }
  routineLoop c (c.maxEpoch + 1) 0 true s

/-- `train()`: `h` is the free store before the call and `alpha0` the multipliers found in the samples.
The weight vector and margin (SMO.hpp:117-129) are not modelled here.  Models SMO.hpp:93-153. -/
def smoTrain (c : Cfg Dbl) (h : Heap) (alpha0 : Nat → Dbl) : Res (Trained Dbl) := do
  let (p, h) := alloc h
  let s : St Dbl := { alpha := fun i => if i < c.n then .fin 0 else alpha0 i, err := fun _ => .fin 0, done := fun _ => false,
                      sv := fun _ => none, heap := h, head := some p, bias := .fin 0 }
  let r ← trainingRoutine c s
  let s := r.2
  let svs := (List.range c.n).foldl (fun v i => if (Dbl.fin 0).lt (s.alpha i) then v + 1 else v) 0
  let ret := (List.range c.n).foldl (fun b i => if boxC.lt (s.alpha i) then false else b) r.1
  let h ← free s.heap s.head
  .ok { ret := ret, alpha := (List.range c.n).map s.alpha, bias := s.bias, svs := svs, heap := h }

end MLTK.Fp
