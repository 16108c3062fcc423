import Verif.Model.Basic
/-!
# `mltk::random`: the global generator

`std::mt19937` is modelled by its published recurrence; the process-wide state is threaded explicitly.
-/
namespace MLTK.Rng

/-- State of `std::mt19937` as the window of its last 624 words (standard library, [rand.eng.mers]). -/
abbrev Mt := List Nat

/-- `m_generator.seed(s)`: the initialisation recurrence of `std::mt19937`. -/
def mtSeed (s : Nat) : Mt :=
  ((List.range 623).foldl (fun (p : Nat × List Nat) i =>
    let x := (1812433253 * (p.1 ^^^ (p.1 >>> 30)) + (i + 1)) % 2 ^ 32
    (x, x :: p.2)) (s % 2 ^ 32, [s % 2 ^ 32])).2.reverse

/-- The tempering of `std::mt19937`. -/
def temper (z : Nat) : Nat :=
  let z := z ^^^ (z >>> 11)
  let z := z ^^^ ((z <<< 7) % 2 ^ 32 &&& 0x9d2c5680)
  let z := z ^^^ ((z <<< 15) % 2 ^ 32 &&& 0xefc60000)
  z ^^^ (z >>> 18)

/-- One call of `std::mt19937::operator()`: slide the window by one word and temper it. -/
def mtNext (g : Mt) : Nat × Mt :=
  let y := (g.getD 0 0 &&& 0x80000000) ||| (g.getD 1 0 &&& 0x7fffffff)
  let x := g.getD 397 0 ^^^ (y >>> 1) ^^^ (if y % 2 = 1 then 0x9908b0df else 0)
  (temper x, g.tail ++ [x])

/-- The globals `seed_param`, `m_seed` and `m_generator`.  Models Random.hpp:17-19, Random.cpp:9-10. -/
structure State where
  seedParam : Nat
  mSeed : Nat
  gen : Mt

/-- Start of the program: `seed_param = 1`, `m_seed = 1`, and `m_generator` seeded from
`std::random_device`, whose value is the parameter `dev`.  Models Random.cpp:9-10, Random.hpp:17. -/
def start (dev : Nat) : State := { seedParam := 1, mSeed := 1, gen := mtSeed dev }

/-- `init(seed)`, with `dev` the value `std::random_device` would deliver; returns the state and the
returned seed.  The `discard` before the reseeding has no effect and is left out.
Models Random.cpp:12-20. -/
def init (s : State) (seed dev : Nat) : State × Nat :=
  if seed ≠ s.seedParam then
    let m := if seed = 0 then dev else seed
    ({ seedParam := seed, mSeed := m, gen := mtSeed m }, m)
  else (s, s.mSeed)

/-- `getSeed()`.  Models Random.cpp:22-24. -/
def getSeed (s : State) : Nat := s.mSeed

/-- A draw (`intInRange`, `floatInRange`, `std::shuffle`): the distribution object is local to the call,
so the result is a function of the generator only, which the call advances.  `f` is that function.
Models Random.cpp:26-38. -/
def draw {α : Type} (f : Mt → α × Mt) (s : State) : α × State :=
  let r := f s.gen
  (r.1, { s with gen := r.2 })

/-- `m_generator()` itself as a draw. -/
def word (s : State) : Nat × State := draw mtNext s

/-- A call a program can make. -/
inductive Call where
  | init (seed dev : Nat)
  | next (f : Mt → Nat × Mt)

/-- Run a history of calls, collecting the drawn values.  Sequencing of the functions above. -/
def run : State → List Call → List Nat × State
  | s, [] => ([], s)
  | s, .init seed dev :: cs => run (init s seed dev).1 cs
  | s, .next f :: cs =>
    let r := draw f s
    let rest := run r.2 cs
    (r.1 :: rest.1, rest.2)

end MLTK.Rng
