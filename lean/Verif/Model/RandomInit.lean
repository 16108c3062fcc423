import Verif.Model.Random
import Verif.Model.Data
/-!
# `random_init`: points with random components

The distribution is a parameter: `f g` is the value it makes from the generator `g` and the generator
afterwards (the distribution object is local to each `floatInRange` call).  The value
`std::random_device` would deliver is the parameter `dev`.
-/
namespace MLTK.Rng
variable {T : Type}

/-- The loop `for (i…) p[i] = floatInRange(…)`.  Models Point.hpp:570-572, 582-584, 594-596, 605-607. -/
def fill (f : Mt → T × Mt) : Nat → State → List T × State
  | 0, s => ([], s)
  | n + 1, s =>
    let r := draw f s
    let rest := fill f n r.2
    (r.1 :: rest.1, rest.2)

/-- The call `mltk::random::init(seed)` with a `size_t`: the parameter of `init` is an `unsigned int`
(32 bits), the rest of the seed is lost.  Models Point.hpp:567, 580, 592, 603, Random.cpp:12. -/
def initWide (s : State) (seed dev : Nat) : State := (init s (seed % 2 ^ 32) dev).1

/-- `random_init(size, seed)` and `random_init(val1, val2, size, seed)`: a new point.
Models Point.hpp:577-600. -/
def randomNew (f : Mt → T × Mt) (size seed dev : Nat) (s : State) : Pt T × State :=
  let r := fill f size (initWide s seed dev)
  ({ x := r.1, y := 0 }, r.2)

/-- `random_init(p, size, seed)`: `p` is resized and filled.  Models Point.hpp:565-575. -/
def randomInto (f : Mt → T × Mt) (p : Pt T) (size seed dev : Nat) (s : State) : Pt T × State :=
  let r := fill f size (initWide s seed dev)
  ({ p with x := r.1, y := 0 }, r.2)

/-- `random_init(p, seed)`: `p` is filled.  Models Point.hpp:602-611. -/
def randomOver (f : Mt → T × Mt) (p : Pt T) (seed dev : Nat) (s : State) : Pt T × State :=
  randomInto f p p.x.length seed dev s

end MLTK.Rng
