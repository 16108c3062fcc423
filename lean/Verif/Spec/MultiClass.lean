import Verif.Model.MultiClass
/-!
# What using a multi-class wrapper again means
-/
namespace MLTK.Spec
open MLTK MLTK.Multi
variable {X M K : Type}

/-- Build a one-vs-one classifier with `d`, give it the dataset `d'`, train it and ask it about `x`. -/
def rebuiltOvO [One K] [DecidableEq K] (B : Base X M K) (base : M) (over : Option (DS X → DS X)) (d d' : DS X) (x : X) :
    Res Int := do
  let (_, o) ← ((newOvO d base over).setSamples d').train B
  o.evaluate B x

/-- Build a one-vs-one classifier with `d`, train it and ask it about `x`. -/
def builtOvO [One K] [DecidableEq K] (B : Base X M K) (base : M) (over : Option (DS X → DS X)) (d : DS X) (x : X) :
    Res Int := do
  let (_, o) ← (newOvO d base over).train B
  o.evaluate B x

/-- The same for one-vs-all. -/
def rebuiltOvA [LinearOrder K] (B : Base X M K) (base : M) (over : Option (DS X → DS X)) (d d' : DS X) (x : X) :
    Res Int := do
  let (_, o) ← ((newOvA d base over).setSamples d').train B
  o.evaluate B x

def builtOvA [LinearOrder K] (B : Base X M K) (base : M) (over : Option (DS X → DS X)) (d : DS X) (x : X) :
    Res Int := do
  let (_, o) ← (newOvA d base over).train B
  o.evaluate B x

/-- The samples of the classes `ci` and `cj`, in order, labelled 1 and -1. -/
def duelData (d : DS X) (ci cj : Int) : DS X :=
  ⟨[-1, 1], d.samples.filterMap (fun s => if s.2 = ci then some (s.1, 1) else if s.2 = cj then some (s.1, -1) else none)⟩

/-- All samples, in order, those of class `c` labelled 1 and the others -1. -/
def againstData (d : DS X) (c : Int) : DS X := ⟨[-1, 1], d.samples.map (fun s => if s.2 = c then (s.1, 1) else (s.1, -1))⟩

end MLTK.Spec
