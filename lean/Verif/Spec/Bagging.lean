import Verif.Spec.Data
/-!
# Specification vocabulary for bootstrap samples
-/
namespace MLTK.Spec
open MLTK.Data
variable {T : Type}

/-- The number of samples of class `c` in a sample of `samp` samples: the share of the class rounded down, at least
one. -/
def bootShare (m : Mem T) (d : Data) (samp : Nat) (c : Int) : Nat :=
  max 1 ((labels m d).count c * samp / (samples m d).length)

/-- The samples of class `c`, in order. -/
def ofClass (m : Mem T) (d : Data) (c : Int) : List (Pt T) := (samples m d).filter (fun p => p.y = c)

/-- `s` is a bootstrap sample of `samp` samples of `d`: it has the classes of `d` in their order, each with its share of
samples, every sample is a copy of one of `d` with the same label, and the class table describes the labels. -/
structure Bootstrap (m : Mem T) (d : Data) (samp : Nat) (m' : Mem T) (s : Data) : Prop where
  cons : Consistent m' s
  table : ClassTable (labels m' s) s.classes s.dist
  classes : s.classes = d.classes
  labels : labels m' s = d.classes.flatMap (fun c => List.replicate (bootShare m d samp c) c)
  drawn : ∀ p ∈ samples m' s, content p ∈ (ofClass m d p.y).map content

end MLTK.Spec
