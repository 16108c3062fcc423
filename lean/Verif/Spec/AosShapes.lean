import Verif.Spec.Select
import Verif.Spec.Data
/-!
# What ordering features by a class criterion means
-/
namespace MLTK.Spec

/-- Sum of the squared distances from the mean. -/
def scatter {K : Type} [Field K] (l : List K) : K := (l.map (fun x => (x - sampleMean l) ^ 2)).sum

/-- One feature of a two-class dataset: labels 1 and -1, both present, and a class table that describes the labels. -/
structure TwoClasses {K : Type} (col : List (K × Int)) (classes : List Int) (dist : List Nat) : Prop where
  labels : ∀ p ∈ col, p.2 = 1 ∨ p.2 = -1
  pos : (1 : Int) ∈ col.map Prod.snd
  neg : (-1 : Int) ∈ col.map Prod.snd
  table : ClassTable (col.map Prod.snd) classes dist

end MLTK.Spec
