import Verif.Model.Load
/-!
# What loading should leave in a dataset
-/
namespace MLTK.Spec
open MLTK.Text

/-- Two datasets hold the same samples, up to their labels. -/
def SameFeatures (s t : Store) : Prop :=
  s.dim = t.dim ∧ s.fnames = t.fnames ∧ s.name = t.name ∧
  s.points.map (fun p => (p.x, p.id)) = t.points.map (fun p => (p.x, p.id))

/-- Two datasets hold the same samples with the same description. -/
def SameContent (s t : Store) : Prop :=
  s.points = t.points ∧ s.dim = t.dim ∧ s.fnames = t.fnames ∧ s.classes = t.classes

/-- The words of an `.arff` file that are neither numbers nor known class names; always so for the first file. -/
def NewWords (s : Store) (file : Option (List Char)) : Prop :=
  ∀ text, file = some text → ∀ l ∈ (getlines '\n' text []).map Prod.fst,
    ∀ it ∈ (getlines ',' (trim l) []).map Prod.fst, isNumber it = false → it ∉ s.classes.names

end MLTK.Spec
