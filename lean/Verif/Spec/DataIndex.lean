import Verif.Model.Data
/-!
# Specification of the index vector

The trainers visit the samples in the order of `getIndex()`: for `i < size()` they take the sample at position `getIndex()[i]`.
-/
namespace MLTK.Spec

/-- The positions a pass over the dataset visits. -/
def visited (d : Data) : List Int := d.index.take d.points.length

/-- A pass visits every sample exactly once. -/
def VisitsAll (d : Data) : Prop := (visited d).Perm ((List.range d.points.length).map Int.ofNat)

/-- The index is `0, 1, …, size-1`. -/
def InOrder (d : Data) : Prop := d.index = (List.range d.points.length).map Int.ofNat

end MLTK.Spec
