import Verif.Model.Kernel
/-!
# A kernel used as a function object

ufjfmltk-core/include/ufjfmltk/core/Kernel.hpp: the call operators, the subscript and the constructor from a matrix.  As in
`Model/Kernel` a dataset is the list of the feature vectors of its samples.
-/
namespace MLTK.Kernel

/-- `Kernel(kernel_matrix)`: Kernel.hpp 344-347; the other members keep their default values (31-42). -/
def ofMatrix (M : List (List ℝ)) : Kern := { K := M }

/-- `operator()(a, b)`: Kernel.hpp 141-144. -/
noncomputable def callPoints (k : Kern) (a b : List ℝ) : Res ℝ :=
  if a.length = b.length then function k a b a.length none else .error .assertFail

/-- `operator()(samples, f)`: Kernel.hpp 146-151. -/
noncomputable def callData (k : Kern) (dim : Nat) (xs : List (List ℝ)) (f : Option CustomFn) : Res Kern :=
  if k.type = .custom ∧ f.isNone then .error .assertFail else compute k dim xs f

/-- `operator[](idx)`: Kernel.hpp 153-156. -/
def rowOf (k : Kern) (idx : Nat) : Res (List ℝ) := if idx < k.K.length then vget k.K idx else .error .assertFail

end MLTK.Kernel
