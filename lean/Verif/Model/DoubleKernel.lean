import Verif.Model.DoubleDual
/-!
# `Kernel::featureSpaceNorm` in `double` arithmetic

The norm of `Model/Kernel` with every operation carried out as in `Model/Double`; the kernel matrix is that of
`Model/DoubleDual`, computed for the same samples.  `std::sqrt` is a parameter.
-/
namespace MLTK.Fp
open MLTK.Perc (Sample)

/-- `sum1`: `sum1 += Y(j) * Alpha(j) * K[j][i]` over the samples with a positive `Alpha`.  Models Kernel.hpp:323-328. -/
def featureInner (K : Nat → Nat → Dbl) (alpha : List Dbl) (samples : List (Sample Dbl)) (i : Nat) : Dbl :=
  (List.range samples.length).foldl (fun (s : Dbl) j =>
    if (Dbl.fin 0).lt (alpha.getD j (.fin 0)) then
      s.add (((samples.getD j ⟨[], .fin 0⟩).y.mul (alpha.getD j (.fin 0))).mul (K j i))
    else s) (.fin 0)

/-- `sum` before the root: `sum += Alpha(i) * Y(i) * sum1`.  Models Kernel.hpp:314-331. -/
def featureSum (K : Nat → Nat → Dbl) (alpha : List Dbl) (samples : List (Sample Dbl)) : Dbl :=
  (List.range samples.length).foldl (fun (s : Dbl) i =>
    if (Dbl.fin 0).lt (alpha.getD i (.fin 0)) then
      s.add (((alpha.getD i (.fin 0)).mul (samples.getD i ⟨[], .fin 0⟩).y).mul (featureInner K alpha samples i))
    else s) (.fin 0)

/-- `featureSpaceNorm(data)` after `compute(data)`.  Models Kernel.hpp:314-335. -/
def featureSpaceNorm (sqrt : Dbl → Dbl) (k : List Dbl → List Dbl → Dbl) (alpha : List Dbl) (samples : List (Sample Dbl)) : Dbl :=
  sqrt (featureSum (matrix k samples) alpha samples)

end MLTK.Fp
