import Verif.Model.Double
import Verif.Model.Split
import Verif.Model.Features
import Verif.Model.Sampling
/-!
# Sizes computed with `double`s

The places where the toolkit computes a number of samples, features or points with `double`s, in the arithmetic of
`Model/Double`.  The rest of these functions is as in `Model/Split`, `Model/Features` and `Model/Sampling`.
-/
namespace MLTK.Fp
open Dbl

/-- The conversion to `size_t`; undefined if the value does not fit. -/
def sizeOf (a : Dbl) : Res Nat :=
  match a.toSize with
  | some n => .ok n
  | none => .error .overflow

/-- `size_t new_size = std::floor(double(size()) / split_size);`  Models Data.hpp:1860. -/
def partSize (n k : Nat) : Res Nat := sizeOf ((ofNat n).div (ofNat k)).floor

/-- `splitSample` with the size of the parts computed in `double`s.  Models Data.hpp:1854-1901. -/
def splitSample {T : Type} (m : Mem T) (d : MLTK.Data) (k : Nat) (stratified keep : Bool) (σ : List Nat → List Nat) :
    Res (Mem T × List MLTK.Data) := do
  let q ← partSize d.size k
  let (m, c) ← MLTK.Data.copy m d
  let c ← MLTK.Data.shuffle c σ
  if d.isClassification && stratified then
    MLTK.Data.fillLoop keep (MLTK.Data.labelMap c.classes) k m (List.replicate k MLTK.Data.empty) (List.replicate k 0)
      (MLTK.Data.multimapOrder m c.points)
  else
    MLTK.Data.plainOuter keep q m (List.replicate k MLTK.Data.empty) [] c.points

/-- `class_dist[i] = (double(temp_dist[i]) / size()) * samp_size;`  Models Data.hpp:2042-2044. -/
def share (sz samp n : Nat) : Dbl := ((ofNat n).div (ofNat sz)).mul (ofNat samp)

/-- The upper end of `std::uniform_int_distribution<size_t>(0, class_dist[i]-1)`.  Models Data.hpp:2045-2047. -/
def upper (c : Dbl) : Res Nat := sizeOf (c.sub (.fin 1))

/-- `(class_dist[i] < 1) ? 1 : std::floor(class_dist[i])`, as the number of turns of the loop below.
Models Data.hpp:2048-2050, 2053. -/
def quota (c : Dbl) : Res Nat := sizeOf (if c.lt (.fin 1) then .fin 1 else c.floor)

/-- `Data::sampling(samp_size, with_replacement)`.  Models Data.hpp:2030-2066. -/
def sampling {α : Type} (draw : Nat → Nat → Nat) (fuel : Nat) (classes : List (List α)) (samp : Nat) (repl : Bool) :
    Res (Option (List (List α))) :=
  let sz := (classes.map List.length).sum
  if samp > sz then .error .assertFail
  else do
    let shares := classes.map (fun c => share sz samp c.length)
    let his ← shares.mapM upper
    let cnts ← shares.mapM quota
    Feat.drawAll draw repl fuel (classes.zip (his.zip cnts)) ([], 0)

/-- The constructor of `RSM`: how many features each subspace gets, and the features in order.
Models Sampling.hpp:90-95. -/
def rsmInit (r : Dbl) (dims : Nat) : Res (Nat × List Nat) := do
  let n ← sizeOf (r.mul (ofNat dims)).ceil
  pure (n, List.range dims)

/-- The loop of `linspace`.  Models Point.hpp:684-686. -/
def linLoop (h : Dbl) : Nat → Dbl → List Dbl
  | 0, _ => []
  | n + 1, v => v :: linLoop h n (v.add h)

/-- `linspace(lower, upper, N)` for points of `double`s; `N-1` is computed as `size_t`.  Models Point.hpp:678-688. -/
def linspace (lower upper : Dbl) (N : Nat) : List Dbl :=
  linLoop ((upper.sub lower).div (ofNat (if N = 0 then 2 ^ 64 - 1 else N - 1))) N lower

end MLTK.Fp
