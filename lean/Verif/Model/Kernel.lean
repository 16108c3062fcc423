import Mathlib.Analysis.SpecialFunctions.Pow.Real
import Verif.Model.Basic
/-!
# Model of `mltk::Kernel` (Kernel.hpp)

Simplifications: `double` is the real numbers and `std::pow` is `Real.rpow` (which is not NaN for a
negative base and a fractional exponent).  A dataset is the list of the feature vectors of its samples;
its dimension is passed along.  A custom kernel function is a function of the two feature vectors and
the parameter.
-/
namespace MLTK.Kernel

/-- `KernelType`: Kernel.hpp 16; `type` is an `int`, so `other` stands for the values without a case. -/
inductive KType where
  | innerProduct | polynomial | gaussian | custom | other
  deriving DecidableEq

/-- A custom kernel function: Kernel.hpp 28. -/
abbrev CustomFn := List ℝ → List ℝ → ℝ → ℝ

/-- Fields of `Kernel`: Kernel.hpp 31-42. -/
structure Kern where
  type : KType := .innerProduct
  param : ℝ := 0
  computed : Bool := false
  K : List (List ℝ) := []
  H : List (List ℝ) := []
  func : Option CustomFn := none

/-- `sum += a[i] * b[i]` for `i < dim`, `i ≠ skip`: Kernel.hpp 230-231, 234-235, 265-267, 271-273. -/
def dotLoop (dim : Nat) (skip : Option Nat) (a b : List ℝ) : Res ℝ :=
  (List.range dim).foldlM (fun s i =>
    if skip = some i then .ok s
    else do let x ← vget a i; let y ← vget b i; return s + x * y) 0

/-- `t = a[i] - b[i]; sum += t * t`: Kernel.hpp 241-242, 278-283. -/
def sqLoop (dim : Nat) (skip : Option Nat) (a b : List ℝ) : Res ℝ :=
  (List.range dim).foldlM (fun s i =>
    if skip = some i then .ok s
    else do let x ← vget a i; let y ← vget b i; return s + (x - y) * (x - y)) 0

/-- `function(one, two, dim, f)`: Kernel.hpp 217-256; calling an empty `std::function` throws. -/
noncomputable def function (k : Kern) (one two : List ℝ) (dim : Nat) (f : Option CustomFn) : Res ℝ :=
  match k.type with
  | .innerProduct => dotLoop dim none one two
  | .polynomial => do
    let s ← dotLoop dim none one two
    return if k.param > 1 then s ^ k.param else s
  | .gaussian => do
    let s ← sqLoop dim none one two
    return Real.exp (-1 * s * k.param)
  | .custom =>
    match f with
    | some f => .ok (f one two k.param)
    | none =>
      match k.func with
      | some g => .ok (g one two k.param)
      | none => .error .exception
  | .other => .ok 0

/-- `functionWithoutDim(one, two, j, dim)`: Kernel.hpp 258-294. -/
noncomputable def functionWithoutDim (k : Kern) (one two : List ℝ) (j dim : Nat) : Res ℝ :=
  match k.type with
  | .innerProduct => dotLoop dim (some j) one two
  | .polynomial => do
    let s ← dotLoop dim (some j) one two
    return if k.param > 1 then (s + 1) ^ k.param else s
  | .gaussian => do
    let s ← sqLoop dim (some j) one two
    return Real.exp (-1 * s * k.param)
  | .custom =>
    match k.func with
    | some g => .ok (g one two k.param)
    | none => .error .exception
  | .other => .ok 0

/-- `M[i][j] = v`. -/
def set2 (M : List (List ℝ)) (i j : Nat) (v : ℝ) : Res (List (List ℝ)) := do
  let row ← vget M i
  let row' ← vset row j v
  vset M i row'

/-- `M[i][j]`. -/
def get2 (M : List (List ℝ)) (i j : Nat) : Res ℝ := do
  let row ← vget M i
  vget row j

/-- The index pairs visited by `for(i = 0; i < n; ++i) for(j = i; j < n; ++j)`: Kernel.hpp 168-169,
184-185, 205-206. -/
def pairs (n : Nat) : List (Nat × Nat) :=
  (List.range n).flatMap (fun i => (List.range' i (n - i)).map (fun j => (i, j)))

/-- The double loop writing `M[i][j] = v` and `M[j][i] = g i j v`: Kernel.hpp 168-173, 184-190,
205-210. -/
def fill (n : Nat) (f : Nat → Nat → Res ℝ) (g : Nat → Nat → ℝ → Res ℝ) (M : List (List ℝ)) : Res (List (List ℝ)) :=
  (pairs n).foldlM (fun M p => do
    let v ← f p.1 p.2
    let M ← set2 M p.1 p.2 v
    let w ← g p.1 p.2 v
    set2 M p.2 p.1 w) M

/-- `compute(samples, f)`: Kernel.hpp 159-175. -/
noncomputable def compute (k : Kern) (dim : Nat) (xs : List (List ℝ)) (f : Option CustomFn) : Res Kern := do
  if k.computed then return k
  let k := if k.type = .custom then { k with func := f } else k
  let M ← fill xs.length (fun i j => do
    let a ← vget xs i
    let b ← vget xs j
    function k a b dim f) (fun _ _ v => .ok v)
    (List.replicate xs.length (List.replicate xs.length 0))
  return { k with K := M, computed := true }

/-- `H.resize(size, std::vector<double>(size))`: Kernel.hpp 181; rows that exist keep their length. -/
def resizeRows (H : List (List ℝ)) (n : Nat) : List (List ℝ) :=
  H.take n ++ List.replicate (n - H.length) (List.replicate n 0)

/-- `generateMatrixH(samples)`: Kernel.hpp 177-193 (`ys` are the labels). -/
noncomputable def generateMatrixH (k : Kern) (dim : Nat) (xs : List (List ℝ)) (ys : List ℝ) : Res Kern := do
  let M ← fill xs.length (fun i j => do
    let a ← vget xs i
    let b ← vget xs j
    let v ← function k a b dim none
    let yi ← vget ys i
    let yj ← vget ys j
    return v * yi * yj) (fun _ _ v => .ok v) (resizeRows k.H xs.length)
  return { k with H := M }

/-- `generateMatrixHwithoutDim(samples, dim)`: Kernel.hpp 195-215. -/
noncomputable def generateMatrixHwithoutDim (k : Kern) (d : Nat) (dim : Nat) (xs : List (List ℝ)) (ys : List ℝ) :
    Res (List (List ℝ)) :=
  fill xs.length (fun i j => do
    let a ← vget xs i
    let b ← vget xs j
    functionWithoutDim k a b d dim) (fun i j v => do
      let yi ← vget ys i
      let yj ← vget ys j
      return v * yi * yj)
    (List.replicate xs.length (List.replicate xs.length 0))

/-- `norm(data)`: Kernel.hpp 296-312; `ay` lists the pairs `(Alpha, Y)`. -/
noncomputable def norm (k : Kern) (ay : List (ℝ × ℝ)) : Res ℝ := do
  let n := ay.length
  let s ← (List.range n).foldlM (fun st i => (List.range n).foldlM (fun (st : ℝ × ℝ) j => do
    let pj ← vget ay j
    let pi ← vget ay i
    let v ← get2 k.K i j
    let sum1 := st.2 + pj.1 * pj.2 * v
    return (st.1 + pi.2 * pi.1 * sum1, sum1)) st) ((0, 0) : ℝ × ℝ)
  return Real.sqrt s.1

/-- `featureSpaceNorm(data)`: Kernel.hpp 314-336. -/
noncomputable def featureSpaceNorm (k : Kern) (ay : List (ℝ × ℝ)) : Res ℝ := do
  let n := ay.length
  let s ← (List.range n).foldlM (fun sum i => do
    let pi ← vget ay i
    if pi.1 > 0 then
      let sum1 ← (List.range n).foldlM (fun sum1 j => do
        let pj ← vget ay j
        if pj.1 > 0 then
          let v ← get2 k.K j i
          return sum1 + pj.2 * pj.1 * v
        else return sum1) (0 : ℝ)
      return sum + pi.1 * pi.2 * sum1
    else return sum) (0 : ℝ)
  return Real.sqrt s

/-- `setType`: Kernel.hpp 359-363. -/
def setType (k : Kern) (t : KType) : Kern := { k with type := t, computed := false }
/-- `setParam`: Kernel.hpp 365-369. -/
def setParam (k : Kern) (p : ℝ) : Kern := { k with param := p, computed := false }
/-- `recompute`: Kernel.hpp 88. -/
def recompute (k : Kern) : Kern := { k with computed := false }
/-- `setKernelMatrix`: Kernel.hpp 371-374. -/
def setKernelMatrix (k : Kern) (M : List (List ℝ)) : Kern := { k with K := M }

end MLTK.Kernel
