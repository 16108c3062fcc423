import Mathlib.Data.String.Basic
import Verif.Model.Data
/-!
# Model of dataset splitting

`Data::splitSample`, `Data::splitByClasses` (ufjfmltk-core/include/ufjfmltk/core/Data.hpp) and
`partTrainTest`, `kfoldsplit` (ufjfmltk-valid/include/ufjfmltk/valid/Validation.hpp).

The random generator enters as parameters `σ`, the rearrangements performed by `std::shuffle`.
Simplifications: labels are integers; `std::floor(double(size())/k)` is natural division (exact for
sizes below 2^53); moves/copies of returned datasets are not repeated.
-/
namespace MLTK.Data
variable {T : Type}

/-- `std::to_string(obj->Y())` with `Y` a `double` holding an integer: Data.hpp 1867. -/
def labelKey (y : Int) : String := toString y ++ ".000000"

/-- The label map of Data.hpp 1870-1874, keyed by `std::to_string(int)`. -/
def labelMap (classes : List Int) : List (String × Nat) := (classes.map toString).zipIdx

/-- `label_map[key]`: Data.hpp 1882-1883; a missing key is created with value 0. -/
def mapGet (mp : List (String × Nat)) (key : String) : Nat :=
  ((mp.find? (fun e => e.1 == key)).map Prod.snd).getD 0

/-- Key under which a pointer is filed in the multimap: Data.hpp 1866-1868. -/
def keyOf (m : Mem T) (r : Nat) : String := ((m[r]?).map (fun p => labelKey p.y)).getD ""

/-- Iteration order of the `std::multimap`: by key, equal keys in insertion order:
Data.hpp 1866-1868, 1880. -/
def multimapOrder (m : Mem T) (refs : List Nat) : List Nat :=
  refs.insertionSort (fun a b => keyOf m a ≤ keyOf m b)

/-- The distribution loop of `splitSample`: Data.hpp 1880-1885. -/
def fillLoop (keep : Bool) (lm : List (String × Nat)) (k : Nat) :
    Mem T → List Data → List Nat → List Nat → Res (Mem T × List Data)
  | m, parts, _, [] => .ok (m, parts)
  | m, parts, fill, r :: rs => do
    let p ← deref m r
    let li := mapGet lm (labelKey p.y)
    let f ← vget fill li
    let fill ← vset fill li (f + 1)
    let part ← vget parts (f % k)
    let (m, part, _) ← insertPtr m part r keep
    fillLoop keep lm k m (parts.set (f % k) part) fill rs

/-- Inner loop of the plain split: Data.hpp 1892-1898; the flag is the early `return`. -/
def plainInner (keep : Bool) : Nat → Mem T → Data → List Nat → Res (Mem T × Data × List Nat × Bool)
  | 0, m, part, rest => .ok (m, part, rest, false)
  | _ + 1, _, _, [] => .error .outOfBounds
  | j + 1, m, part, r :: rest => do
    let (m, part, _) ← insertPtr m part r keep
    if rest = [] then return (m, part, [], true)
    plainInner keep j m part rest

/-- Outer loop of the plain split: Data.hpp 1890-1900. -/
def plainOuter (keep : Bool) (q : Nat) : Mem T → List Data → List Data → List Nat →
    Res (Mem T × List Data)
  | m, [], done, _ => .ok (m, done)
  | m, part :: todo, done, rest => do
    let (m, part, rest, stop) ← plainInner keep q m part rest
    if stop then return (m, done ++ part :: todo)
    plainOuter keep q m todo (done ++ [part]) rest

/-- `splitSample(split_size, stratified, keepIndex, seed)`: Data.hpp 1854-1901. `σ` is the shuffle of
the internal copy.  `split_size = 0` divides by zero (undefined conversion). -/
def splitSample (m : Mem T) (d : Data) (k : Nat) (stratified keep : Bool)
    (σ : List Nat → List Nat) : Res (Mem T × List Data) := do
  if k = 0 then .error .divByZero
  let (m, c) ← copy m d
  let c ← shuffle c σ
  if d.isClassification && stratified then
    fillLoop keep (labelMap c.classes) k m (List.replicate k empty) (List.replicate k 0)
      (multimapOrder m c.points)
  else
    plainOuter keep (d.size / k) m (List.replicate k empty) [] c.points

/-- The loop of `splitByClasses`: Data.hpp 2018-2021 (points are inserted by value). -/
def classLoop (keep : Bool) (classes : List Int) :
    Mem T → List Data → List Nat → Res (Mem T × List Data)
  | m, parts, [] => .ok (m, parts)
  | m, parts, r :: rs => do
    let p ← deref m r
    let part ← vget parts (classPos classes p.y)
    let (m, part, _) ← insertVal m part p keep
    classLoop keep classes m (parts.set (classPos classes p.y) part) rs

/-- `computeClassesDistribution` on every part: Data.hpp 2023-2025. -/
def computeAll (m : Mem T) : List Data → Res (List Data)
  | [] => .ok []
  | d :: ds => do
    let d ← computeDist m d
    let ds ← computeAll m ds
    return d :: ds

/-- `splitByClasses(keepIndex)`: Data.hpp 2010-2028. -/
def splitByClasses (m : Mem T) (d : Data) (keep : Bool) : Res (Mem T × List Data) := do
  let (m, c) ← copy m d
  let (m, parts) ← classLoop keep c.classes m (List.replicate d.classes.length empty) c.points
  let parts ← computeAll m parts
  return (m, parts)

/-- Insert a list of pointers one after the other, ignoring the returned flags:
Validation.hpp 422-425, 428-431. -/
def insertAll (keep : Bool) : Mem T → Data → List Nat → Res (Mem T × Data)
  | m, d, [] => .ok (m, d)
  | m, d, r :: rs => do
    let (m, d, _) ← insertPtr m d r keep
    insertAll keep m d rs

/-- The training loop of `partTrainTest`: Validation.hpp 420-426; `auto _data = *it` copies the fold. -/
def trainLoop (keep : Bool) : Mem T → Data → List Data → Res (Mem T × Data)
  | m, d, [] => .ok (m, d)
  | m, d, f :: fs => do
    let (m, c) ← copy m f
    let (m, d) ← insertAll keep m d c.points
    trainLoop keep m d fs

/-- A train/test pair: Validation.hpp 77-90. -/
structure TrainTest where
  train : Data
  test : Data
  fold : Nat := 0
  execution : Nat := 0

/-- `partTrainTest(data, fold, stratified, keepIndex, seed)`: Validation.hpp 413-439. -/
def partTrainTest (m : Mem T) (d : Data) (k : Nat) (stratified keep : Bool)
    (σ σtrain σtest : List Nat → List Nat) : Res (Mem T × TrainTest) := do
  let (m, s) ← copy m d
  let (m, folds) ← splitSample m s k stratified keep σ
  let (m, train) ← trainLoop keep m empty folds.dropLast
  let last ← vget folds (folds.length - 1)
  let (m, test) ← insertAll keep m empty last.points
  let train ← shuffle { train with name := d.name ++ "_train" } σtrain
  let test ← shuffle { test with name := d.name ++ "_test" } σtest
  return (m, { train := train, test := test })

/-- The joining loop of `kfoldsplit`: Validation.hpp 479-482: `n` remaining iterations, current `j`;
returns the last `next_j`. -/
def joinLoop (folds : List Data) : Nat → Mem T → Data → Nat → Nat → Res (Mem T × Data × Nat)
  | 0, m, train, _, next => .ok (m, train, next)
  | n + 1, m, train, j, _ => do
    let f ← vget folds j
    let (m, train) ← join m train f
    joinLoop folds n m train ((j + 1) % folds.length) ((j + 1) % folds.length)

/-- One iteration of the outer loop of `kfoldsplit`: Validation.hpp 472-500. -/
def kfoldStep (folds : List Data) (name : String) (σtrain σtest : List Nat → List Nat)
    (m : Mem T) (i : Nat) : Res (Mem T × TrainTest) := do
  let k := folds.length
  let fi ← vget folds i
  let (m, train) ← join m empty fi
  let (m, train, next) ← joinLoop folds (k - 2) m train ((i + 1) % k) ((i + 2) % k)
  let ft ← vget folds (next % k)
  let (m, test) ← copy m ft
  let train ← shuffle train σtrain
  let test ← shuffle test σtest
  let train := resetIndex { train with name := name ++ "_train_fold_" ++ toString (i + 1) }
  let test := resetIndex { test with name := name ++ "_test_fold_" ++ toString (i + 1) }
  let (m, tr) ← copy m train
  let (m, te) ← copy m test
  return (m, { train := tr, test := te, fold := i + 1 })

/-- The outer loop of `kfoldsplit`: Validation.hpp 472-500. -/
def kfoldLoop (folds : List Data) (name : String) (σtrain σtest : Nat → List Nat → List Nat) :
    Mem T → List Nat → Res (Mem T × List TrainTest)
  | m, [] => .ok (m, [])
  | m, i :: is => do
    let (m, pr) ← kfoldStep folds name (σtrain i) (σtest i) m i
    let (m, prs) ← kfoldLoop folds name σtrain σtest m is
    return (m, pr :: prs)

/-- `kfoldsplit(data, folds, stratified, keepIndex, seed)`: Validation.hpp 461-502.  With one fold
`folds-2` wraps around and the joining loop does not stop. -/
def kfoldsplit (m : Mem T) (d : Data) (k : Nat) (stratified keep : Bool) (σ : List Nat → List Nat)
    (σtrain σtest : Nat → List Nat → List Nat) : Res (Mem T × List TrainTest) := do
  let (m, s) ← copy m d
  let (m, folds) ← splitSample m s k stratified keep σ
  if k = 1 then .error .diverges
  kfoldLoop folds d.name σtrain σtest m (List.range k)

end MLTK.Data
