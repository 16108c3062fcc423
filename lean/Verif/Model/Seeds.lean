import Verif.Model.Split
/-!
# Model of the seeds of the splits

Sources: ufjfmltk-core/include/ufjfmltk/core/Data.hpp 1349-1356, 1855-1863 (`shuffle`, `splitSample`),
ufjfmltk-valid/include/ufjfmltk/valid/Validation.hpp 200-204, 214-221, 311-319, 413-502 (`kkfold`, `kfold`,
`partTrainTest`, both `kfoldsplit`).

What `std::random_device` returns is a stream of numbers, read from the front.  `std::shuffle` with `std::mt19937(seed)`
is a function `shuf` of the seed and of the vector.  `size_t` arithmetic wraps at `2^64`.
-/
namespace MLTK.Data
variable {T : Type}

/-- Computations that may ask the random device. -/
abbrev Draw := StateM (Nat → Nat)

/-- `std::random_device{}()`. -/
def draw : Draw Nat := fun s => (s 0, fun n => s (n + 1))

/-- `a + b` on `size_t`. -/
def addSize (a b : Nat) : Nat := (a + b) % 2 ^ 64

/-- `(seed == 0) ? std::random_device{}() : seed`: Data.hpp 1350, 1861, Validation.hpp 203, 317, 416, 445, 465. -/
def seedOr (seed : Nat) : Draw Nat := if seed = 0 then draw else pure seed

/-- The rearrangement `shuffle(seed)` performs: Data.hpp 1350-1351. -/
def shuffleBy (shuf : Nat → List Nat → List Nat) (seed : Nat) : Draw (List Nat → List Nat) := do
  let s ← seedOr seed
  return shuf s

/-- The rearrangement `splitSample(.., seed)` performs: Data.hpp 1861-1863. -/
def splitBy (shuf : Nat → List Nat → List Nat) (seed : Nat) : Draw (List Nat → List Nat) := do
  let s ← seedOr seed
  shuffleBy shuf s

/-- The rearrangements of training and test set of the folds: Validation.hpp 472, 486-487. -/
def foldShuffles (shuf : Nat → List Nat → List Nat) (s : Nat) :
    List Nat → Draw (List ((List Nat → List Nat) × (List Nat → List Nat)))
  | [] => pure []
  | i :: is => do
    let a ← shuffleBy shuf (addSize s i)
    let b ← shuffleBy shuf (addSize s i)
    let rest ← foldShuffles shuf s is
    return (a, b) :: rest

/-- `kfoldsplit(data, folds, stratified, keepIndex, seed)`: Validation.hpp 461-502. -/
def kfoldsplitSeeded (shuf : Nat → List Nat → List Nat) (m : Mem T) (d : Data) (k : Nat) (stratified keep : Bool)
    (seed : Nat) : Draw (Res (Mem T × List TrainTest)) := do
  let s ← seedOr seed
  let σ ← splitBy shuf seed
  let l ← foldShuffles shuf s (List.range k)
  return kfoldsplit m d k stratified keep σ (fun i => (l.getD i (id, id)).1) (fun i => (l.getD i (id, id)).2)

/-- The executions numbered `is` of the repeated `kfoldsplit`, `s` being its `_seed`: Validation.hpp 448-457. -/
def kfoldsplitRuns (shuf : Nat → List Nat → List Nat) (d : Data) (k : Nat) (stratified keep : Bool) (seed s : Nat) :
    Mem T → List Nat → Draw (Res (Mem T × List TrainTest))
  | m, [] => pure (.ok (m, []))
  | m, i :: is => do
    let other ← (if seed = 0 then draw else pure (addSize s i) : Draw Nat)
    let r ← kfoldsplitSeeded shuf m d k stratified keep other
    match r with
    | .error e => pure (.error e)
    | .ok (m, prs) => do
      let r' ← kfoldsplitRuns shuf d k stratified keep seed s m is
      match r' with
      | .error e => pure (.error e)
      | .ok (m, rest) => pure (.ok (m, prs.map (fun pr => { pr with execution := i + 1 }) ++ rest))

/-- `kfoldsplit(samples, folds, qtde, stratified, keepIndex, seed)`: Validation.hpp 441-459. -/
def kfoldsplitMany (shuf : Nat → List Nat → List Nat) (m : Mem T) (d : Data) (k qtde : Nat) (stratified keep : Bool)
    (seed : Nat) : Draw (Res (Mem T × List TrainTest)) := do
  let s ← seedOr seed
  kfoldsplitRuns shuf d k stratified keep seed s m (List.range qtde)

/-- `partTrainTest(data, fold, stratified, keepIndex, seed)`: Validation.hpp 413-439. -/
def partTrainTestSeeded (shuf : Nat → List Nat → List Nat) (m : Mem T) (d : Data) (k : Nat) (stratified keep : Bool)
    (seed : Nat) : Draw (Res (Mem T × TrainTest)) := do
  let s ← seedOr seed
  let σ ← splitBy shuf seed
  let a ← shuffleBy shuf s
  let b ← shuffleBy shuf s
  return partTrainTest m d k stratified keep σ a b

/-- The folds of `kfold` and the seed it gives the classifier for each of them: Validation.hpp 311-341. -/
def kfoldSeeded (shuf : Nat → List Nat → List Nat) (m : Mem T) (d : Data) (k : Nat) (stratified : Bool) (seed : Nat) :
    Draw (Res (Mem T × List TrainTest × Nat)) := do
  let s ← seedOr seed
  let σ ← shuffleBy shuf s
  match shuffle d σ with
  | .error e => pure (.error e)
  | .ok d => do
    let r ← kfoldsplitSeeded shuf m d k stratified true seed
    match r with
    | .error e => pure (.error e)
    | .ok (m, prs) => pure (.ok (m, prs, s))

/-- The executions numbered `is` of `kkfold`, `s` being its `_seed`; every one starts from the dataset `d`, which `kfold`
receives by value: Validation.hpp 217-221. -/
def kkfoldRuns (shuf : Nat → List Nat → List Nat) (d : Data) (k : Nat) (stratified : Bool) (s : Nat) :
    Mem T → List Nat → Draw (Res (Mem T × List (List TrainTest × Nat)))
  | m, [] => pure (.ok (m, []))
  | m, i :: is => do
    let r ← kfoldSeeded shuf m d k stratified (addSize s i)
    match r with
    | .error e => pure (.error e)
    | .ok (m, run) => do
      let r' ← kkfoldRuns shuf d k stratified s m is
      match r' with
      | .error e => pure (.error e)
      | .ok (m, rest) => pure (.ok (m, run :: rest))

/-- `kkfold`: the split of its final validation, the folds and classifier seeds of its executions, and the seed the
classifier gets for the final validation: Validation.hpp 200-247. -/
def kkfoldSeeded (shuf : Nat → List Nat → List Nat) (m : Mem T) (d : Data) (qtde k : Nat) (stratified : Bool)
    (seed : Nat) : Draw (Res (Mem T × TrainTest × List (List TrainTest × Nat) × Nat)) := do
  let s ← seedOr seed
  let r ← partTrainTestSeeded shuf m d k true true s
  match r with
  | .error e => pure (.error e)
  | .ok (m, pr) => do
    let r' ← kkfoldRuns shuf d k stratified s m (List.range qtde)
    match r' with
    | .error e => pure (.error e)
    | .ok (m, runs) => pure (.ok (m, pr, runs, seed))

end MLTK.Data
