import Mathlib.Analysis.SpecialFunctions.Pow.Real
import Verif.Model.Features
/-!
# What selecting features means
-/
namespace MLTK.Spec
open MLTK.Feat (Tbl)

/-- The dataset without some features: their names and their columns are gone, all else is the same. -/
def withoutFeatures {T : Type} (d : Tbl T) (gone : List Int) : Tbl T :=
  { rows := d.rows.map (fun row => ((row.zip d.fnames).filter (fun p => decide (p.2 ∉ gone))).map Prod.fst)
    fnames := d.fnames.filter (fun n => decide (n ∉ gone))
    dim := (d.fnames.filter (fun n => decide (n ∉ gone))).length }

/-- The removed features are features of the dataset, each once, and none has a higher score than one that stays;
`table` gives the scores. -/
def RemovesWorst {K : Type} [LE K] (table : List (Int × K)) (gone : List Int) : Prop :=
  gone.Nodup ∧ (∀ g ∈ gone, g ∈ table.map Prod.fst) ∧
    ∀ g s f t, (g, s) ∈ table → (f, t) ∈ table → g ∈ gone → f ∉ gone → s ≤ t

/-- A procedure that sorts by a key, in ascending order. -/
def SortsBy {α K : Type} [LE K] (key : α → K) (srt : List α → List α) : Prop :=
  ∀ l, (srt l).Perm l ∧ (srt l).Pairwise (fun a b => key a ≤ key b)

/-- One way to eliminate features step by step: training on the current dataset gives weights, and the `n` features
removed next have the least absolute weights; `level` counts the removed features. -/
inductive Elimination {K : Type} [Field K] [LinearOrder K] (learn : Nat → Tbl K → Option (List K)) (jump depth : Nat) :
    Nat → Nat → Tbl K → Tbl K → Prop where
  | done (k : Nat) (d : Tbl K) (w : List K) : learn k d = some w → Elimination learn jump depth k depth d d
  | step (k level : Nat) (d d' : Tbl K) (w : List K) (gone : List Int) :
      learn k d = some w → level < depth → gone.length = min jump (depth - level) →
      RemovesWorst (d.fnames.zip (w.map (fun x => |x|))) gone →
      Elimination learn jump depth (k + 1) (level + gone.length) (withoutFeatures d gone) d' →
      Elimination learn jump depth k level d d'

/-- Values of the samples of a class. -/
def classValues {K : Type} (P : Int → Bool) (col : List (K × Int)) : List K := (col.filter (fun p => P p.2)).map Prod.fst

/-- Mean of a sample. -/
def sampleMean {K : Type} [Field K] (l : List K) : K := l.sum / (l.length : K)

/-- Variance of a sample. -/
def sampleVariance {K : Type} [Field K] (l : List K) : K :=
  (l.map (fun x => (x - sampleMean l) ^ 2)).sum / ((l.length : K) - 1)

/-- Golub's score of a feature: distance of the class means over the sum of the standard deviations. -/
noncomputable def golub (col : List (ℝ × Int)) : ℝ :=
  |sampleMean (classValues (· != -1) col) - sampleMean (classValues (· == -1) col)| /
    (Real.sqrt (sampleVariance (classValues (· != -1) col)) + Real.sqrt (sampleVariance (classValues (· == -1) col)))

/-- Fisher's criterion: squared distance of the class means over the sum of the variances. -/
noncomputable def fisherRatio (col : List (ℝ × Int)) : ℝ :=
  (sampleMean (classValues (· != -1) col) - sampleMean (classValues (· == -1) col)) ^ 2 /
    (sampleVariance (classValues (· != -1) col) + sampleVariance (classValues (· == -1) col))

/-- The variant with standard deviations in place of the variances. -/
noncomputable def fisherDeviation (col : List (ℝ × Int)) : ℝ :=
  (sampleMean (classValues (· != -1) col) - sampleMean (classValues (· == -1) col)) ^ 2 /
    (Real.sqrt (sampleVariance (classValues (· != -1) col)) + Real.sqrt (sampleVariance (classValues (· == -1) col)))

/-- The values of the `i`-th feature with the labels. -/
def labelledColumn {K : Type} [Zero K] (d : Tbl K) (ys : List Int) (i : Nat) : List (K × Int) :=
  (d.rows.zip ys).map (fun r => (r.1.getD i 0, r.2))

/-- The scores of all features. -/
def scoreTable {K : Type} [Zero K] (score : List (K × Int) → K) (d : Tbl K) (ys : List Int) : List (Int × K) :=
  d.fnames.zipIdx.map (fun p => (p.1, score (labelledColumn d ys p.2)))

/-- Both classes have at least two samples, and no feature is constant in both classes. -/
def Scorable (d : Tbl ℝ) (ys : List Int) : Prop :=
  ys.length = d.rows.length ∧ 2 ≤ ys.countP (· == -1) ∧ 2 ≤ ys.countP (· != -1) ∧
    ∀ i < d.dim, sampleVariance (classValues (· != -1) (labelledColumn d ys i)) ≠ 0 ∨
      sampleVariance (classValues (· == -1) (labelledColumn d ys i)) ≠ 0

end MLTK.Spec
