import Verif.Model.AosRun
import Mathlib.Analysis.SpecialFunctions.Pow.Real
/-!
# Specification of the admissible ordered search
-/
namespace MLTK.Spec
open MLTK.Feat (Tbl)

/-- The dataset without the features `R`: the other columns and names in their order. -/
def Without {K : Type} (samples : Tbl K) (R : List Int) : Tbl K where
  rows := samples.rows.map (fun row => ((row.zip samples.fnames).filter (fun p => decide (p.2 ∉ R))).map Prod.fst)
  fnames := samples.fnames.filter (fun n => decide (n ∉ R))
  dim := samples.dim - R.length

/-- What the library's sorting by weight may return: the same entries, larger absolute weights first, ties in any order. -/
def SortsByWeight {K : Type} [Field K] [LinearOrder K] (srt : List (K × Int) → List (K × Int)) : Prop :=
  ∀ l, (srt l).Perm l ∧ (srt l).Pairwise (fun a b => |a.1| ≥ |b.1|)

/-- The `q`-norm of a vector: `(Σ |w_j|^q)^(1/q)`. -/
noncomputable def qNorm (q : ℝ) (w : List ℝ) : ℝ := ((w.map (fun x => |x| ^ q)).sum) ^ (1 / q)

/-- The margin that remains when the `i`-th feature is dropped from a separator with the weights `w`: the margin times the share
of the norm of the weights that stay. -/
noncomputable def marginWithout (q : ℝ) (w : List ℝ) (i : Nat) (margin : ℝ) : ℝ :=
  qNorm q (w.eraseIdx i) / qNorm q w * margin

/-- The node stands for dropping the `i`-th feature of the dataset on top of the features `old` dropped before. -/
def Drops {K : Type} (nd : MLTK.Aos.Node K) (sample : Tbl K) (old : List Int) (i : Nat) : Prop :=
  ∃ f, sample.fnames[i]? = some f ∧ nd.fnames.Perm (old ++ [f])

end MLTK.Spec
