import Mathlib.Analysis.SpecialFunctions.Log.Basic
import Mathlib.Analysis.SpecialFunctions.Pow.Real
import Verif.Model.Basic
/-!
# The distances by their textbook formulas

Formulas of the survey whose families the library's functors name (Lp Minkowski, L1, inner product, squared
chord, squared L2, Shannon entropy, vicissitude, other).  Sums run over the components of two points of the same
dimension.
-/
namespace MLTK.Formula

/-- The sum over the components. -/
noncomputable def over (f : ℝ → ℝ → ℝ) (p q : List ℝ) : ℝ := (List.zipWith f p q).sum

/-- The inner product and the square of the norm. -/
noncomputable def inner (p q : List ℝ) : ℝ := over (fun a b => a * b) p q

/-- The Euclidean norm. -/
noncomputable def length2 (p : List ℝ) : ℝ := Real.sqrt (inner p p)

noncomputable def euclidean (p q : List ℝ) : ℝ := Real.sqrt (over (fun a b => (a - b) ^ 2) p q)
noncomputable def manhattan : List ℝ → List ℝ → ℝ := over (fun a b => |a - b|)

noncomputable def lorentzian : List ℝ → List ℝ → ℝ := over (fun a b => Real.log (1 + |a - b|))
noncomputable def canberra : List ℝ → List ℝ → ℝ := over (fun a b => |a - b| / (|a| + |b|))
noncomputable def sorensen (p q : List ℝ) : ℝ := over (fun a b => |a - b|) p q / over (fun a b => a + b) p q
noncomputable def meanCharacter (p q : List ℝ) : ℝ := manhattan p q / p.length
noncomputable def nonIntersection (p q : List ℝ) : ℝ := 1 / 2 * manhattan p q
noncomputable def jaccard (p q : List ℝ) : ℝ :=
  over (fun a b => (a - b) ^ 2) p q / (inner p p + inner q q - inner p q)
noncomputable def cosine (p q : List ℝ) : ℝ := 1 - inner p q / (length2 p * length2 q)
noncomputable def dice (p q : List ℝ) : ℝ := 1 - 2 * inner p q / (inner p p + inner q q)
/-- The Euclidean distance of the points scaled to norm one. -/
noncomputable def chord (p q : List ℝ) : ℝ := euclidean (p.map (· / length2 p)) (q.map (· / length2 q))
noncomputable def bhattacharyya (p q : List ℝ) : ℝ := - Real.log (over (fun a b => Real.sqrt (a * b)) p q)
noncomputable def squaredChord : List ℝ → List ℝ → ℝ := over (fun a b => (Real.sqrt a - Real.sqrt b) ^ 2)
noncomputable def matusita (p q : List ℝ) : ℝ := Real.sqrt (squaredChord p q)
noncomputable def hellinger (p q : List ℝ) : ℝ := Real.sqrt (2 * squaredChord p q)
noncomputable def squaredEuclidean : List ℝ → List ℝ → ℝ := over (fun a b => (a - b) ^ 2)
noncomputable def clark (p q : List ℝ) : ℝ := Real.sqrt (over (fun a b => ((a - b) / (|a| + |b|)) ^ 2) p q)
noncomputable def neyman : List ℝ → List ℝ → ℝ := over (fun a b => (a - b) ^ 2 / a)
noncomputable def pearson : List ℝ → List ℝ → ℝ := over (fun a b => (a - b) ^ 2 / b)
noncomputable def squaredChi : List ℝ → List ℝ → ℝ := over (fun a b => (a - b) ^ 2 / (a + b))
noncomputable def probabilisticSymmetric (p q : List ℝ) : ℝ := 2 * squaredChi p q
noncomputable def divergence (p q : List ℝ) : ℝ := 2 * over (fun a b => (a - b) ^ 2 / (a + b) ^ 2) p q
noncomputable def additiveSymmetric (p q : List ℝ) : ℝ := 2 * over (fun a b => (a - b) ^ 2 * (a + b) / (a * b)) p q
noncomputable def average (p q : List ℝ) : ℝ := Real.sqrt (1 / p.length * squaredEuclidean p q)
noncomputable def squaredChiSquared : List ℝ → List ℝ → ℝ := over (fun a b => (a - b) ^ 2 / |a + b|)
noncomputable def kullbackLeibler : List ℝ → List ℝ → ℝ := over (fun a b => a * Real.log (a / b))
noncomputable def jeffreys : List ℝ → List ℝ → ℝ := over (fun a b => (a - b) * Real.log (a / b))
noncomputable def kDivergence : List ℝ → List ℝ → ℝ := over (fun a b => a * Real.log (2 * a / (a + b)))
noncomputable def topsoe (p q : List ℝ) : ℝ := kDivergence p q + kDivergence q p
noncomputable def jensenShannon (p q : List ℝ) : ℝ := 1 / 2 * (kDivergence p q + kDivergence q p)
noncomputable def jensenDifference (p q : List ℝ) : ℝ :=
  1 / 2 * over (fun a b => (a * Real.log a + b * Real.log b) / 2 - (a + b) / 2 * Real.log ((a + b) / 2)) p q
noncomputable def maxSymmetric (p q : List ℝ) : ℝ := max (neyman p q) (pearson p q)
noncomputable def minSymmetric (p q : List ℝ) : ℝ := min (neyman p q) (pearson p q)
noncomputable def kumarJohnson : List ℝ → List ℝ → ℝ :=
  over (fun a b => (a ^ 2 + b ^ 2) ^ 2 / (2 * (a * b) ^ (3 / 2 : ℝ)))
noncomputable def taneja : List ℝ → List ℝ → ℝ :=
  over (fun a b => (a + b) / 2 * Real.log ((a + b) / (2 * Real.sqrt (a * b))))
noncomputable def hassanat : List ℝ → List ℝ → ℝ := over (fun a b =>
  if 0 ≤ min a b then 1 - (1 + min a b) / (1 + max a b)
  else 1 - (1 + min a b + |min a b|) / (1 + max a b + |min a b|))

/-- The functor `d` gives the value of the formula `f` on all non-empty points of the same dimension whose
components satisfy `dom`. -/
def Computes (dom : ℝ → Prop) (d : List ℝ → List ℝ → Res ℝ) (f : List ℝ → List ℝ → ℝ) : Prop :=
  ∀ p q : List ℝ, p.length = q.length → p ≠ [] → (∀ v ∈ p, dom v) → (∀ v ∈ q, dom v) → d p q = .ok (f p q)

end MLTK.Formula
