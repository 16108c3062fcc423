import Mathlib.Data.Real.Basic
import Verif.Model.Basic
/-!
# Specification vocabulary for distances
-/
namespace MLTK.Spec

/-- `d` is a metric on the points of each dimension: defined, non-negative, symmetric, zero exactly on
equal points, and subject to the triangle inequality. -/
def IsMetric (d : List ℝ → List ℝ → Res ℝ) : Prop :=
  ∀ p q r : List ℝ, p.length = q.length → q.length = r.length →
    ∃ pq qr pr : ℝ, d p q = .ok pq ∧ d q r = .ok qr ∧ d p r = .ok pr ∧
      0 ≤ pq ∧ d q p = .ok pq ∧ (pq = 0 ↔ p = q) ∧ pr ≤ pq + qr

/-- `d` is a dissimilarity on the non-empty points whose components satisfy `dom`: defined,
non-negative, symmetric, and zero between a point and itself. -/
def IsDissimilarity (dom : ℝ → Prop) (d : List ℝ → List ℝ → Res ℝ) : Prop :=
  ∀ p q : List ℝ, p.length = q.length → p ≠ [] → (∀ v ∈ p, dom v) → (∀ v ∈ q, dom v) →
    ∃ v : ℝ, d p q = .ok v ∧ 0 ≤ v ∧ d q p = .ok v ∧ d p p = .ok 0

/-- `d` tells different points (with components in `dom`) apart. -/
def Separates (dom : ℝ → Prop) (d : List ℝ → List ℝ → Res ℝ) : Prop :=
  ∀ p q : List ℝ, p.length = q.length → p ≠ [] → (∀ v ∈ p, dom v) → (∀ v ∈ q, dom v) →
    d p q = .ok 0 → p = q

/-- `d` is a divergence between distributions: on points with positive components and the same total it is defined,
non-negative, and zero exactly on equal points.  Nothing is asked about exchanging the points. -/
def IsDivergence (d : List ℝ → List ℝ → Res ℝ) : Prop :=
  ∀ p q : List ℝ, p.length = q.length → p ≠ [] → (∀ v ∈ p, 0 < v) → (∀ v ∈ q, 0 < v) → p.sum = q.sum →
    ∃ v : ℝ, d p q = .ok v ∧ 0 ≤ v ∧ (v = 0 ↔ p = q)

end MLTK.Spec
