import Mathlib.Analysis.MeanInequalities
import Mathlib.Tactic.Positivity
import Mathlib.Tactic.Linarith
import Verif.Model.Metric
import Verif.Spec.Metric
import Verif.Lemmas.Point
namespace MLTK.Metric
open MLTK.PointM MLTK.PointM.Expr MLTK.Spec
open MLTK.Data (Res_bind_ok Res_bind_error Res_pure)

theorem list_range_sum (n : Nat) (f : Nat → ℝ) : ((List.range n).map f).sum = ∑ i ∈ Finset.range n, f i := by
  induction n with
  | zero => simp
  | succ n ih => rw [List.range_succ, Finset.sum_range_succ, List.map_append, List.sum_append, ih]; simp

theorem esum_ok (n : Nat) (e : Expr ℝ) (hd : ∀ m ∈ dims e, m = n) (hne : dims e ≠ [])
    (hs : subscriptsOK e) : esum e = .ok (∑ i ∈ Finset.range n, valueAt e i) := by
  rw [esum, construct_ok n e hd hne hs, Res_bind_ok, psum_eq, List.map_id, list_range_sum]
  rfl

/-- Component `i` of a point. -/
abbrev c (p : List ℝ) (i : Nat) : ℝ := p.getD i 0

theorem c_mem {p : List ℝ} {i : Nat} (h : i < p.length) : c p i ∈ p := by
  have : c p i = p[i] := by simp [c, List.getD_eq_getElem?_getD, List.getElem?_eq_getElem h]
  rw [this]; exact List.getElem_mem h

theorem ext_c {p q : List ℝ} (h : p.length = q.length) (hc : ∀ i < p.length, c p i = c q i) : p = q := by
  apply List.ext_getElem h
  intro i h1 h2
  have := hc i h1
  simpa [c, List.getD_eq_getElem?_getD, List.getElem?_eq_getElem h1, List.getElem?_eq_getElem h2] using this

/-- A functor that is a function `g` of a sum of terms `f` over the components. -/
def SumForm (d : List ℝ → List ℝ → Res ℝ) (g : Nat → ℝ → ℝ) (f : ℝ → ℝ → ℝ) : Prop :=
  ∀ p q : List ℝ, p.length = q.length → p ≠ [] →
    d p q = .ok (g p.length (∑ i ∈ Finset.range p.length, f (c p i) (c q i)))

theorem dissim_of {dom : ℝ → Prop} {d g f} (h : SumForm d g f)
    (hg : ∀ n s, 0 < n → 0 ≤ s → 0 ≤ g n s) (hg0 : ∀ n, 0 < n → g n 0 = 0)
    (hf : ∀ a b, dom a → dom b → 0 ≤ f a b) (hs : ∀ a b, dom a → dom b → f a b = f b a)
    (h0 : ∀ a, dom a → f a a = 0) : IsDissimilarity dom d := by
  intro p q hl hne hp hq
  have hn : 0 < p.length := List.length_pos_of_ne_nil hne
  have hneq : q ≠ [] := by intro h; subst h; simp at hl; exact hne hl
  have dp : ∀ i ∈ Finset.range p.length, dom (c p i) := fun i hi => hp _ (c_mem (by simpa using hi))
  have dq : ∀ i ∈ Finset.range p.length, dom (c q i) :=
    fun i hi => hq _ (c_mem (by rw [← hl]; simpa using hi))
  refine ⟨_, h p q hl hne, hg _ _ hn (Finset.sum_nonneg fun i hi => hf _ _ (dp i hi) (dq i hi)), ?_, ?_⟩
  · rw [h q p hl.symm hneq, ← hl]
    rw [Finset.sum_congr rfl (fun i hi => hs _ _ (dq i hi) (dp i hi))]
  · rw [h p p rfl hne, Finset.sum_eq_zero (fun i hi => h0 _ (dp i hi)), hg0 _ hn]

theorem separates_of {dom : ℝ → Prop} {d g f} (h : SumForm d g f)
    (hg : ∀ n s, 0 < n → 0 ≤ s → g n s = 0 → s = 0)
    (hf : ∀ a b, dom a → dom b → 0 ≤ f a b) (h0 : ∀ a b, dom a → dom b → f a b = 0 → a = b) :
    Separates dom d := by
  intro p q hl hne hp hq hd
  have hn : 0 < p.length := List.length_pos_of_ne_nil hne
  have dp : ∀ i ∈ Finset.range p.length, dom (c p i) := fun i hi => hp _ (c_mem (by simpa using hi))
  have dq : ∀ i ∈ Finset.range p.length, dom (c q i) :=
    fun i hi => hq _ (c_mem (by rw [← hl]; simpa using hi))
  rw [h p q hl hne] at hd
  have hnn : ∀ i ∈ Finset.range p.length, 0 ≤ f (c p i) (c q i) := fun i hi => hf _ _ (dp i hi) (dq i hi)
  have hs := hg _ _ hn (Finset.sum_nonneg hnn) (Except.ok.inj hd)
  rw [Finset.sum_eq_zero_iff_of_nonneg hnn] at hs
  exact ext_c hl fun i hi => h0 _ _ (dp i (by simpa using hi)) (dq i (by simpa using hi)) (hs i (by simpa using hi))

/-- Computes the sums of a functor's expressions. -/
macro "metric_sum " d:ident : tactic => `(tactic| (
  intro p q hl hne
  have hlq : q.length = p.length := hl.symm
  unfold $d
  first
  | rw [esum_ok p.length _ (by simp [sq, ab, lg, root, dims, hlq]) (by simp [sq, ab, lg, root, dims])
      (by simp [sq, ab, lg, root, subscriptsOK])]
  | skip
  simp [sq, ab, lg, root, valueAt, Res_bind_ok, Res_pure]))

theorem manhattan_sum : SumForm manhattan (fun _ s => s) (fun a b => |a - b|) := by metric_sum manhattan
theorem canberra_sum : SumForm canberra (fun _ s => s) (fun a b => |a - b| / (|a| + |b|)) := by
  metric_sum canberra
theorem avgManhattan_sum : SumForm avgManhattan (fun n s => s / n) (fun a b => |a - b|) := by
  metric_sum avgManhattan
theorem nonIntersection_sum : SumForm nonIntersection (fun _ s => oneHalfInt * s) (fun a b => |a - b|) := by
  metric_sum nonIntersection
theorem lorentzian_sum : SumForm lorentzian (fun _ s => s) (fun a b => Real.log (1 - |a - b|)) := by
  metric_sum lorentzian
theorem bhattacharyya_sum : SumForm bhattacharyya (fun _ s => - Real.sqrt s) (fun a b => Real.sqrt (a * b)) := by
  metric_sum bhattacharyya
theorem squaredChord_sum : SumForm squaredChord (fun _ s => s) (fun a b => (Real.sqrt a - Real.sqrt b) ^ 2) := by
  metric_sum squaredChord
theorem matusita_sum : SumForm matusita (fun _ s => Real.sqrt s) (fun a b => (Real.sqrt a - Real.sqrt b) ^ 2) := by
  metric_sum matusita
theorem hellinger_sum : SumForm hellinger (fun _ s => Real.sqrt (2 * s))
    (fun a b => (Real.sqrt a - Real.sqrt b) ^ 2) := by metric_sum hellinger
theorem squaredEuclidean_sum : SumForm squaredEuclidean (fun _ s => s) (fun a b => (a - b) ^ 2) := by
  metric_sum squaredEuclidean
theorem clark_sum : SumForm clark (fun _ s => s) (fun a b => ((a - b) / (|a| + |b|)) ^ 2) := by
  metric_sum clark
theorem neyman_sum : SumForm neyman (fun _ s => s) (fun a b => (a - b) ^ 2 / a) := by metric_sum neyman
theorem pearson_sum : SumForm pearson (fun _ s => s) (fun a b => (a - b) ^ 2 / b) := by metric_sum pearson
theorem squared_sum : SumForm squared (fun _ s => s) (fun a b => (a - b) ^ 2 / (a + b)) := by
  metric_sum squared
theorem probabilisticSymmetric_sum : SumForm probabilisticSymmetric (fun _ s => 2 * s)
    (fun a b => (a - b) ^ 2 / (a + b)) := by metric_sum probabilisticSymmetric
theorem divergence_sum : SumForm divergence (fun _ s => 2 * s)
    (fun a b => (a - b) ^ 2 / (a + b) ^ 2) := by metric_sum divergence
theorem additiveSymmetric_sum : SumForm additiveSymmetric (fun _ s => 2 * s)
    (fun a b => (a - b) ^ 2 * (a + b) / (a * b)) := by metric_sum additiveSymmetric
theorem squaredChiSquared_sum : SumForm squaredChiSquared (fun _ s => s)
    (fun a b => (a - b) ^ 2 / |a + b|) := by metric_sum squaredChiSquared
theorem kullbackLeibler_sum : SumForm kullbackLeibler (fun _ s => s) (fun a b => a * Real.log (a / b)) := by
  metric_sum kullbackLeibler
theorem jeffreys_sum : SumForm jeffreys (fun _ s => s) (fun a b => (a - b) * Real.log (a / b)) := by
  metric_sum jeffreys
theorem kDivergence_sum : SumForm kDivergence (fun _ s => s) (fun a b => a * Real.log (2 * a / (a + b))) := by
  metric_sum kDivergence
theorem kDivergence'_sum : SumForm kDivergence' (fun _ s => s) (fun a b => b * Real.log (2 * b / (a + b))) := by
  metric_sum kDivergence'
theorem kumarJohnson_sum : SumForm kumarJohnson (fun _ s => s)
    (fun a b => (a ^ 2 + b ^ 2) ^ 2 / (2 * (a * b) ^ (3 / 2 : Nat))) := by metric_sum kumarJohnson
theorem taneja_sum : SumForm taneja (fun _ s => s)
    (fun a b => (a + b) / 2 * Real.log ((a + b) / (2 * Real.sqrt (a * b)))) := by metric_sum taneja
theorem jensenDifference_sum : SumForm jensenDifference (fun _ s => oneHalfInt * s)
    (fun a b => (a * Real.log a + b * Real.log b) / 2 - (a + b) / 2 * Real.log ((a + b) / 2)) := by
  intro p q hl hne
  simp only [jensenDifference]
  rw [esum_ok p.length _ (by simp [lg, dims, hl.symm]) (by simp [dims]) (by simp [lg, subscriptsOK])]
  rfl

theorem euclidean_sum : SumForm euclidean (fun _ s => Real.sqrt s) (fun a b => (a - b) ^ 2) := by
  intro p q hl hne
  rw [euclidean, construct_ok p.length _ (by simp [sq, dims, hl]) (by simp [sq, dims]) (by simp [sq, subscriptsOK]),
    Res_bind_ok, psum_eq, List.map_id, list_range_sum]
  rfl


theorem esum2 (p q : List ℝ) (hl : p.length = q.length) (e : Expr ℝ) (hd : ∀ m ∈ dims e, m = p.length ∨ m = q.length)
    (hne : dims e ≠ []) (hs : subscriptsOK e) :
    esum e = .ok (∑ i ∈ Finset.range p.length, valueAt e i) :=
  esum_ok p.length e (fun m hm => (hd m hm).elim id (fun h => h.trans hl.symm)) hne hs

theorem dot_ok (p q : List ℝ) (hl : p.length = q.length) :
    esum (.mul (.pt p) (.pt q)) = .ok (∑ i ∈ Finset.range p.length, c p i * c q i) :=
  esum2 p q hl _ (by simp [dims]) (by simp [dims]) (by simp [subscriptsOK])

theorem sq_ok (p : List ℝ) : esum (sq (.pt p)) = .ok (∑ i ∈ Finset.range p.length, c p i ^ 2) :=
  esum2 p p rfl _ (by simp [sq, dims]) (by simp [sq, dims]) (by simp [sq, subscriptsOK])

theorem diff_ok (p q : List ℝ) (hl : p.length = q.length) :
    (ab (.sub (.pt p) (.pt q))).construct = .ok ((List.range p.length).map fun i => |c p i - c q i|) :=
  construct_ok p.length _ (by simp [ab, dims, hl]) (by simp [ab, dims]) (by simp [ab, subscriptsOK])

theorem absdiff_ok (p q : List ℝ) (hl : p.length = q.length) :
    esum (ab (.sub (.pt p) (.pt q))) = .ok (∑ i ∈ Finset.range p.length, |c p i - c q i|) :=
  esum2 p q hl _ (by simp [ab, dims]) (by simp [ab, dims]) (by simp [ab, subscriptsOK])

theorem sqdiff_ok (p q : List ℝ) (hl : p.length = q.length) :
    esum (sq (.sub (.pt p) (.pt q))) = .ok (∑ i ∈ Finset.range p.length, (c p i - c q i) ^ 2) :=
  esum2 p q hl _ (by simp [sq, dims]) (by simp [sq, dims]) (by simp [sq, subscriptsOK])

theorem add_ok (p q : List ℝ) (hl : p.length = q.length) :
    esum (.add (.pt p) (.pt q)) = .ok (∑ i ∈ Finset.range p.length, (c p i + c q i)) :=
  esum2 p q hl _ (by simp [dims]) (by simp [dims]) (by simp [subscriptsOK])

end MLTK.Metric
