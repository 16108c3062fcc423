import Mathlib.Tactic.FieldSimp
import Mathlib.Analysis.SpecialFunctions.Log.Basic
import Verif.Lemmas.Metric
/-!
# C29, C71: distances
-/
namespace MLTK.Props
open MLTK MLTK.Metric MLTK.PointM MLTK.Spec
open MLTK.Data (Res_bind_ok Res_bind_error Res_pure)

/-- All real components. -/
abbrev anyReal : ℝ → Prop := fun _ => True
/-- Positive components. -/
abbrev positive : ℝ → Prop := fun v => 0 < v

theorem euclid_eq (p q : List ℝ) (h : p.length = q.length) :
    euclidean p q = .ok (Real.sqrt (∑ i ∈ Finset.range p.length, (c p i - c q i) ^ 2)) := by
  by_cases hp : p = []
  · subst hp
    have : q = [] := List.length_eq_zero_iff.1 h.symm
    subst this
    simp [euclidean, Expr.construct, Metric.sq, Expr.size, Expr.combineSize, Expr.copyLoop, psum]
  · exact euclidean_sum p q h hp

theorem manh_eq (p q : List ℝ) (h : p.length = q.length) :
    manhattan p q = .ok (∑ i ∈ Finset.range p.length, |c p i - c q i|) := absdiff_ok p q h

/-- **C29 (Euclidean)** The Euclidean distance is a metric on the points of each dimension. -/
theorem C29_euclidean : IsMetric euclidean := by
  intro p q r hpq hqr
  refine ⟨_, _, _, euclid_eq p q hpq, euclid_eq q r hqr, euclid_eq p r (hpq.trans hqr), Real.sqrt_nonneg _, ?_, ?_, ?_⟩
  · rw [euclid_eq q p hpq.symm, ← hpq]
    congr 2
    exact Finset.sum_congr rfl fun i _ => by ring
  · rw [Real.sqrt_eq_zero (Finset.sum_nonneg fun i _ => sq_nonneg _),
      Finset.sum_eq_zero_iff_of_nonneg (fun i _ => sq_nonneg _)]
    constructor
    · intro h
      refine ext_c hpq fun i hi => ?_
      have := h i (by simpa using hi)
      have := pow_eq_zero_iff (two_ne_zero) |>.1 this
      linarith
    · rintro rfl i _; simp
  · rw [← hpq]
    set u : ℕ → ℝ := fun i => c p i - c q i
    set v : ℕ → ℝ := fun i => c q i - c r i
    have huv : ∀ i, c p i - c r i = u i + v i := fun i => by simp [u, v]
    simp only [huv]
    set U := ∑ i ∈ Finset.range p.length, u i ^ 2
    set V := ∑ i ∈ Finset.range p.length, v i ^ 2
    have hU : 0 ≤ U := Finset.sum_nonneg fun i _ => sq_nonneg _
    have hV : 0 ≤ V := Finset.sum_nonneg fun i _ => sq_nonneg _
    have hcs := Real.sum_mul_le_sqrt_mul_sqrt (Finset.range p.length) u v
    rw [Real.sqrt_le_left (by positivity), add_sq, Real.sq_sqrt hU, Real.sq_sqrt hV]
    have : ∑ i ∈ Finset.range p.length, (u i + v i) ^ 2 =
        U + 2 * ∑ i ∈ Finset.range p.length, u i * v i + V := by
      simp only [U, V, Finset.mul_sum, ← Finset.sum_add_distrib]
      exact Finset.sum_congr rfl fun i _ => by ring
    rw [this]
    nlinarith

/-- **C29 (Manhattan)** The Manhattan distance is a metric on the points of each dimension. -/
theorem C29_manhattan : IsMetric manhattan := by
  intro p q r hpq hqr
  refine ⟨_, _, _, manh_eq p q hpq, manh_eq q r hqr, manh_eq p r (hpq.trans hqr),
    Finset.sum_nonneg fun i _ => abs_nonneg _, ?_, ?_, ?_⟩
  · rw [manh_eq q p hpq.symm, ← hpq]
    congr 1
    exact Finset.sum_congr rfl fun i _ => abs_sub_comm _ _
  · rw [Finset.sum_eq_zero_iff_of_nonneg (fun i _ => abs_nonneg _)]
    constructor
    · intro h
      refine ext_c hpq fun i hi => ?_
      have := abs_eq_zero.1 (h i (by simpa using hi))
      linarith
    · rintro rfl i _; simp
  · rw [← hpq, ← Finset.sum_add_distrib]
    exact Finset.sum_le_sum fun i _ => abs_sub_le _ _ _

/-- Concrete points of dimension two, at distance five. -/
example : euclidean [0, 0] [3, 4] = .ok 5 := by
  rw [euclid_eq [0, 0] [3, 4] rfl]
  have : (3 ^ 2 + 4 ^ 2 : ℝ) = 5 ^ 2 := by norm_num
  simp [Finset.sum_range_succ, c, this]

/-- The largest absolute component difference, as the code computes it from the starting value `lo`. -/
theorem cheb_eq (lo : ℝ) (p q : List ℝ) (h : p.length = q.length) :
    chebyshev lo p q = .ok (pmax lo ((List.range p.length).map fun i => |c p i - c q i|)) := by
  simp [chebyshev, diff_ok p q h]

/-- **C29 (Chebyshev, partial)** For the starting value `lo = numeric_limits::min() > 0` of the maximum
the Chebyshev functor is defined, at least `lo`, symmetric and subject to the triangle inequality, it
bounds every component difference and it is attained by one if it is not `lo`.
Missing: it is never zero, see `C29_chebyshev_refuted`. -/
theorem C29_chebyshev_partial (lo : ℝ) (hlo : 0 < lo) (p q r : List ℝ) (hpq : p.length = q.length)
    (hqr : q.length = r.length) :
    ∃ a b d : ℝ, chebyshev lo p q = .ok a ∧ chebyshev lo q r = .ok b ∧ chebyshev lo p r = .ok d ∧
      lo ≤ a ∧ chebyshev lo q p = .ok a ∧ d ≤ a + b ∧
      (∀ i, i < p.length → |p.getD i 0 - q.getD i 0| ≤ a) ∧
      (a ≠ lo → ∃ i, i < p.length ∧ a = |p.getD i 0 - q.getD i 0|) := by
  have ub : ∀ x y : List ℝ, ∀ i, i < x.length →
      |c x i - c y i| ≤ pmax lo ((List.range x.length).map fun i => |c x i - c y i|) := by
    intro x y i hi
    exact pmax_ub lo _ _ (List.mem_map.2 ⟨i, by simpa using hi, rfl⟩)
  refine ⟨_, _, _, cheb_eq lo p q hpq, cheb_eq lo q r hqr, cheb_eq lo p r (hpq.trans hqr), pmax_ge _ _, ?_, ?_, ub p q, ?_⟩
  · rw [cheb_eq lo q p hpq.symm, ← hpq]
    simp only [abs_sub_comm]
  · rcases pmax_mem lo ((List.range p.length).map fun i => |c p i - c r i|) with h | h
    · rw [h]
      have h1 := pmax_ge lo ((List.range p.length).map fun i => |c p i - c q i|)
      have h2 := pmax_ge lo ((List.range q.length).map fun i => |c q i - c r i|)
      linarith
    · obtain ⟨i, hi, h⟩ := List.mem_map.1 h
      rw [← h]
      have hi' : i < p.length := by simpa using hi
      exact (abs_sub_le _ _ _).trans (add_le_add (ub p q i hi') (ub q r i (hpq ▸ hi')))
  · intro h
    obtain ⟨i, hi, h⟩ := List.mem_map.1 ((pmax_mem lo _).resolve_left h)
    exact ⟨i, by simpa using hi, h.symm⟩

/-- The hypothesis holds for `lo = numeric_limits<double>::min()`. -/
example : (0 : ℝ) < 2 ^ (-1022 : ℤ) := by positivity

/-- **C29 (Chebyshev, refuted)** `Chebyshev(p, p)` is `numeric_limits::min()`, not zero, for every
point, so the functor is not a metric. -/
theorem C29_chebyshev_refuted (lo : ℝ) (hlo : 0 < lo) :
    (∀ p : List ℝ, chebyshev lo p p = .ok lo) ∧ ¬ IsMetric (chebyshev lo) := by
  have h1 : ∀ p : List ℝ, chebyshev lo p p = .ok lo := by
    intro p
    rw [cheb_eq lo p p rfl]
    congr 1
    rcases pmax_mem lo ((List.range p.length).map fun i => |c p i - c p i|) with h | h
    · exact h
    · obtain ⟨i, _, h⟩ := List.mem_map.1 h
      have := pmax_ge lo ((List.range p.length).map fun i => |c p i - c p i|)
      rw [← h] at this
      simp at this; linarith
  refine ⟨h1, fun h => ?_⟩
  obtain ⟨a, _, _, ha, _, _, _, _, h0, _⟩ := h [0] [0] [0] rfl rfl
  rw [h1] at ha
  have := h0.2 rfl
  rw [← Except.ok.inj ha] at this
  linarith

/-! ## C71 -/

/-- **C71 (L1 family)** Canberra and average Manhattan are dissimilarities on all points and tell
different points apart; Sorensen is a dissimilarity on points with positive components. -/
theorem C71_l1 :
    IsDissimilarity anyReal canberra ∧ Separates anyReal canberra ∧
    IsDissimilarity anyReal avgManhattan ∧ Separates anyReal avgManhattan ∧
    IsDissimilarity positive sorensen := by
  refine ⟨?_, ?_, ?_, ?_, ?_⟩
  · refine dissim_of canberra_sum (fun _ _ _ h => h) (fun _ _ => rfl) (fun a b _ _ => by positivity) ?_ ?_
    · intro a b _ _; rw [abs_sub_comm, add_comm]
    · intro a _; simp
  · refine separates_of canberra_sum (fun _ _ _ _ h => h) (fun a b _ _ => by positivity) ?_
    intro a b _ _ h
    rcases div_eq_zero_iff.1 h with h | h
    · have := abs_eq_zero.1 h; linarith
    · have h1 : |a| = 0 := by linarith [abs_nonneg a, abs_nonneg b]
      have h2 : |b| = 0 := by linarith [abs_nonneg a, abs_nonneg b]
      rw [abs_eq_zero.1 h1, abs_eq_zero.1 h2]
  · refine dissim_of avgManhattan_sum (fun _ _ _ h => by positivity) (fun _ _ => by simp)
      (fun a b _ _ => by positivity) (fun a b _ _ => abs_sub_comm _ _) (fun a _ => by simp)
  · refine separates_of avgManhattan_sum (fun n s hn _ h => ?_) (fun a b _ _ => by positivity) ?_
    · have : (n : ℝ) ≠ 0 := by positivity
      exact (div_eq_zero_iff.1 h).resolve_right this
    · intro a b _ _ h; have := abs_eq_zero.1 h; linarith
  · intro p q hl hne hp hq
    have key : ∀ x y : List ℝ, x.length = y.length → sorensen x y =
        .ok ((∑ i ∈ Finset.range x.length, |c x i - c y i|) / (∑ i ∈ Finset.range x.length, (c x i + c y i))) := by
      intro x y h; simp [sorensen, absdiff_ok x y h, add_ok x y h]
    refine ⟨_, key p q hl, div_nonneg (Finset.sum_nonneg fun _ _ => abs_nonneg _) (Finset.sum_nonneg ?_), ?_, ?_⟩
    · intro i hi
      have h1 := hp _ (c_mem (by simpa using hi : i < p.length))
      have h2 := hq _ (c_mem (by rw [← hl]; simpa using hi : i < q.length))
      positivity
    · rw [key q p hl.symm, ← hl]
      simp only [abs_sub_comm, add_comm]
    · rw [key p p rfl]; simp

/-- **C71 (squared chord family)** Squared chord, Matusita and Hellinger are dissimilarities that tell
different points with positive components apart. -/
theorem C71_squared_chord :
    (IsDissimilarity positive squaredChord ∧ Separates positive squaredChord) ∧
    (IsDissimilarity positive matusita ∧ Separates positive matusita) ∧
    (IsDissimilarity positive hellinger ∧ Separates positive hellinger) := by
  have hz : ∀ a b : ℝ, positive a → positive b → (Real.sqrt a - Real.sqrt b) ^ 2 = 0 → a = b := by
    intro a b ha hb h
    have : Real.sqrt a = Real.sqrt b := by
      have := pow_eq_zero_iff (two_ne_zero) |>.1 h; linarith
    exact (Real.sqrt_inj ha.le hb.le).1 this
  refine ⟨⟨?_, ?_⟩, ⟨?_, ?_⟩, ⟨?_, ?_⟩⟩
  · exact dissim_of squaredChord_sum (fun _ _ _ h => h) (fun _ _ => rfl) (fun a b _ _ => sq_nonneg _)
      (fun a b _ _ => by ring) (fun a _ => by simp)
  · exact separates_of squaredChord_sum (fun _ _ _ _ h => h) (fun a b _ _ => sq_nonneg _) hz
  · exact dissim_of matusita_sum (fun _ _ _ _ => Real.sqrt_nonneg _) (fun _ _ => by simp) (fun a b _ _ => sq_nonneg _)
      (fun a b _ _ => by ring) (fun a _ => by simp)
  · exact separates_of matusita_sum (fun _ _ _ hs h => (Real.sqrt_eq_zero hs).1 h) (fun a b _ _ => sq_nonneg _) hz
  · exact dissim_of hellinger_sum (fun _ _ _ _ => Real.sqrt_nonneg _) (fun _ _ => by simp) (fun a b _ _ => sq_nonneg _)
      (fun a b _ _ => by ring) (fun a _ => by simp)
  · refine separates_of hellinger_sum (fun _ s _ hs h => ?_) (fun a b _ _ => sq_nonneg _) hz
    have := (Real.sqrt_eq_zero (by linarith)).1 h
    linarith

/-- **C71 (squared L2 family)** On points with positive components, squared Euclidean, Clark, squared
chi, probabilistic symmetric, divergence, additive symmetric, squared chi-squared and max-symmetric are
dissimilarities. -/
theorem C71_squared_l2 :
    IsDissimilarity anyReal squaredEuclidean ∧ Separates anyReal squaredEuclidean ∧
    IsDissimilarity anyReal clark ∧ IsDissimilarity positive squared ∧
    IsDissimilarity positive probabilisticSymmetric ∧ IsDissimilarity anyReal divergence ∧
    IsDissimilarity positive additiveSymmetric ∧ IsDissimilarity anyReal squaredChiSquared ∧
    IsDissimilarity positive maxSymmetric := by
  have hpos : ∀ a b : ℝ, positive a → positive b → 0 ≤ (a - b) ^ 2 / (a + b) :=
    fun a b ha hb => div_nonneg (sq_nonneg _) (add_pos ha hb).le
  have hsym : ∀ a b : ℝ, (a - b) ^ 2 = (b - a) ^ 2 := fun a b => by ring
  refine ⟨?_, ?_, ?_, ?_, ?_, ?_, ?_, ?_, ?_⟩
  · exact dissim_of squaredEuclidean_sum (fun _ _ _ h => h) (fun _ _ => rfl) (fun a b _ _ => sq_nonneg _)
      (fun a b _ _ => by ring) (fun a _ => by simp)
  · refine separates_of squaredEuclidean_sum (fun _ _ _ _ h => h) (fun a b _ _ => sq_nonneg _) ?_
    intro a b _ _ h
    have := pow_eq_zero_iff (two_ne_zero) |>.1 h; linarith
  · exact dissim_of clark_sum (fun _ _ _ h => h) (fun _ _ => rfl) (fun a b _ _ => sq_nonneg _)
      (fun a b _ _ => by rw [div_pow, div_pow, hsym, add_comm]) (fun a _ => by simp)
  · exact dissim_of squared_sum (fun _ _ _ h => h) (fun _ _ => rfl) hpos
      (fun a b _ _ => by rw [hsym, add_comm]) (fun a _ => by simp)
  · exact dissim_of probabilisticSymmetric_sum (fun _ _ _ h => by linarith) (fun _ _ => by simp) hpos
      (fun a b _ _ => by rw [hsym, add_comm]) (fun a _ => by simp)
  · exact dissim_of divergence_sum (fun _ _ _ h => by linarith) (fun _ _ => by simp)
      (fun a b _ _ => by positivity) (fun a b _ _ => by rw [hsym, add_comm]) (fun a _ => by simp)
  · exact dissim_of additiveSymmetric_sum (fun _ _ _ h => by linarith) (fun _ _ => by simp)
      (fun a b ha hb => div_nonneg (mul_nonneg (sq_nonneg _) (add_pos ha hb).le) (mul_pos ha hb).le)
      (fun a b _ _ => by rw [hsym, add_comm, mul_comm a b]) (fun a _ => by simp)
  · exact dissim_of squaredChiSquared_sum (fun _ _ _ h => h) (fun _ _ => rfl)
      (fun a b _ _ => by positivity) (fun a b _ _ => by rw [hsym, add_comm]) (fun a _ => by simp)
  · intro p q hl hne hp hq
    have key : ∀ x y : List ℝ, x.length = y.length → x ≠ [] → maxSymmetric x y =
        .ok (max (∑ i ∈ Finset.range x.length, (c x i - c y i) ^ 2 / c x i)
          (∑ i ∈ Finset.range x.length, (c x i - c y i) ^ 2 / c y i)) := by
      intro x y h hx
      have h1 := neyman_sum x y h hx
      have h2 := pearson_sum x y h hx
      unfold neyman at h1; unfold pearson at h2
      rw [maxSymmetric, h1, h2]; rfl
    have hq' : q ≠ [] := by intro h; subst h; simp at hl; exact hne hl
    refine ⟨_, key p q hl hne, ?_, ?_, ?_⟩
    · refine le_max_of_le_left (Finset.sum_nonneg fun i hi => div_nonneg (sq_nonneg _) ?_)
      exact (hp _ (c_mem (by simpa using hi))).le
    · rw [key q p hl.symm hq', ← hl, max_comm]
      simp only [fun i => hsym (c q i) (c p i)]
    · rw [key p p rfl hne]; simp

/-- **C71 (Neyman, Pearson)** are the mirror images of each other, non-negative and zero on identical
points, for positive components (they are asymmetric by definition). -/
theorem C71_chi (p q : List ℝ) (hl : p.length = q.length) (hne : p ≠ []) (hp : ∀ v ∈ p, 0 < v)
    (hq : ∀ v ∈ q, 0 < v) :
    ∃ v : ℝ, neyman p q = .ok v ∧ 0 ≤ v ∧ pearson q p = .ok v ∧ neyman p p = .ok 0 ∧ (v = 0 → p = q) := by
  have hq' : q ≠ [] := by intro h; subst h; simp at hl; exact hne hl
  have hpos : ∀ i ∈ Finset.range p.length, 0 < c p i := fun i hi => hp _ (c_mem (by simpa using hi))
  have hnn : ∀ i ∈ Finset.range p.length, 0 ≤ (c p i - c q i) ^ 2 / c p i :=
    fun i hi => div_nonneg (sq_nonneg _) (hpos i hi).le
  refine ⟨_, neyman_sum p q hl hne, Finset.sum_nonneg hnn, ?_, ?_, ?_⟩
  · rw [pearson_sum q p hl.symm hq', ← hl]
    congr 1
    exact Finset.sum_congr rfl fun i _ => by ring
  · rw [neyman_sum p p rfl hne]; simp
  · intro h
    rw [Finset.sum_eq_zero_iff_of_nonneg hnn] at h
    refine ext_c hl fun i hi => ?_
    have h1 := h i (by simpa using hi)
    have h2 := hpos i (by simpa using hi)
    have h3 := (div_eq_zero_iff.1 h1).resolve_right h2.ne'
    have := pow_eq_zero_iff (two_ne_zero) |>.1 h3
    linarith

example : ([1, 2] : List ℝ).length = [2, 1].length ∧ (∀ v ∈ ([1, 2] : List ℝ), 0 < v) := by simp

/-- **C71 (entropy family)** Jeffreys, Topsoe and Taneja are dissimilarities on points with positive
components. -/
theorem C71_entropy :
    IsDissimilarity positive jeffreys ∧ IsDissimilarity positive topsoe ∧
    IsDissimilarity positive taneja := by
  refine ⟨?_, ?_, ?_⟩
  · refine dissim_of jeffreys_sum (fun _ _ _ h => h) (fun _ _ => rfl) ?_ ?_ (fun a _ => by simp)
    · intro a b ha hb
      rw [Real.log_div ha.ne' hb.ne']
      rcases le_total a b with h | h
      · have := Real.log_le_log ha h
        exact mul_nonneg_of_nonpos_of_nonpos (by linarith) (by linarith)
      · have := Real.log_le_log hb h
        exact mul_nonneg (by linarith) (by linarith)
    · intro a b ha hb
      rw [Real.log_div ha.ne' hb.ne', Real.log_div hb.ne' ha.ne']; ring
  · have hsum : SumForm topsoe (fun _ s => s)
        (fun a b => a * Real.log (2 * a / (a + b)) + b * Real.log (2 * b / (a + b))) := by
      intro p q hl hne
      rw [topsoe, kDivergence_sum p q hl hne, kDivergence'_sum p q hl hne]
      simp only [Res_bind_ok, Res_pure, Finset.sum_add_distrib]
    refine dissim_of hsum (fun _ _ _ h => h) (fun _ _ => rfl) ?_ ?_ ?_
    · intro a b ha hb
      have hab : 0 < a + b := add_pos ha hb
      have h1 := Real.one_sub_inv_le_log_of_pos (show 0 < 2 * a / (a + b) by positivity)
      have h2 := Real.one_sub_inv_le_log_of_pos (show 0 < 2 * b / (a + b) by positivity)
      have h1' := mul_le_mul_of_nonneg_left h1 (le_of_lt ha)
      have h2' := mul_le_mul_of_nonneg_left h2 (le_of_lt hb)
      have e1 : a * (1 - (2 * a / (a + b))⁻¹) = a - (a + b) / 2 := by
        have : a ≠ 0 := ne_of_gt ha
        field_simp
      have e2 : b * (1 - (2 * b / (a + b))⁻¹) = b - (a + b) / 2 := by
        have : b ≠ 0 := ne_of_gt hb
        field_simp
      linarith
    · intro a b _ _; rw [add_comm a b, add_comm]
    · intro a ha
      have : 2 * a / (a + a) = 1 := by
        rw [two_mul]; exact div_self (by have : 0 < a := ha; linarith)
      simp [this]
  · refine dissim_of taneja_sum (fun _ _ _ h => h) (fun _ _ => rfl) ?_ ?_ ?_
    · intro a b ha hb
      have ha' : 0 < a := ha
      have hb' : 0 < b := hb
      refine mul_nonneg (by linarith) (Real.log_nonneg ?_)
      have hs : 0 < Real.sqrt (a * b) := Real.sqrt_pos.2 (mul_pos ha' hb')
      rw [le_div_iff₀ (by linarith), one_mul]
      have h2 : (2 * Real.sqrt (a * b)) ^ 2 ≤ (a + b) ^ 2 := by
        rw [mul_pow, Real.sq_sqrt (mul_pos ha' hb').le]; nlinarith [sq_nonneg (a - b)]
      exact le_of_sq_le_sq h2 (by linarith)
    · intro a b _ _; rw [add_comm a b, mul_comm a b]
    · intro a ha
      have ha' : 0 < a := ha
      rw [Real.sqrt_mul_self ha'.le]
      have : (a + a) / (2 * a) = 1 := by
        rw [two_mul]; exact div_self (by linarith)
      simp [this]

/-- **C71 (inner product family)** Jaccard is a dissimilarity on all points; cosine and Dice are on
points with positive components. -/
theorem C71_inner_product :
    IsDissimilarity anyReal jaccard ∧ IsDissimilarity positive cosine ∧ IsDissimilarity positive dice := by
  have dotsymm : ∀ x y : List ℝ, x.length = y.length →
      ∑ i ∈ Finset.range y.length, c y i * c x i = ∑ i ∈ Finset.range x.length, c x i * c y i := by
    intro x y h; rw [h]; exact Finset.sum_congr rfl fun i _ => mul_comm _ _
  have amgm : ∀ (n : Nat) (x y : List ℝ), 2 * ∑ i ∈ Finset.range n, c x i * c y i ≤
      ∑ i ∈ Finset.range n, c x i ^ 2 + ∑ i ∈ Finset.range n, c y i ^ 2 := by
    intro n x y
    rw [Finset.mul_sum, ← Finset.sum_add_distrib]
    exact Finset.sum_le_sum fun i _ => by nlinarith [sq_nonneg (c x i - c y i)]
  have normpos : ∀ x : List ℝ, x ≠ [] → (∀ v ∈ x, positive v) → 0 < ∑ i ∈ Finset.range x.length, c x i ^ 2 := by
    intro x hx h
    have hn : 0 < x.length := List.length_pos_of_ne_nil hx
    refine Finset.sum_pos (fun i hi => ?_) ⟨0, by simpa using hn⟩
    have := h _ (c_mem (by simpa using hi : i < x.length))
    positivity
  have selfdot : ∀ x : List ℝ, ∑ i ∈ Finset.range x.length, c x i * c x i = ∑ i ∈ Finset.range x.length, c x i ^ 2 :=
    fun x => Finset.sum_congr rfl fun i _ => by ring
  refine ⟨?_, ?_, ?_⟩
  · intro p q hl hne hp hq
    have key : ∀ x y : List ℝ, x.length = y.length → jaccard x y =
        .ok ((∑ i ∈ Finset.range x.length, (c x i - c y i) ^ 2) /
          ((∑ i ∈ Finset.range x.length, c x i ^ 2) + (∑ i ∈ Finset.range x.length, c y i ^ 2) -
            ∑ i ∈ Finset.range x.length, c x i * c y i)) := by
      intro x y h
      have := sq_ok y
      rw [← h] at this
      simp [jaccard, sqdiff_ok x y h, sq_ok, this, dot_ok x y h]
    refine ⟨_, key p q hl, div_nonneg (Finset.sum_nonneg fun _ _ => sq_nonneg _) ?_, ?_, ?_⟩
    · have h1 := amgm p.length p q
      have h2 : 0 ≤ ∑ i ∈ Finset.range p.length, c p i ^ 2 := Finset.sum_nonneg fun _ _ => sq_nonneg _
      have h3 : 0 ≤ ∑ i ∈ Finset.range p.length, c q i ^ 2 := Finset.sum_nonneg fun _ _ => sq_nonneg _
      linarith
    · rw [key q p hl.symm, dotsymm p q hl, ← hl, add_comm]
      congr 2
      exact Finset.sum_congr rfl fun i _ => by ring
    · rw [key p p rfl]; simp
  · intro p q hl hne hp hq
    have key : ∀ x y : List ℝ, x.length = y.length → cosine x y =
        .ok (1 - (∑ i ∈ Finset.range x.length, c x i * c y i) /
          (Real.sqrt (∑ i ∈ Finset.range x.length, c x i ^ 2) * Real.sqrt (∑ i ∈ Finset.range x.length, c y i ^ 2))) := by
      intro x y h
      have := sq_ok y
      rw [← h] at this
      simp [cosine, sq_ok, this, dot_ok x y h]
    refine ⟨_, key p q hl, ?_, ?_, ?_⟩
    · have hcs := Real.sum_mul_le_sqrt_mul_sqrt (Finset.range p.length) (c p) (c q)
      have := div_le_one_of_le₀ hcs (by positivity)
      linarith
    · rw [key q p hl.symm, dotsymm p q hl, ← hl]
      rw [mul_comm (Real.sqrt _) (Real.sqrt _)]
    · rw [key p p rfl, selfdot]
      have h := normpos p hne hp
      rw [Real.mul_self_sqrt h.le, div_self h.ne', sub_self]
  · intro p q hl hne hp hq
    have key : ∀ x y : List ℝ, x.length = y.length → dice x y =
        .ok (1 - 2 * (∑ i ∈ Finset.range x.length, c x i * c y i) /
          ((∑ i ∈ Finset.range x.length, c x i ^ 2) + (∑ i ∈ Finset.range x.length, c y i ^ 2))) := by
      intro x y h
      have := sq_ok y
      rw [← h] at this
      simp [dice, sq_ok, this, dot_ok x y h]
    refine ⟨_, key p q hl, ?_, ?_, ?_⟩
    · have := div_le_one_of_le₀ (amgm p.length p q) (by positivity)
      linarith
    · rw [key q p hl.symm, dotsymm p q hl, ← hl, add_comm]
    · rw [key p p rfl, selfdot]
      have h := normpos p hne hp
      rw [← two_mul, div_self (by linarith), sub_self]

/-- **C71 (refuted: constant functors)** `NonIntersection` and `JensenDifference` multiply by the
integer `1/2 = 0`, `Average` by the integer `1/dim`: they are zero between all points (of dimension at
least two for `Average`), so they do not tell points apart. -/
theorem C71_constant_refuted (p q : List ℝ) (hl : p.length = q.length) (hne : p ≠ []) :
    nonIntersection p q = .ok 0 ∧ jensenDifference p q = .ok 0 ∧ (2 ≤ p.length → average p q = .ok 0) := by
  refine ⟨?_, ?_, fun h2 => ?_⟩
  · rw [nonIntersection_sum p q hl hne]; simp [oneHalfInt]
  · rw [jensenDifference_sum p q hl hne]; simp [oneHalfInt]
  · have h1 : 1 / p.length = 0 := Nat.div_eq_of_lt (by omega)
    have h0 : ¬ p.length = 0 := by omega
    rw [average, if_neg h0, sqdiff_ok p q hl, h1]
    simp

/-- **C71 (refuted: self distance)** `Chord`, `KumarJohnson`, `AverageL1Linf` and `Bhattacharyya` do not
give zero between a point and itself. -/
theorem C71_self_refuted (lo : ℝ) (hlo : 0 < lo) :
    ¬ IsDissimilarity positive chord ∧ ¬ IsDissimilarity positive kumarJohnson ∧
    ¬ IsDissimilarity positive (averageL1Linf lo) ∧ ¬ IsDissimilarity positive bhattacharyya := by
  refine ⟨fun h => ?_, fun h => ?_, fun h => ?_, fun h => ?_⟩
  · obtain ⟨_, _, _, _, h0⟩ := h [2] [2] rfl (by simp) (by simp) (by simp)
    rw [chord, dot_ok _ _ rfl, sq_ok] at h0
    have h0 := Except.ok.inj h0
    simp [c] at h0
    rw [Real.sqrt_eq_zero'] at h0
    norm_num at h0
  · obtain ⟨_, _, _, _, h0⟩ := h [2] [2] rfl (by simp) (by simp) (by simp)
    rw [kumarJohnson_sum _ _ rfl (by simp)] at h0
    have h0 := Except.ok.inj h0
    simp [c] at h0
  · obtain ⟨_, _, _, _, h0⟩ := h [2] [2] rfl (by simp) (by simp) (by simp)
    rw [averageL1Linf, absdiff_ok _ _ rfl, diff_ok _ _ rfl] at h0
    have h0 := Except.ok.inj h0
    simp [c, pmax, not_lt.2 hlo.le, hlo.ne'] at h0
  · obtain ⟨_, _, _, _, h0⟩ := h [2] [2] rfl (by simp) (by simp) (by simp)
    rw [bhattacharyya_sum _ _ rfl (by simp)] at h0
    have h0 := Except.ok.inj h0
    simp [c] at h0

/-- **C71 (refuted: sign)** `Lorentzian` (which computes `log(1 - |x|)` instead of `log(1 + |x|)`) and
`Bhattacharyya` give negative values. -/
theorem C71_negative_refuted :
    (∃ p q : List ℝ, ∃ v, p.length = q.length ∧ (∀ x ∈ p ++ q, 0 < x) ∧ lorentzian p q = .ok v ∧ v < 0) ∧
    (∃ p q : List ℝ, ∃ v, p.length = q.length ∧ (∀ x ∈ p ++ q, 0 < x) ∧ bhattacharyya p q = .ok v ∧ v < 0) := by
  refine ⟨⟨[1], [3/2], _, rfl, ?_, lorentzian_sum _ _ rfl (by simp), ?_⟩,
    ⟨[1], [1], _, rfl, by simp, bhattacharyya_sum _ _ rfl (by simp), ?_⟩⟩
  · simp
  · simp only [List.length_cons, List.length_nil, Nat.zero_add, Finset.range_one, Finset.sum_singleton, c,
      List.getD_cons_zero]
    apply Real.log_neg
    · rw [abs_of_neg (by norm_num)]; norm_num
    · rw [abs_of_neg (by norm_num)]; norm_num
  · simp [c]

/-- **C71 (refuted: symmetry)** `JensenShannon` multiplies its first summand by the integer `1/2 = 0`:
it is asymmetric and can be negative. -/
theorem C71_jensen_shannon_refuted :
    ∃ p q : List ℝ, ∃ v w, p.length = q.length ∧ (∀ x ∈ p ++ q, 0 < x) ∧
      jensenShannon p q = .ok v ∧ jensenShannon q p = .ok w ∧ v < 0 ∧ 0 < w := by
  have key : ∀ x y : List ℝ, x.length = y.length → x ≠ [] → jensenShannon x y =
      .ok (oneHalfInt * (∑ i ∈ Finset.range x.length, c x i * Real.log (2 * c x i / (c x i + c y i))) +
        ∑ i ∈ Finset.range x.length, c y i * Real.log (2 * c y i / (c x i + c y i))) := by
    intro x y h hx
    rw [jensenShannon, kDivergence_sum x y h hx, kDivergence'_sum x y h hx]; rfl
  refine ⟨[3], [1], _, _, rfl, by simp, key _ _ rfl (by simp), key _ _ rfl (by simp), ?_, ?_⟩
  · simp only [List.length_cons, List.length_nil, Nat.zero_add, Finset.range_one, Finset.sum_singleton, c,
      List.getD_cons_zero, oneHalfInt]
    have : Real.log (2 * 1 / (3 + 1)) < 0 := Real.log_neg (by norm_num) (by norm_num)
    norm_num at this ⊢
    exact this
  · simp only [List.length_cons, List.length_nil, Nat.zero_add, Finset.range_one, Finset.sum_singleton, c,
      List.getD_cons_zero, oneHalfInt]
    have : 0 < Real.log (2 * 3 / (1 + 3)) := Real.log_pos (by norm_num)
    norm_num at this ⊢
    exact this

/-- **C71 (refuted: MinSymmetric)** `MinSymmetric` is `MaxSymmetric`; on some points that is not the
minimum of the two chi-square values. -/
theorem C71_min_symmetric_refuted :
    (∀ p q, minSymmetric p q = maxSymmetric p q) ∧
    ∃ p q : List ℝ, ∃ a b v : ℝ, neyman p q = .ok a ∧ pearson p q = .ok b ∧ minSymmetric p q = .ok v ∧ min a b < v := by
  refine ⟨fun p q => rfl, [1], [2], 1, 1 / 2, 1, ?_, ?_, ?_, ?_⟩
  · rw [neyman_sum [1] [2] rfl (by simp)]; simp [c]; norm_num
  · rw [pearson_sum [1] [2] rfl (by simp)]; simp [c]; norm_num
  · have h1 := neyman_sum [1] [2] rfl (by simp)
    have h2 := pearson_sum [1] [2] rfl (by simp)
    unfold neyman at h1; unfold pearson at h2
    rw [minSymmetric, h1, h2]; simp [c]; norm_num
  · norm_num

theorem hassanat_term_nonneg (a b : ℝ) : 0 ≤ hassanatTerm a b := by
  unfold hassanatTerm
  have h := min_le_max (a := a) (b := b)
  split
  · next h0 =>
    have : (1 + min a b) / (1 + max a b) ≤ 1 := by
      rw [div_le_one (by linarith)]; linarith
    linarith
  · next h0 =>
    push Not at h0
    rw [abs_of_neg h0]
    have hm : 0 ≤ max a b + |max a b| := by
      have := neg_abs_le (max a b); linarith
    have : (1 + min a b + -min a b) / (1 + max a b + |max a b|) ≤ 1 := by
      rw [div_le_one (by linarith)]; linarith
    linarith

theorem hassanat_loop (p q : List ℝ) (h : p.length = q.length) (s : ℝ) :
    hassanatLoop p q s = .ok (s + (List.zipWith hassanatTerm p q).sum) := by
  induction p generalizing q s with
  | nil => simp [hassanatLoop]
  | cons a p ih =>
    cases q with
    | nil => simp at h
    | cons b q =>
      rw [hassanatLoop, ih q (by simpa using h)]
      simp [add_assoc]

theorem hassanat_self (p : List ℝ) : (List.zipWith hassanatTerm p p).sum = 0 := by
  induction p with
  | nil => simp
  | cons a p ih =>
    rw [List.zipWith_cons_cons, List.sum_cons, ih, add_zero]
    unfold hassanatTerm
    split
    · next h => simp at h ⊢; rw [div_self (by linarith), sub_self]
    · next h =>
      simp at h ⊢
      rw [abs_of_neg h]; simp

/-- **C71 (Hassanat)** is a dissimilarity on all points. -/
theorem C71_hassanat : IsDissimilarity anyReal hassanat := by
  intro p q hl _ _ _
  refine ⟨_, hassanat_loop p q hl 0, ?_, ?_, ?_⟩
  · rw [zero_add]
    refine List.sum_nonneg ?_
    intro x hx
    obtain ⟨i, h1, h2⟩ := List.getElem_of_mem hx
    rw [List.getElem_zipWith] at h2
    rw [← h2]; exact hassanat_term_nonneg _ _
  · rw [hassanat, hassanat_loop q p hl.symm, List.zipWith_comm]
    have : (fun b a => hassanatTerm a b) = hassanatTerm := by
      funext a b
      simp only [hassanatTerm, min_comm, max_comm]
    rw [this]
  · rw [hassanat, hassanat_loop p p rfl, hassanat_self, zero_add]

/-- **C71 (Hassanat, refuted)** It does not separate points with negative components: all of them are at
distance zero from each other (the denominator uses the maximum's absolute value instead of the
minimum's). -/
theorem C71_hassanat_refuted (p q : List ℝ) (hl : p.length = q.length) (hp : ∀ v ∈ p, v < 0)
    (hq : ∀ v ∈ q, v < 0) : hassanat p q = .ok 0 := by
  rw [hassanat, hassanat_loop p q hl, zero_add]
  congr 1
  induction p generalizing q with
  | nil => simp
  | cons a p ih =>
    cases q with
    | nil => simp at hl
    | cons b q =>
      rw [List.zipWith_cons_cons, List.sum_cons, ih q (by simpa using hl) (fun v hv => hp v (by simp [hv]))
        (fun v hv => hq v (by simp [hv])), add_zero]
      have ha := hp a (by simp); have hb := hq b (by simp)
      have h1 : min a b < 0 := min_lt_of_left_lt ha
      have h2 : max a b < 0 := max_lt ha hb
      rw [hassanatTerm, if_neg (not_le.2 h1), abs_of_neg h1, abs_of_neg h2]
      norm_num

example : (∀ v ∈ ([-1, -5] : List ℝ), v < 0) ∧ (∀ v ∈ ([-2, -3] : List ℝ), v < 0) := by simp

end MLTK.Props
