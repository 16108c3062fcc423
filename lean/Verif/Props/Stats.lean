import Mathlib.Algebra.Order.Field.Rat
import Mathlib.Data.Rat.Defs
import Mathlib.Tactic.NormNum
import Verif.Lemmas.Stats
/-!
# C64, C73: statistics
-/
namespace MLTK.Props
open MLTK MLTK.Stats MLTK.Spec
open MLTK.PointM (vget_getD)
open MLTK.Data (Res_bind_ok Res_bind_error Res_pure)

section
variable {K : Type} [Field K] [LinearOrder K] [IsStrictOrderedRing K]

/-- **C64 (mean)** The mean of a non-empty point is the sum divided by the number of components and lies
between any bounds of the components; the mean of an empty point is rejected. -/
theorem C64_mean (p : List K) :
    (p ≠ [] → ∃ m, mean p = .ok m ∧ m * p.length = p.sum ∧
      (∀ lo, (∀ x ∈ p, lo ≤ x) → lo ≤ m) ∧ (∀ hi, (∀ x ∈ p, x ≤ hi) → m ≤ hi)) ∧
    (p = [] → mean p = .error .assertFail) := by
  constructor
  · intro h
    have hn : (0 : K) < p.length := by exact_mod_cast List.length_pos_of_ne_nil h
    refine ⟨_, mean_ok p h, ?_, ?_, ?_⟩
    · rw [avg]; field_simp
    · intro lo hlo
      rw [avg, le_div_iff₀ hn]
      have := List.card_nsmul_le_sum p lo hlo
      rw [nsmul_eq_mul] at this; linarith
    · intro hi hhi
      rw [avg, div_le_iff₀ hn]
      have := List.sum_le_card_nsmul p hi hhi
      rw [nsmul_eq_mul] at this; linarith
  · rintro rfl; rfl

example : mean ([1, 2, 6] : List ℚ) = Except.ok 3 := by rw [mean_ok _ (by simp)]; norm_num [avg]

theorem sqDev_nonneg (p : List K) : 0 ≤ sqDev p :=
  List.sum_nonneg (by intro x hx; obtain ⟨y, _, rfl⟩ := List.mem_map.1 hx; exact sq_nonneg _)

theorem avg_const (p : List K) (a : K) (h : p ≠ []) (hp : ∀ x ∈ p, x = a) : avg p = a := by
  have hn : (p.length : K) ≠ 0 := by simpa using h
  have : p = List.replicate p.length a := List.eq_replicate_iff.2 ⟨rfl, hp⟩
  rw [avg, this]; simp [List.sum_replicate]; field_simp

theorem sqDev_eq_zero (p : List K) (h : p ≠ []) : sqDev p = 0 ↔ ∀ x ∈ p, ∀ y ∈ p, x = y := by
  constructor
  · intro h0
    have hz : ∀ x ∈ p, x = avg p := by
      intro x hx
      have h1 : (x - avg p) ^ 2 ≤ sqDev p :=
        List.single_le_sum (by intro y hy; obtain ⟨z, _, rfl⟩ := List.mem_map.1 hy; exact sq_nonneg _) _
          (List.mem_map.2 ⟨x, hx, rfl⟩)
      rw [h0] at h1
      have := pow_eq_zero_iff (two_ne_zero) |>.1 (le_antisymm h1 (sq_nonneg _))
      linarith
    intro x hx y hy
    rw [hz x hx, hz y hy]
  · intro hc
    obtain ⟨a, ha⟩ := List.exists_mem_of_ne_nil p h
    have := avg_const p a h (fun x hx => hc x hx a ha)
    unfold sqDev
    rw [this]
    apply List.sum_eq_zero
    intro v hv
    obtain ⟨x, hx, rfl⟩ := List.mem_map.1 hv
    rw [hc x hx a ha]; simp

/-- **C64 (variance)** The variance of a non-empty point is the mean squared deviation from its mean;
it is non-negative, and zero exactly when all components are equal. -/
theorem C64_var (p : List K) (h : p ≠ []) :
    ∃ v, var p = .ok v ∧ v * p.length = (p.map (fun x => (x - avg p) ^ 2)).sum ∧ 0 ≤ v ∧
      (v = 0 ↔ ∀ x ∈ p, ∀ y ∈ p, x = y) := by
  have hn : (0 : K) < p.length := by exact_mod_cast List.length_pos_of_ne_nil h
  refine ⟨_, var_ok p h, ?_, div_nonneg (sqDev_nonneg p) hn.le, ?_⟩
  · have : (p.length : K) ≠ 0 := hn.ne'
    rw [div_mul_cancel₀ _ this]; rfl
  · rw [div_eq_zero_iff, ← sqDev_eq_zero p h]
    simp [h]

example : var ([1, 2, 6] : List ℚ) = .ok (14 / 3) := by rw [var_ok _ (by simp)]; norm_num [sqDev, avg]

/-- Adding a constant to every component. -/
def shift (t : K) (p : List K) : List K := p.map (· + t)

theorem avg_shift (t : K) (p : List K) (h : p ≠ []) : avg (shift t p) = avg p + t := by
  have hn : (p.length : K) ≠ 0 := by simpa using h
  have : (shift t p).sum = p.sum + p.length * t := by
    unfold shift
    clear h hn
    induction p with
    | nil => simp
    | cons a p ih => simp [ih]; ring
  rw [avg, this, avg, shift, List.length_map]; field_simp

theorem coDev_shift (t s : K) (p q : List K) (hp : p ≠ []) (hq : q ≠ []) :
    coDev (shift t p) (shift s q) = coDev p q := by
  unfold coDev
  rw [avg_shift t p hp, avg_shift s q hq]
  unfold shift
  rw [List.zipWith_map]
  congr 2
  funext x y; ring

omit [LinearOrder K] [IsStrictOrderedRing K] in
theorem coDev_comm (p q : List K) : coDev p q = coDev q p := by
  unfold coDev
  rw [List.zipWith_comm]
  congr 2
  funext x y; ring

/-- **C64 (covariance)** For two non-empty points of the same dimension `n`, `covar` is the sum of the
products of deviations divided by `n-1`, it is symmetric, and it does not change when constants are
added to all components. -/
theorem C64_covar (p q : List K) (h : p ≠ []) (hl : p.length = q.length) (t s : K) :
    covar p q = .ok ((List.zipWith (fun x y => (x - avg p) * (y - avg q)) p q).sum / (p.length - 1)) ∧
    covar q p = covar p q ∧ covar (shift t p) (shift s q) = covar p q := by
  have hq : q ≠ [] := by rintro rfl; simp at hl; exact h hl
  refine ⟨covar_ok p q h hl, ?_, ?_⟩
  · rw [covar_ok p q h hl, covar_ok q p hq hl.symm, coDev_comm, hl]
  · rw [covar_ok p q h hl, covar_ok _ _ (by simpa [shift] using h) (by simpa [shift] using hl),
      coDev_shift t s p q h hq]
    simp [shift]

example : covar ([1, 2, 6] : List ℚ) [1, 0, 5] = Except.ok (13 / 2) := by
  rw [covar_ok ([1, 2, 6] : List ℚ) [1, 0, 5] (by simp) rfl]; norm_num [coDev, avg]

/-- **C64 (refuted)** `var(x)` is not `covar(x, x)`: for a point of at least two components that are not
all equal, `var` divides by `n` and `covar` by `n-1`, and `var(x) < covar(x,x)`. -/
theorem C64_var_covar_refuted (p : List K) (h2 : 2 ≤ p.length) (hc : ¬ ∀ x ∈ p, ∀ y ∈ p, x = y) :
    ∃ v w, var p = .ok v ∧ covar p p = .ok w ∧ v * p.length = w * (p.length - 1) ∧ v < w := by
  have h : p ≠ [] := by rintro rfl; simp at h2
  have hn : (2 : K) ≤ p.length := by exact_mod_cast h2
  have hpos : 0 < sqDev p := lt_of_le_of_ne (sqDev_nonneg p) (fun h0 => hc ((sqDev_eq_zero p h).1 h0.symm))
  refine ⟨_, _, var_ok p h, covar_ok p p h rfl, ?_, ?_⟩
  · rw [sqDev_self]
    have h1 : (p.length : K) ≠ 0 := by positivity
    have h3 : (p.length : K) - 1 ≠ 0 := by intro h0; linarith
    field_simp
  · rw [sqDev_self]
    exact div_lt_div_of_pos_left hpos (by linarith) (by linarith)

example : 2 ≤ ([1, 3] : List ℚ).length ∧ ¬ ∀ x ∈ ([1, 3] : List ℚ), ∀ y ∈ ([1, 3] : List ℚ), x = y := by
  constructor
  · simp
  · intro h; have := h 1 (by simp) 3 (by simp); norm_num at this

omit [LinearOrder K] [IsStrictOrderedRing K] in
/-- **C64 (dataset mean)** The mean of a feature of a dataset is the mean of that column (zero for an
empty dataset). -/
theorem C64_mean_feature (dim : Nat) (rows : List (List K)) (j : Nat) (hj : j < dim)
    (hr : ∀ r ∈ rows, r.length = dim) :
    meanFeat dim rows j = .ok (if rows = [] then 0 else avg (rows.map (fun r => r.getD j 0))) := by
  rw [meanFeat, if_pos hj, colSum_ok rows j (fun r h => by rw [hr r h]; exact hj), Res_bind_ok]
  cases rows with
  | nil => rfl
  | cons r rs => simp [avg, column]

end

/-- **C64 (standard deviation)** `std_dev` of a non-empty point is the root of the mean squared deviation from its mean. -/
theorem C64_std (p : List ℝ) (h : p ≠ []) :
    ∃ s, stdDev p = .ok s ∧ 0 ≤ s ∧ s ^ 2 * p.length = (p.map (fun x => (x - avg p) ^ 2)).sum := by
  obtain ⟨v, h1, h2, h3, _⟩ := C64_var p h
  refine ⟨Real.sqrt v, by rw [stdDev, h1]; rfl, Real.sqrt_nonneg v, ?_⟩
  rw [Real.sq_sqrt h3, h2]

example : stdDev [3, 3] = .ok 0 := by
  rw [stdDev, var_ok _ (by simp)]
  simp [sqDev, avg]

/-- **C64 (dataset standard deviation)** For at least two samples, the square of `std_dev(data, j)` is the
covariance of column `j` with itself, i.e. the unbiased variance. -/
theorem C64_std_feature (dim : Nat) (rows : List (List ℝ)) (j : Nat) (hj : j < dim)
    (hr : ∀ r ∈ rows, r.length = dim) (h2 : 2 ≤ rows.length) :
    ∃ s, stdDevFeat dim rows j = .ok s ∧ 0 ≤ s ∧
      covar (rows.map (fun r => r.getD j 0)) (rows.map (fun r => r.getD j 0)) = .ok (s ^ 2) := by
  have hne : rows ≠ [] := by rintro rfl; simp at h2
  have hn : (2 : ℝ) ≤ rows.length := by exact_mod_cast h2
  have hd : (decSize rows.length : ℝ) = rows.length - 1 := by
    rw [decSize, if_neg (by omega), Nat.cast_sub (by omega)]; simp
  have hs : stdDevFeat dim rows j =
      .ok (Real.sqrt (sqDev (column rows j) / (rows.length - 1))) := by
    have h1 : ¬ rows.length = 1 := by omega
    rw [stdDevFeat, if_neg h1, C64_mean_feature dim rows j hj hr, if_neg hne]
    rw [Res_bind_ok, foldlM_ok _ (fun s r => s + (r.getD j 0 - avg (column rows j)) ^ 2), Res_bind_ok,
      foldl_add_sum, zero_add, hd]
    · simp [sqDev, column, Function.comp_def]
    · intro r h s
      rw [vget_getD (by rw [hr r h]; exact hj) 0]
      simp [column]; ring
  refine ⟨_, hs, Real.sqrt_nonneg _, ?_⟩
  rw [Real.sq_sqrt (div_nonneg (sqDev_nonneg _) (by linarith))]
  have := covar_ok (column rows j) (column rows j) (by simpa [column] using hne) rfl
  rw [sqDev_self] at this
  rw [show rows.map (fun r => r.getD j 0) = column rows j from rfl, this]
  simp [column]

example : ∀ r ∈ ([[1, 2], [3, 4]] : List (List ℝ)), r.length = 2 := by simp

/-- **C64 (dataset variance, partial)** `var(data, feat)` is the sum of the variances of the columns whose
name is *not* `feat` (for a name that does not occur: the total variance).
Missing: it is not the variance of the feature `feat`, see `C64_var_feature_refuted`. -/
theorem C64_var_feature_partial (dim : Nat) (names : List Int) (rows : List (List ℝ)) (feat : Nat)
    (hn : names.length = dim) (hr : ∀ r ∈ rows, r.length = dim) :
    varFeat dim names rows feat = .ok (((List.range dim).filter (fun j => names.getD j 0 ≠ feat)).map
      (fun j => sqDev (rows.map (fun r => r.getD j 0)) / rows.length)).sum := by
  rw [varFeat, avgs_ok dim names rows _ hn hr, Res_bind_ok, foldlM_ok _
    (fun s r => s + ((List.range dim).map (fun j => if names.getD j 0 = (feat : Int) then 0 else
      (avg (column rows j) - r.getD j 0) ^ 2)).sum) rows 0, Res_bind_ok, foldl_add_sum, zero_add, sum_swap]
  · rw [Res_pure]
    congr 1
    rw [← sum_filter_map, sum_div]
    congr 1
    apply List.map_congr_left
    intro j _
    by_cases hj : names.getD j 0 = (feat : Int)
    · simp [hj, -List.getD_eq_getElem?_getD]
    · rw [if_pos (by rw [decide_eq_true_eq]; exact hj)]
      congr 2
      simp only [if_neg hj, column, sqDev, List.map_map, Function.comp_def]
      congr 1
      funext r
      ring
  · intro r h s
    rw [sqToAvg_ok dim names rows r (fun f => decide (f = (feat : Int))) hn (hr r h), Res_bind_ok]
    simp [-List.getD_eq_getElem?_getD]

example : varFeat 2 [1, 2] ([[1, 2], [3, 6]] : List (List ℝ)) 1 = .ok 4 := by
  rw [C64_var_feature_partial 2 _ _ _ rfl (by simp)]
  norm_num [List.range_succ, sqDev, avg]

/-- **C64 (dataset variance, refuted)** The variance reported for the only feature of a dataset is always
zero, whatever the samples. -/
theorem C64_var_feature_refuted (feat : Nat) (rows : List (List ℝ)) (hr : ∀ r ∈ rows, r.length = 1) :
    varFeat 1 [(feat : Int)] rows feat = .ok 0 := by
  rw [C64_var_feature_partial 1 _ _ _ rfl hr]
  simp

/-! ## C73 -/

/-- Squared Euclidean distance over the features kept by `keep`. -/
noncomputable def sqDistOn (dim : Nat) (keep : Nat → Bool) (a b : Nat → ℝ) : ℝ :=
  (((List.range dim).filter keep).map (fun j => (a j - b j) ^ 2)).sum

/-- **C73 (radius, Euclidean)** `radius(data, feat, 2)` is the largest distance of a sample to the mean of
the samples over the features other than `feat` (all features if `feat < 0`): it bounds all of these
distances and, if there is a sample, it is one of them. -/
theorem C73_radius2 (dim : Nat) (names : List Int) (rows : List (List ℝ)) (feat : Int)
    (hn : names.length = dim) (hr : ∀ r ∈ rows, r.length = dim) :
    ∃ v, radius dim names rows feat 2 = .ok v ∧
      (∀ r ∈ rows, Real.sqrt (sqDistOn dim (fun j => feat < 0 ∨ names.getD j 0 ≠ feat)
        (fun j => avg (rows.map (fun r => r.getD j 0))) (fun j => r.getD j 0)) ≤ v) ∧
      (rows ≠ [] → ∃ r ∈ rows, v = Real.sqrt (sqDistOn dim (fun j => feat < 0 ∨ names.getD j 0 ≠ feat)
        (fun j => avg (rows.map (fun r => r.getD j 0))) (fun j => r.getD j 0))) := by
  set D : List ℝ → ℝ := fun r => Real.sqrt (sqDistOn dim (fun j => feat < 0 ∨ names.getD j 0 ≠ feat)
        (fun j => avg (rows.map (fun r => r.getD j 0))) (fun j => r.getD j 0)) with hD
  have hrad : radius dim names rows feat 2 =
      .ok (rows.foldl (fun mx r => if mx < D r then D r else mx) 0) := by
    rw [radius, if_pos rfl, avgs_ok dim names rows _ hn hr, Res_bind_ok]
    apply foldlM_ok
    intro r h mx
    rw [sqToAvg_ok dim names rows r _ hn (hr r h), Res_bind_ok, Res_pure]
    have : ((List.range dim).map (fun j => if skipFeat feat (names.getD j 0) then 0 else
        (avg (column rows j) - r.getD j 0) ^ 2)).sum = sqDistOn dim (fun j => feat < 0 ∨ names.getD j 0 ≠ feat)
        (fun j => avg (rows.map (fun r => r.getD j 0))) (fun j => r.getD j 0) := by
      rw [sqDistOn, ← sum_filter_map]
      congr 1
      apply List.map_congr_left
      intro j _
      by_cases h1 : feat < 0 <;> by_cases h2 : names.getD j 0 = feat <;> simp [skipFeat, h1, h2, column, -List.getD_eq_getElem?_getD]
    rw [this]
  have hD0 : ∀ r, 0 ≤ D r := fun r => Real.sqrt_nonneg _
  obtain ⟨h1, h2⟩ := foldl_max D rows 0
  refine ⟨_, hrad, h1.2, ?_⟩
  intro hne
  rcases h2 with h2 | h2
  · obtain ⟨r, hr'⟩ := List.exists_mem_of_ne_nil rows hne
    refine ⟨r, hr', ?_⟩
    rw [h2]
    have := h1.2 r hr'
    rw [h2] at this
    exact le_antisymm (hD0 r) this
  · obtain ⟨r, hr', h2⟩ := h2
    exact ⟨r, hr', h2⟩

example : radius 2 [1, 2] ([[0, 0], [6, 8]] : List (List ℝ)) (-1) 2 = .ok 5 := by
  obtain ⟨v, h1, _, h3⟩ := C73_radius2 2 [1, 2] ([[0, 0], [6, 8]] : List (List ℝ)) (-1) rfl (by simp)
  rw [h1]
  have h5 : Real.sqrt 25 = 5 := by
    rw [show (25 : ℝ) = 5 ^ 2 by norm_num]; exact Real.sqrt_sq (by norm_num)
  obtain ⟨r, hr, rfl⟩ := h3 (by simp)
  simp at hr
  rcases hr with rfl | rfl <;> norm_num [sqDistOn, List.range_succ, avg, h5]

/-- The samples of one class. -/
def ofClass (rows : List (List ℝ × Int)) (pos : Bool) : List (List ℝ) :=
  (rows.filter (fun r => (r.2 = 1) = pos)).map Prod.fst

/-- **C73 (distance of centres)** `distCenters(data, feat)` is the Euclidean distance, over the features
other than `feat`, between the mean of the samples labelled 1 and the mean of the others. -/
theorem C73_dist_centers (dim : Nat) (names : List Int) (rows : List (List ℝ × Int)) (feat : Int)
    (hn : names.length = dim) (hr : ∀ r ∈ rows, r.1.length = dim) :
    distCenters dim names rows feat = .ok (Real.sqrt (sqDistOn dim (fun j => feat < 0 ∨ names.getD j 0 ≠ feat)
      (fun j => avg ((ofClass rows true).map (fun r => r.getD j 0)))
      (fun j => avg ((ofClass rows false).map (fun r => r.getD j 0))))) := by
  rw [distCenters, classAvg_ok dim rows true hr, Res_bind_ok, classAvg_ok dim rows false hr, Res_bind_ok,
    foldlM_ok _ (fun s j => s + if skipFeat feat (names.getD j 0) then 0 else
      (avg (column (ofClass rows true) j) - avg (column (ofClass rows false) j)) ^ 2),
    Res_bind_ok, foldl_add_sum, zero_add, Res_pure]
  · congr 2
    rw [sqDistOn, ← sum_filter_map]
    congr 1
    apply List.map_congr_left
    intro j _
    by_cases h1 : feat < 0 <;> by_cases h2 : names.getD j 0 = feat <;> simp [skipFeat, h1, h2, column, -List.getD_eq_getElem?_getD]
  · intro j hj s
    have hj : j < dim := by simpa using hj
    rw [vget_getD (by omega) 0, Res_bind_ok]
    by_cases hk : skipFeat feat (names.getD j 0) = true
    · simp only [hk, if_true, add_zero, Res_pure]
    · rw [if_neg hk, if_neg hk]
      simp [vget, hj, ofClass]

/-- **C73 (refuted)** `distCentersWithoutFeats(data, feats)` is the distance of the centres over *only* the
features listed (for features listed once), not over the others. -/
theorem C73_without_feats_refuted (dim : Nat) (names : List Int) (rows : List (List ℝ × Int)) (feats : List Int)
    (hn : names.length = dim) (hr : ∀ r ∈ rows, r.1.length = dim) (hf : feats.Nodup) :
    distCentersWithoutFeats dim names rows feats = .ok (Real.sqrt (sqDistOn dim (fun j => names.getD j 0 ∈ feats)
      (fun j => avg ((ofClass rows true).map (fun r => r.getD j 0)))
      (fun j => avg ((ofClass rows false).map (fun r => r.getD j 0))))) := by
  rw [distCentersWithoutFeats, classAvg_ok dim rows true hr, Res_bind_ok, classAvg_ok dim rows false hr, Res_bind_ok,
    foldlM_ok _ (fun s j => s + if names.getD j 0 ∈ feats then
      -(avg (column (ofClass rows true) j) - avg (column (ofClass rows false) j)) ^ 2 else 0),
    Res_bind_ok, foldl_add_sum, zero_add, Res_pure]
  · congr 2
    rw [sqDistOn, ← sum_filter_map]
    rw [show ((List.range dim).map (fun j => if names.getD j 0 ∈ feats then
      -(avg (column (ofClass rows true) j) - avg (column (ofClass rows false) j)) ^ 2 else 0)) =
      (((List.range dim).map (fun j => if names.getD j 0 ∈ feats then
      (avg (column (ofClass rows true) j) - avg (column (ofClass rows false) j)) ^ 2 else 0))).map (fun x => -x) by
        rw [List.map_map]
        apply List.map_congr_left
        intro j _
        by_cases h : names.getD j 0 ∈ feats <;> simp [h, -List.getD_eq_getElem?_getD]]
    rw [sum_neg', abs_neg, abs_of_nonneg]
    · congr 1
      apply List.map_congr_left
      intro j _
      by_cases h : names.getD j 0 ∈ feats <;> simp [h, column, -List.getD_eq_getElem?_getD]
    · apply List.sum_nonneg
      intro x hx
      obtain ⟨j, _, rfl⟩ := List.mem_map.1 hx
      split
      · exact sq_nonneg _
      · exact le_refl _
  · intro j hj s
    have hj : j < dim := by simpa using hj
    have h1 : vget ((List.range dim).map (fun j => avg (column (ofClass rows true) j))) j =
        .ok (avg (column (ofClass rows true) j)) := by simp [hj]
    have h2 : vget ((List.range dim).map (fun j => avg (column (ofClass rows false) j))) j =
        .ok (avg (column (ofClass rows false) j)) := by simp [hj]
    generalize hX : (avg (column (ofClass rows true) j) - avg (column (ofClass rows false) j)) ^ 2 = X
    rw [foldlM_ok _ (fun s g => if names.getD j 0 = g then s - X else s)]
    · have step : ∀ (l : List Int) (s : ℝ), l.Nodup → l.foldl (fun s g => if names.getD j 0 = g then s - X else s) s =
          s + if names.getD j 0 ∈ l then -X else 0 := by
        intro l
        induction l with
        | nil => intro s _; simp
        | cons g l ih =>
          intro s hnd
          have hnd' := List.nodup_cons.1 hnd
          rw [List.foldl_cons, ih _ hnd'.2]
          by_cases hg : names.getD j 0 = g
          · rw [if_pos hg, if_neg (by rw [hg]; exact hnd'.1), if_pos (by simp [hg, -List.getD_eq_getElem?_getD])]
            ring
          · rw [if_neg hg]
            simp only [List.mem_cons, hg, false_or]
      rw [step feats s hf]
    · intro g _ s
      rw [vget_getD (by omega) 0, Res_bind_ok]
      by_cases hg : names.getD j 0 = g
      · rw [if_pos hg, if_pos hg]
        erw [h1, h2]
        rw [Res_bind_ok, Res_bind_ok, hX]; rfl
      · rw [if_neg hg, if_neg hg]; rfl

example : (∀ r ∈ ([([1, 2], 1), ([3, 4], -1)] : List (List ℝ × Int)), r.1.length = 2) ∧ ([1] : List Int).Nodup := by
  simp

end MLTK.Props
