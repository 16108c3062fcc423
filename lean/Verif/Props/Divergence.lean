import Verif.Props.Metric
/-!
# C71: the divergences that are not symmetric by definition
-/
namespace MLTK.Props
open MLTK.Metric MLTK.Spec

theorem KL_sum : SumForm kullbackLeibler (fun _ s => s) (fun a b => a * Real.log (a / b)) := by
  metric_sum kullbackLeibler

private theorem total (p : List ℝ) : p.sum = ∑ i ∈ Finset.range p.length, c p i := by
  rw [← list_range_sum]
  congr 1
  refine List.ext_getElem (by simp) ?_
  intro i h1 h2
  simp [c, List.getD_eq_getElem?_getD, List.getElem?_eq_getElem h1]

private theorem entry_pos {p : List ℝ} (h : ∀ v ∈ p, 0 < v) {i : Nat} (hi : i < p.length) : 0 < c p i := by
  have : c p i = p[i] := by simp [c, List.getD_eq_getElem?_getD, List.getElem?_eq_getElem hi]
  rw [this]; exact h _ (List.getElem_mem hi)

/-- A sum of terms `g a b`, each at least `r a b` with equality only for `a = b`, where the `r` add up to zero. -/
private theorem divergence_of {d : List ℝ → List ℝ → Res ℝ} {g : ℝ → ℝ → ℝ} (hd : SumForm d (fun _ s => s) g)
    (t : ℝ) (hg : ∀ a b, 0 < a → 0 < b → t * (a - b) ≤ g a b)
    (he : ∀ a b, 0 < a → 0 < b → g a b = t * (a - b) → a = b) (hs : ∀ a, 0 < a → g a a = 0) : IsDivergence d := by
  intro p q hl hne hp hq hsum
  have hz : ∑ i ∈ Finset.range p.length, t * (c p i - c q i) = 0 := by
    rw [← Finset.mul_sum, Finset.sum_sub_distrib, ← total, hl, ← total, hsum]; ring
  have hle : ∀ i ∈ Finset.range p.length, t * (c p i - c q i) ≤ g (c p i) (c q i) := fun i hi =>
    hg _ _ (entry_pos hp (Finset.mem_range.1 hi)) (entry_pos hq (hl ▸ Finset.mem_range.1 hi))
  refine ⟨_, hd p q hl hne, ?_, ?_, ?_⟩
  · rw [← hz]; exact Finset.sum_le_sum hle
  · intro h0
    have := (Finset.sum_eq_sum_iff_of_le hle).1 (by rw [hz]; exact h0.symm)
    refine List.ext_getElem hl ?_
    intro i h1 h2
    have h3 := he _ _ (entry_pos hp h1) (entry_pos hq h2) (this i (Finset.mem_range.2 h1)).symm
    simpa [c, List.getD_eq_getElem?_getD, List.getElem?_eq_getElem h1, List.getElem?_eq_getElem h2] using h3
  · rintro rfl
    exact Finset.sum_eq_zero fun i hi => hs _ (entry_pos hp (Finset.mem_range.1 hi))

private theorem log_gap {x : ℝ} (hx : 0 < x) (h : Real.log x = 1 - x⁻¹) : x = 1 := by
  by_contra hne
  have h1 : x⁻¹ ≠ 1 := by simpa using hne
  have := Real.log_lt_sub_one_of_pos (inv_pos.2 hx) h1
  rw [Real.log_inv] at this
  linarith

/-- **C71 (asymmetric divergences)** The Kullback-Leibler and the K divergence are divergences between distributions:
non-negative on positive points with the same total, and zero exactly when the points are equal. -/
theorem C71_divergences : IsDivergence kullbackLeibler ∧ IsDivergence kDivergence := by
  constructor
  · refine divergence_of KL_sum 1 ?_ ?_ ?_
    · intro a b ha hb
      have h1 := mul_le_mul_of_nonneg_left (Real.one_sub_inv_le_log_of_pos (div_pos ha hb)) ha.le
      have h2 : a * (1 - (a / b)⁻¹) = a - b := by field_simp
      linarith
    · intro a b ha hb h
      have h2 : a * (1 - (a / b)⁻¹) = a - b := by field_simp
      have := log_gap (div_pos ha hb) (mul_left_cancel₀ ha.ne' (by rw [h, h2]; ring))
      field_simp at this; linarith
    · intro a ha; simp [div_self ha.ne']
  · refine divergence_of kDivergence_sum (1 / 2) ?_ ?_ ?_
    · intro a b ha hb
      have hab : 0 < a + b := by linarith
      have h1 := mul_le_mul_of_nonneg_left (Real.one_sub_inv_le_log_of_pos (show 0 < 2 * a / (a + b) by positivity)) ha.le
      have h2 : a * (1 - (2 * a / (a + b))⁻¹) = 1 / 2 * (a - b) := by field_simp; ring
      linarith
    · intro a b ha hb h
      have hab : 0 < a + b := by linarith
      have h2 : a * (1 - (2 * a / (a + b))⁻¹) = 1 / 2 * (a - b) := by field_simp; ring
      have := log_gap (show 0 < 2 * a / (a + b) by positivity) (mul_left_cancel₀ ha.ne' (by rw [h, h2]))
      field_simp at this; linarith
    · intro a ha
      have : 2 * a / (a + a) = 1 := by rw [two_mul]; exact div_self (by linarith)
      simp [this]

/-- Two different distributions on two values. -/
example : ∃ v, kullbackLeibler [1 / 2, 1 / 2] [1 / 4, 3 / 4] = .ok v ∧ 0 < v := by
  obtain ⟨v, h, h1, h2⟩ := C71_divergences.1 [1 / 2, 1 / 2] [1 / 4, 3 / 4] rfl (by simp)
    (by intro v hv; fin_cases hv <;> norm_num) (by intro v hv; fin_cases hv <;> norm_num) (by norm_num)
  refine ⟨v, h, lt_of_le_of_ne h1 fun e => ?_⟩
  have := h2.1 e.symm
  norm_num at this

/-- **C71 (refuted without equal totals)** On points of different totals both take negative values. -/
theorem C71_totals_refuted :
    ∃ p q : List ℝ, p.length = q.length ∧ (∀ v ∈ p, 0 < v) ∧ (∀ v ∈ q, 0 < v) ∧
      (∃ v, kullbackLeibler p q = .ok v ∧ v < 0) ∧ ∃ v, kDivergence p q = .ok v ∧ v < 0 := by
  refine ⟨[1], [2], rfl, by simp, by simp, ⟨_, KL_sum _ _ rfl (by simp), ?_⟩, ⟨_, kDivergence_sum _ _ rfl (by simp), ?_⟩⟩
  · simp [c]
    exact Real.log_pos (by norm_num)
  · simp [c]
    exact Real.log_neg (by norm_num) (by norm_num)

end MLTK.Props
