import Verif.Lemmas.Double
import Mathlib.Tactic.Linarith
/-!
# `near` is a nearest double
-/
namespace MLTK.Fp

/-- No integer is closer than the rounded one. -/
theorem rne_nearest (q : ℚ) (z : ℤ) : |(rne q : ℚ) - q| ≤ |(z : ℚ) - q| := by
  have h0 := Int.floor_le q
  have h1 := Int.lt_floor_add_one q
  have hz : z ≤ ⌊q⌋ ∨ ⌊q⌋ + 1 ≤ z := by omega
  have hz' : (z : ℚ) ≤ ⌊q⌋ ∨ (⌊q⌋ : ℚ) + 1 ≤ z := by
    rcases hz with h | h
    · exact Or.inl (by exact_mod_cast h)
    · exact Or.inr (by exact_mod_cast h)
  unfold rne
  split_ifs <;> push_cast <;> rcases hz' with h | h <;>
    rcases abs_cases ((z : ℚ) - q) with ⟨e, _⟩ | ⟨e, _⟩ <;> rw [e] <;>
    first
      | (rw [abs_of_nonpos (by linarith)]; linarith)
      | (rw [abs_of_nonneg (by linarith)]; linarith)

/-- No multiple of the last place is closer. -/
theorem near_nearest_mul (q : ℚ) (z : ℤ) : |near q - q| ≤ |(z : ℚ) * two (ulpExp q) - q| := by
  have hp := two_pos (ulpExp q)
  have h := rne_nearest (q / two (ulpExp q)) z
  have e1 : near q - q = ((rne (q / two (ulpExp q)) : ℚ) - q / two (ulpExp q)) * two (ulpExp q) := by
    unfold near; field_simp
  have e2 : (z : ℚ) * two (ulpExp q) - q = ((z : ℚ) - q / two (ulpExp q)) * two (ulpExp q) := by
    field_simp
  rw [e1, e2, abs_mul, abs_mul]
  exact mul_le_mul_of_nonneg_right h (abs_nonneg _)

theorem near_nearest_pos {q : ℚ} (hq : 0 < q) {y : ℚ} (hy : near y = y) : |near q - q| ≤ |y - q| := by
  obtain ⟨l1, l2⟩ := lg_spec hq
  have hu := ulpExp_pos hq
  by_cases hlow : y < two (lg q) ∧ -1074 ≤ lg q - 52
  · -- the power of two below `q` is on the grid and at least as close
    obtain ⟨m, -, hm⟩ := two_div_int (a := lg q) (b := ulpExp q) (by rw [hu]; omega)
    have := near_nearest_mul q m
    rw [← hm] at this
    refine this.trans ?_
    rw [abs_of_nonpos (by linarith), abs_of_nonpos (by linarith [hlow.1])]
    linarith [hlow.1]
  · -- `y` is a multiple of the last place of `q`
    have hmul : ∃ z : ℤ, y = (z : ℚ) * two (ulpExp q) := by
      have hle : ulpExp q ≤ ulpExp y := by
        rw [not_and_or] at hlow
        rcases hlow with h | h
        · have hy0 : 0 < y := (two_pos _).trans_le (not_lt.1 h)
          have : lg q ≤ lg y := by
            by_contra hc
            have h2 := (lg_spec hy0).2
            have h3 := two_le (a := lg y + 1) (b := lg q) (by omega)
            exact h (h2.trans_le h3)
          rw [hu, ulpExp_pos hy0]
          omega
        · have : ulpExp q = -1074 := by rw [hu]; omega
          rw [this]; exact ulpExp_ge y
      obtain ⟨m, -, hm⟩ := two_div_int hle
      refine ⟨rne (y / two (ulpExp y)) * m, ?_⟩
      conv_lhs => rw [← hy]
      unfold near
      conv_lhs => rw [hm]
      rw [← hm]; push_cast; rw [mul_assoc, ← hm]
    obtain ⟨z, rfl⟩ := hmul
    exact near_nearest_mul q z

/-- The number rounding delivers is as close to the exact one as any number with 53 digits. -/
theorem near_nearest (q : ℚ) {y : ℚ} (hy : near y = y) : |near q - q| ≤ |y - q| := by
  rcases lt_trichotomy q 0 with h | rfl | h
  · have := near_nearest_pos (q := -q) (by linarith) (y := -y) (by rw [near_neg, hy])
    rw [near_neg] at this
    rw [abs_sub_comm, abs_sub_comm y]
    convert this using 2 <;> ring
  · rw [near_zero]; simp
  · exact near_nearest_pos h hy

end MLTK.Fp
