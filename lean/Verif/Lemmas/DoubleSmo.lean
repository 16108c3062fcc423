import Verif.Model.DoubleSmo
import Verif.Lemmas.Double
/-!
# The multipliers of one SMO step in `double` arithmetic
-/
namespace MLTK.Fp

attribute [local irreducible] Fp.rnd Fp.near Fp.huge Fp.two

theorem near_abs_le {q b : ℚ} (hb : near b = b) (h : |q| ≤ b) : |near q| ≤ b := by
  rw [abs_le] at h ⊢
  have h1 := near_mono h.1
  have h2 := near_mono h.2
  rw [near_neg, hb] at h1
  rw [hb] at h2
  exact ⟨h1, h2⟩

theorem rnd_small {q : ℚ} (h : |q| ≤ 2 ^ 20) : rnd q = .fin (near q) ∧ |near q| ≤ 2 ^ 20 := by
  have h1 : |near q| ≤ 2 ^ 20 := near_abs_le (by decide +kernel) h
  refine ⟨rnd_fin ?_, h1⟩
  have : (2 ^ 20 : ℚ) < huge := by decide +kernel
  linarith

theorem near_err_lt {x : ℚ} {k : ℤ} (hk : -1000 ≤ k) (h : |x| < two k) : |near x - x| ≤ two (k - 54) := by
  have he := near_err x
  have hu : ulpExp x ≤ k - 53 := by
    unfold ulpExp
    split_ifs with h0
    · omega
    · have hp : 0 < |x| := abs_pos.mpr h0
      have := lg_le hp (e := k - 1) (by rw [sub_add_cancel]; exact h)
      simp only [max_le_iff]
      omega
  refine le_trans he ?_
  have h1 := two_le hu
  have h2 : two (k - 53) = two (k - 54) * 2 := by
    rw [show k - 53 = (k - 54) + 1 by ring, two_add, show two 1 = 2 by decide +kernel]
  linarith

/-- A `double` of at least `2^k` is a whole multiple of `2^(k-52)`. -/
theorem grid_of_ge {x : ℚ} {k : ℤ} (hk : -1000 ≤ k) (hx : near x = x) (h : two k ≤ x) :
    ∃ m : ℤ, x = m * two (k - 52) := by
  have hp : 0 < x := lt_of_lt_of_le (two_pos k) h
  have hu : k - 52 ≤ ulpExp x := by
    rw [ulpExp_pos hp]
    have h1 := lg_spec hp
    have : k < lg x + 1 := lt_of_two_lt (lt_of_le_of_lt h h1.2)
    omega
  obtain ⟨m, -, hm⟩ := two_div_int hu
  obtain ⟨r, hr⟩ : ∃ r : ℤ, x = (r : ℚ) * two (ulpExp x) := by
    refine ⟨rne (x / two (ulpExp x)), ?_⟩
    conv_lhs => rw [← hx]
    with_unfolding_all rfl
  rw [hm] at hr
  exact ⟨r * m, by push_cast; rw [mul_assoc]; exact hr⟩

theorem two_m39 : two (-39) = 1 / 2 ^ 39 := by decide +kernel
theorem two_m40 : two (-40) = 1 / 2 ^ 40 := by decide +kernel

theorem err14 {x : ℚ} (h : |x| < 2 ^ 14) : |near x - x| ≤ 1 / 2 ^ 40 := by
  have := near_err_lt (k := 14) (by norm_num) (by rwa [show two 14 = 2 ^ 14 by decide +kernel])
  rwa [show (14 : ℤ) - 54 = -40 by norm_num, two_m40] at this

theorem err15 {x : ℚ} (h : |x| < 2 ^ 15) : |near x - x| ≤ 1 / 2 ^ 39 := by
  have := near_err_lt (k := 15) (by norm_num) (by rwa [show two 15 = 2 ^ 15 by decide +kernel])
  rwa [show (15 : ℤ) - 54 = -39 by norm_num, two_m39] at this

theorem grid39 {x : ℚ} (hx : near x = x) (h : 2 ^ 13 ≤ x) : ∃ m : ℤ, x = m * (1 / 2 ^ 39) := by
  have := grid_of_ge (k := 13) (by norm_num) hx (by rwa [show two 13 = 2 ^ 13 by decide +kernel])
  rwa [show (13 : ℤ) - 52 = -39 by norm_num, two_m39] at this

theorem grid40 {x : ℚ} (hx : near x = x) (h : 2 ^ 12 ≤ x) : ∃ m : ℤ, x = m * (1 / 2 ^ 40) := by
  have := grid_of_ge (k := 12) (by norm_num) hx (by rwa [show two 12 = 2 ^ 12 by decide +kernel])
  rwa [show (12 : ℤ) - 52 = -40 by norm_num, two_m40] at this

/-- Small multiples of `2^-39` and `2^-40` are `double`s. -/
theorem near_m39 {x : ℚ} (m : ℤ) (hx : x = m * (1 / 2 ^ 39)) (h : |x| ≤ 2 ^ 14) : near x = x := by
  apply near_of_grid
  refine ⟨m, -39, ?_, by norm_num, by rw [two_m39]; exact hx⟩
  rw [hx, abs_mul, abs_of_pos (show (0 : ℚ) < 1 / 2 ^ 39 by norm_num)] at h
  have : |(m : ℚ)| ≤ 2 ^ 53 := by
    rw [mul_one_div, div_le_iff₀ (by positivity)] at h
    linarith
  exact_mod_cast this

theorem near_m40 {x : ℚ} (m : ℤ) (hx : x = m * (1 / 2 ^ 40)) (h : |x| ≤ 2 ^ 13) : near x = x := by
  apply near_of_grid
  refine ⟨m, -40, ?_, by norm_num, by rw [two_m40]; exact hx⟩
  rw [hx, abs_mul, abs_of_pos (show (0 : ℚ) < 1 / 2 ^ 40 by norm_num)] at h
  have : |(m : ℚ)| ≤ 2 ^ 53 := by
    rw [mul_one_div, div_le_iff₀ (by positivity)] at h
    linarith
  exact_mod_cast this

theorem near_C : near 9999 = 9999 := by decide +kernel
theorem near_C_up : near (9999 + 1 / 2 ^ 40) = 9999 := by decide +kernel

/-- A `double` of the box. -/
structure InBoxQ (q : ℚ) : Prop where
  dbl : near q = q
  nn : 0 ≤ q
  le : q ≤ 9999

theorem InBoxQ.near_of {q : ℚ} (h0 : 0 ≤ q) (h1 : q ≤ 9999 + 1 / 2 ^ 40) : InBoxQ (near q) :=
  ⟨near_near q, near_nonneg h0, by have := near_mono h1; rwa [near_C_up] at this⟩

theorem zero_inBoxQ : InBoxQ 0 := ⟨near_zero, le_refl _, by norm_num⟩
theorem C_inBoxQ : InBoxQ 9999 := ⟨near_C, by norm_num, le_refl _⟩

/-- Labels of different sign. -/
theorem pair_minus {a1 a2 v : ℚ} (h1 : InBoxQ a1) (h2 : InBoxQ a2) (hv : InBoxQ v)
    (hhi : v ≤ near (near (9999 + a2) - a1) ∨ v = a2) :
    (near (a1 + near (v - a2)) < 0 → InBoxQ (near (v - near (a1 + near (v - a2))))) ∧
    (9999 < near (a1 + near (v - a2)) → InBoxQ (near (v - near (near (a1 + near (v - a2)) - 9999)))) := by
  obtain ⟨d1, n1, l1⟩ := h1
  obtain ⟨d2, n2, l2⟩ := h2
  obtain ⟨dv, nv, lv⟩ := hv
  refine ⟨fun hneg => ?_, fun hbig => ?_⟩
  · have e1 : -near (9999 - v) ≤ near (a1 + near (v - a2)) := by
      have k1 : near (v - 9999) ≤ near (v - a2) := near_mono (by linarith)
      have k2 := near_mono (show near (v - 9999) ≤ a1 + near (v - a2) by linarith)
      rw [near_near] at k2
      rw [← near_neg, neg_sub]
      exact k2
    have e2 := abs_le.mp (err14 (x := 9999 - v) (by rw [abs_lt]; constructor <;> linarith))
    exact InBoxQ.near_of (by linarith) (by linarith [e2.2])
  · set n := near (a1 + near (v - a2)) with hn
    have hdv : near (v - a2) ≤ v := by
      have := near_mono (show v - a2 ≤ v by linarith)
      rwa [dv] at this
    have hgt : 9999 < a1 + near (v - a2) := by
      by_contra hh
      have := near_mono (not_lt.mp hh)
      rw [near_C, ← hn] at this
      linarith
    have hpos : a2 < v := by
      by_contra hh
      have := near_mono (show v - a2 ≤ 0 by linarith)
      rw [near_zero] at this
      linarith
    rcases hhi with hhi | hhi
    swap
    · exact absurd hhi (by linarith)
    have key : near (n - 9999) ≤ v := by
      rcases eq_or_lt_of_le l1 with e | hlt
      · subst e
        have hcb : |9999 + a2| < 2 ^ 15 := by rw [abs_lt]; constructor <;> linarith
        have her := abs_le.mp (err15 hcb)
        have hge : (9999 : ℚ) ≤ near (9999 + a2) := by
          have := near_mono (show (9999 : ℚ) ≤ 9999 + a2 by linarith)
          rwa [near_C] at this
        obtain ⟨m, hm⟩ := grid39 (near_near (9999 + a2)) (by linarith)
        have hex : near (near (9999 + a2) - 9999) = near (9999 + a2) - 9999 := by
          apply near_m39 (m - 9999 * 2 ^ 39)
          · rw [hm]; push_cast; ring
          · rw [abs_le]; constructor <;> linarith [her.1, her.2]
        rw [hex] at hhi
        rcases le_or_gt a2 6000 with ha | ha
        · exfalso
          have her' := abs_le.mp (err14 (x := 9999 + a2) (by rw [abs_lt]; constructor <;> linarith))
          have hd := near_mono (show v - a2 ≤ 1 / 2 ^ 40 by linarith [her'.2])
          rw [show near (1 / 2 ^ 40) = 1 / 2 ^ 40 by decide +kernel] at hd
          have := near_mono (show 9999 + near (v - a2) ≤ 9999 + 1 / 2 ^ 40 by linarith)
          rw [near_C_up, ← hn] at this
          linarith
        · have hd := near_mono (show v - a2 ≤ 1 / 2 ^ 39 by linarith [her.2])
          rw [show near (1 / 2 ^ 39) = 1 / 2 ^ 39 by decide +kernel] at hd
          have := near_mono (show 9999 + near (v - a2) ≤ 9999 + 1 / 2 ^ 39 by linarith)
          rw [show near (9999 + 1 / 2 ^ 39) = 9999 + 1 / 2 ^ 39 by decide +kernel, ← hn] at this
          have h3 := near_mono (show n - 9999 ≤ 1 by linarith)
          rw [show near 1 = 1 by decide +kernel] at h3
          linarith
      · have hle : a1 ≤ 9999 - 1 / 2 ^ 39 := by
          rcases le_or_gt (2 ^ 13) a1 with hb | hb
          · obtain ⟨m, hm⟩ := grid39 d1 hb
            have : m < 9999 * 2 ^ 39 := by
              rw [hm] at hlt
              have : (m : ℚ) < 9999 * 2 ^ 39 := by
                rw [mul_one_div, div_lt_iff₀ (by positivity)] at hlt
                exact hlt
              exact_mod_cast this
            have h4 : m ≤ 9999 * 2 ^ 39 - 1 := by omega
            have h5 : (m : ℚ) ≤ 9999 * 2 ^ 39 - 1 := by exact_mod_cast h4
            rw [hm]
            rw [mul_one_div, div_le_iff₀ (by positivity)]
            linarith
          · norm_num at hb ⊢; linarith
        have hb : |a1 + near (v - a2)| < 2 ^ 15 := by rw [abs_lt]; constructor <;> linarith
        have her := abs_le.mp (err15 hb)
        rw [← hn] at her
        have := near_mono (show n - 9999 ≤ v by linarith [her.2])
        rwa [dv] at this
    have h0 : 0 ≤ near (n - 9999) := near_nonneg (by linarith)
    exact InBoxQ.near_of (by linarith) (by linarith)

/-- Labels of the same sign. -/
theorem pair_plus {a1 a2 v : ℚ} (h1 : InBoxQ a1) (h2 : InBoxQ a2) (hv : InBoxQ v)
    (hlo : near (near (a2 + a1) - 9999) ≤ v ∨ v = a2) :
    (near (a1 - near (v - a2)) < 0 → InBoxQ (near (v + near (a1 - near (v - a2))))) ∧
    (9999 < near (a1 - near (v - a2)) → InBoxQ (near (v + near (near (a1 - near (v - a2)) - 9999)))) := by
  obtain ⟨d1, n1, l1⟩ := h1
  obtain ⟨d2, n2, l2⟩ := h2
  obtain ⟨dv, nv, lv⟩ := hv
  refine ⟨fun hneg => ?_, fun hbig => ?_⟩
  · have hdv : near (v - a2) ≤ v := by
      have := near_mono (show v - a2 ≤ v by linarith)
      rwa [dv] at this
    have h3 := near_mono (show -v ≤ a1 - near (v - a2) by linarith)
    rw [near_neg, dv] at h3
    exact InBoxQ.near_of (by linarith) (by linarith)
  · set n := near (a1 - near (v - a2)) with hn
    have hw : near (v - a2) = -near (a2 - v) := by rw [← near_neg, neg_sub]
    have hgt : 9999 < a1 - near (v - a2) := by
      by_contra hh
      have := near_mono (not_lt.mp hh)
      rw [near_C, ← hn] at this
      linarith
    rw [hw] at hgt
    have hpos : v < a2 := by
      by_contra hh
      have := near_mono (show a2 - v ≤ 0 by linarith)
      rw [near_zero] at this
      linarith
    rcases hlo with hlo | hlo
    swap
    · exact absurd hlo (by linarith)
    have b1 := abs_le.mp (err15 (x := a2 + a1) (by rw [abs_lt]; constructor <;> linarith))
    have b2 := abs_le.mp (err15 (x := near (a2 + a1) - 9999) (by rw [abs_lt]; constructor <;> linarith [b1.1, b1.2]))
    have b3 := abs_le.mp (err14 (x := a2 - v) (by rw [abs_lt]; constructor <;> linarith))
    have b4 := abs_le.mp (err14 (x := a1 - near (v - a2)) (by
      rw [hw, abs_lt]; constructor <;> linarith [b1.1, b2.1, b3.1, b3.2]))
    rw [← hn, hw] at b4
    obtain ⟨m, hm⟩ := grid39 (x := n) (by rw [hn]; exact near_near _) (by linarith)
    have hex : near (n - 9999) = n - 9999 := by
      apply near_m39 (m - 9999 * 2 ^ 39)
      · rw [hm]; push_cast; ring
      · rw [abs_le]; constructor <;> linarith [b1.1, b2.1, b3.2, b4.2]
    rw [hex]
    rcases le_or_gt (2 ^ 12) v with hb | hb
    · obtain ⟨mv, hmv⟩ := grid40 dv hb
      obtain ⟨ma, hma⟩ := grid40 d2 (by linarith)
      have hexw : near (a2 - v) = a2 - v := by
        apply near_m40 (ma - mv)
        · rw [hma, hmv]; push_cast; ring
        · rw [abs_le]; constructor <;> linarith
      rw [hexw] at b4
      exact InBoxQ.near_of (by linarith) (by linarith [b4.2])
    · exact InBoxQ.near_of (by linarith) (by linarith [b1.1, b2.1, b3.2, b4.2])

end MLTK.Fp
