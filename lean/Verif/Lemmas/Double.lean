import Verif.Model.Double
import Mathlib.Tactic.Linarith
import Mathlib.Tactic.FieldSimp
import Mathlib.Tactic.NormNum
import Mathlib.Tactic.Positivity
import Mathlib.Algebra.Order.Floor.Ring
/-! Lemmas about the arithmetic of `double`. -/
namespace MLTK.Fp

theorem two_eq (e : ℤ) : two e = (2 : ℚ) ^ e := by
  unfold two
  split
  · rename_i h
    obtain ⟨n, rfl⟩ := Int.eq_ofNat_of_zero_le h
    simp
  · rename_i h
    obtain ⟨n, hn⟩ := Int.eq_ofNat_of_zero_le (a := -e) (by omega)
    obtain rfl : e = -(n : ℤ) := by omega
    simp [Rat.mkRat_eq_div]

theorem two_pos (e : ℤ) : 0 < two e := by rw [two_eq]; exact zpow_pos (by norm_num) e

theorem two_add (a b : ℤ) : two (a + b) = two a * two b := by simp only [two_eq]; rw [zpow_add₀ (by norm_num)]

theorem two_le {a b : ℤ} (h : a ≤ b) : two a ≤ two b := by
  simp only [two_eq]; exact zpow_le_zpow_right₀ (by norm_num) h

theorem two_lt {a b : ℤ} (h : a < b) : two a < two b := by
  simp only [two_eq]; exact zpow_lt_zpow_right₀ (by norm_num) h

theorem lt_of_two_lt {a b : ℤ} (h : two a < two b) : a < b := by
  rcases lt_or_ge a b with h' | h'
  · exact h'
  · exact absurd (two_le h') (not_le.mpr h)

theorem two_nat (n : ℕ) : two (n : ℤ) = ((2 ^ n : ℕ) : ℚ) := by simp [two_eq]

/-- A power of two over a smaller one is an integer. -/
theorem two_div_int {a b : ℤ} (h : b ≤ a) : ∃ m : ℤ, two a / two b = (m : ℚ) ∧ two a = (m : ℚ) * two b := by
  obtain ⟨n, hn⟩ := Int.eq_ofNat_of_zero_le (a := a - b) (by omega)
  have : a = (n : ℤ) + b := by omega
  refine ⟨2 ^ n, ?_, ?_⟩
  · rw [this, two_add, mul_div_assoc, div_self (two_pos b).ne', mul_one, two_nat]; push_cast; rfl
  · rw [this, two_add, two_nat]; push_cast; rfl

theorem lg_spec {q : ℚ} (hq : 0 < q) : two (lg q) ≤ q ∧ q < two (lg q + 1) := by
  have hn : q.num.natAbs ≠ 0 := by
    intro h; rw [Int.natAbs_eq_zero] at h; exact hq.ne' (Rat.zero_of_num_zero h)
  have hd : q.den ≠ 0 := q.den_nz
  have ha1 : 2 ^ (Nat.log2 q.num.natAbs) ≤ q.num.natAbs := (Nat.le_log2 hn).mp le_rfl
  have ha2 : q.num.natAbs < 2 ^ (Nat.log2 q.num.natAbs + 1) := (Nat.log2_lt hn).mp (Nat.lt_succ_self _)
  have hb1 : 2 ^ (Nat.log2 q.den) ≤ q.den := (Nat.le_log2 hd).mp le_rfl
  have hb2 : q.den < 2 ^ (Nat.log2 q.den + 1) := (Nat.log2_lt hd).mp (Nat.lt_succ_self _)
  set a := Nat.log2 q.num.natAbs with ha
  set b := Nat.log2 q.den with hb
  have hqe : q = (q.num.natAbs : ℚ) / (q.den : ℚ) := by
    have h1 : ((q.num.natAbs : ℤ)) = q.num := Int.natAbs_of_nonneg (Rat.num_nonneg.mpr hq.le)
    have h2 : (q.num.natAbs : ℚ) = (q.num : ℚ) := by rw [← h1]; simp
    rw [h2]; exact (Rat.num_div_den q).symm
  have hdpos : (0 : ℚ) < q.den := by exact_mod_cast Nat.pos_of_ne_zero hd
  have hup : q < two ((a : ℤ) - b + 1) := by
    have : two ((a : ℤ) - b + 1) = ((2 ^ (a + 1) : ℕ) : ℚ) / ((2 ^ b : ℕ) : ℚ) := by
      rw [eq_div_iff (by positivity), ← two_nat, ← two_nat, ← two_add]; congr 1; push_cast; ring
    rw [this, hqe]
    have h1 : (q.num.natAbs : ℚ) < ((2 ^ (a + 1) : ℕ) : ℚ) := by exact_mod_cast ha2
    have h2 : (((2 ^ b : ℕ) : ℚ)) ≤ q.den := by exact_mod_cast hb1
    have hbp : (0 : ℚ) < ((2 ^ b : ℕ) : ℚ) := by positivity
    calc (q.num.natAbs : ℚ) / q.den < ((2 ^ (a + 1) : ℕ) : ℚ) / q.den := by gcongr
      _ ≤ _ := by gcongr
  have hlo : two ((a : ℤ) - b - 1) ≤ q := by
    have : two ((a : ℤ) - b - 1) = ((2 ^ a : ℕ) : ℚ) / ((2 ^ (b + 1) : ℕ) : ℚ) := by
      rw [eq_div_iff (by positivity), ← two_nat, ← two_nat, ← two_add]; congr 1; push_cast; ring
    rw [this]
    conv_rhs => rw [hqe]
    have h1 : (((2 ^ a : ℕ)) : ℚ) ≤ q.num.natAbs := by exact_mod_cast ha1
    have h2 : (q.den : ℚ) ≤ ((2 ^ (b + 1) : ℕ) : ℚ) := by exact_mod_cast hb2.le
    calc ((2 ^ a : ℕ) : ℚ) / ((2 ^ (b + 1) : ℕ) : ℚ) ≤ ((2 ^ a : ℕ) : ℚ) / q.den := by gcongr
      _ ≤ _ := by gcongr
  unfold lg
  simp only [← ha, ← hb]
  split
  · rename_i h
    exact ⟨h, hup⟩
  · rename_i h
    refine ⟨hlo, ?_⟩
    have : (a : ℤ) - b - 1 + 1 = (a : ℤ) - b := by ring
    rw [this]
    exact not_le.mp h

theorem lg_le {q : ℚ} (hq : 0 < q) {e : ℤ} (h : q < two (e + 1)) : lg q ≤ e := by
  have := lt_of_two_lt (lt_of_le_of_lt (lg_spec hq).1 h)
  omega

theorem lg_mono {p q : ℚ} (hp : 0 < p) (h : p ≤ q) : lg p ≤ lg q :=
  lg_le hp (lt_of_le_of_lt h (lg_spec (hp.trans_le h)).2)

/-! ## Rounding to integers -/

theorem rne_bounds (q : ℚ) : ⌊q⌋ ≤ rne q ∧ rne q ≤ ⌊q⌋ + 1 := by
  unfold rne; split_ifs <;> omega

theorem rne_int (m : ℤ) : rne (m : ℚ) = m := by
  unfold rne; simp

theorem rne_mono {p q : ℚ} (h : p ≤ q) : rne p ≤ rne q := by
  have hf : ⌊p⌋ ≤ ⌊q⌋ := Int.floor_le_floor h
  rcases hf.lt_or_eq with h' | h'
  · have := (rne_bounds p).2; have := (rne_bounds q).1; omega
  · unfold rne
    rw [h']
    split_ifs <;> first | omega | (exfalso; linarith)

theorem rne_neg (q : ℚ) : rne (-q) = -rne q := by
  by_cases hi : q = (⌊q⌋ : ℚ)
  · have : (-q) = ((-⌊q⌋ : ℤ) : ℚ) := by rw [hi]; simp
    rw [this, rne_int]
    conv_rhs => rw [hi, rne_int]
  · have h1 : (⌊q⌋ : ℚ) < q := lt_of_le_of_ne (Int.floor_le q) (fun h => hi h.symm)
    have h2 : q < ⌊q⌋ + 1 := Int.lt_floor_add_one q
    have hfl : ⌊-q⌋ = -⌊q⌋ - 1 := by
      rw [Int.floor_eq_iff]; push_cast; constructor <;> linarith
    unfold rne
    rw [hfl]; push_cast
    split_ifs <;> first | omega | (exfalso; linarith)

theorem rne_near (q : ℚ) : |(rne q : ℚ) - q| ≤ 1 / 2 := by
  have h1 : (⌊q⌋ : ℚ) ≤ q := Int.floor_le q
  have h2 : q < ⌊q⌋ + 1 := Int.lt_floor_add_one q
  unfold rne
  rw [abs_le]
  split_ifs <;> push_cast <;> constructor <;> linarith

/-! ## Rounding to the grid of `double`s -/

theorem ulpExp_neg (q : ℚ) : ulpExp (-q) = ulpExp q := by unfold ulpExp; simp

theorem near_zero : near 0 = 0 := by
  unfold near; simp [show rne 0 = 0 from by simpa using rne_int 0]

theorem near_neg (q : ℚ) : near (-q) = -near q := by
  unfold near; rw [ulpExp_neg, neg_div, rne_neg]; push_cast; ring

theorem ulpExp_ge (q : ℚ) : -1074 ≤ ulpExp q := by unfold ulpExp; split_ifs <;> omega

theorem ulpExp_pos {q : ℚ} (hq : 0 < q) : ulpExp q = max (lg q - 52) (-1074) := by
  unfold ulpExp; rw [if_neg hq.ne', abs_of_pos hq]

/-- Numbers with at most 53 binary digits, none below `2 ^ -1074`. -/
def OnGrid (q : ℚ) : Prop := ∃ m e : ℤ, |m| ≤ 2 ^ 53 ∧ -1074 ≤ e ∧ q = (m : ℚ) * two e

theorem OnGrid.neg {q : ℚ} (h : OnGrid q) : OnGrid (-q) := by
  obtain ⟨m, e, h1, h2, h3⟩ := h
  exact ⟨-m, e, by rwa [abs_neg], h2, by rw [h3]; push_cast; ring⟩

theorem near_of_grid_pos {q : ℚ} (hq : 0 < q) (h : OnGrid q) : near q = q := by
  obtain ⟨m, e, h1, h2, h3⟩ := h
  have hmpos : 0 < m := by
    by_contra hm
    have : (m : ℚ) ≤ 0 := by exact_mod_cast (not_lt.mp hm)
    have := two_pos e
    nlinarith
  -- it is enough that the spacing divides the number
  have key : ∃ k : ℤ, q = (k : ℚ) * two (ulpExp q) := by
    rcases lt_or_eq_of_le h1 with h1 | h1
    · have hlt : q < two (e + 52 + 1) := by
        have : (m : ℚ) < ((2 ^ 53 : ℕ) : ℚ) := by rw [abs_of_pos hmpos] at h1; exact_mod_cast h1
        have h53 : two (e + 52 + 1) = ((2 ^ 53 : ℕ) : ℚ) * two e := by
          rw [show e + 52 + 1 = ((53 : ℕ) : ℤ) + e by push_cast; ring, two_add, two_nat]
        rw [h3, h53]
        exact mul_lt_mul_of_pos_right this (two_pos e)
      have hle : ulpExp q ≤ e := by
        rw [ulpExp_pos hq]; have := lg_le hq hlt; omega
      obtain ⟨k, _, hk⟩ := two_div_int hle
      refine ⟨m * k, ?_⟩
      calc q = (m : ℚ) * two e := h3
        _ = (m : ℚ) * ((k : ℚ) * two (ulpExp q)) := by rw [← hk]
        _ = _ := by push_cast; ring
    · rw [abs_of_pos hmpos] at h1
      have hqe : q = two (e + 53) := by
        rw [h3, h1, add_comm, two_add, show ((53 : ℤ)) = ((53 : ℕ) : ℤ) by rfl, two_nat]; push_cast; rfl
      have hle : ulpExp q ≤ e + 53 := by
        have : lg q ≤ e + 53 := lg_le hq (by rw [hqe]; exact two_lt (by omega))
        rw [ulpExp_pos hq]; omega
      obtain ⟨k, _, hk⟩ := two_div_int hle
      exact ⟨k, by rw [hqe] at hk ⊢; exact hk⟩
  obtain ⟨k, hk⟩ := key
  unfold near
  have hdiv : q / two (ulpExp q) = (k : ℚ) := by
    rw [div_eq_iff (two_pos _).ne']; exact hk
  rw [hdiv, rne_int]; exact hk.symm

theorem near_of_grid {q : ℚ} (h : OnGrid q) : near q = q := by
  rcases lt_trichotomy q 0 with hq | hq | hq
  · have := near_of_grid_pos (q := -q) (by linarith) h.neg
    rw [near_neg] at this; linarith
  · rw [hq, near_zero]
  · exact near_of_grid_pos hq h

theorem near_grid_pos {q : ℚ} (hq : 0 < q) : OnGrid (near q) := by
  refine ⟨rne (q / two (ulpExp q)), ulpExp q, ?_, ulpExp_ge q, rfl⟩
  have hb : q / two (ulpExp q) ≤ ((2 ^ 53 : ℤ) : ℚ) := by
    rw [div_le_iff₀ (two_pos _)]
    have h1 := (lg_spec hq).2
    have h2 : two (lg q + 1) ≤ ((2 ^ 53 : ℕ) : ℚ) * two (ulpExp q) := by
      rw [← two_nat, ← two_add]
      exact two_le (by rw [ulpExp_pos hq]; push_cast; omega)
    push_cast at h2 ⊢
    linarith
  have h0 : (0 : ℚ) ≤ q / two (ulpExp q) := div_nonneg hq.le (two_pos _).le
  have hu := rne_mono hb
  have hl := rne_mono h0
  rw [rne_int] at hu
  have : rne 0 = 0 := by simpa using rne_int 0
  rw [this] at hl
  rw [abs_of_nonneg hl]; exact hu

theorem near_grid (q : ℚ) : OnGrid (near q) := by
  rcases lt_trichotomy q 0 with hq | hq | hq
  · have := (near_grid_pos (q := -q) (by linarith)).neg
    rwa [near_neg, neg_neg] at this
  · rw [hq, near_zero]; exact ⟨0, 0, by norm_num, by norm_num, by simp⟩
  · exact near_grid_pos hq

theorem near_near (q : ℚ) : near (near q) = near q := near_of_grid (near_grid q)

theorem near_nonneg {q : ℚ} (hq : 0 ≤ q) : 0 ≤ near q := by
  unfold near
  have h0 : (0 : ℚ) ≤ q / two (ulpExp q) := div_nonneg hq (two_pos _).le
  have hl := rne_mono h0
  rw [show rne 0 = 0 by simpa using rne_int 0] at hl
  exact mul_nonneg (by exact_mod_cast hl) (two_pos _).le

private theorem near_mono_pos {p q : ℚ} (hp : 0 < p) (h : p ≤ q) : near p ≤ near q := by
  have hq := hp.trans_le h
  have hlg := lg_mono hp h
  by_cases hu : ulpExp p = ulpExp q
  · unfold near
    rw [hu]
    refine mul_le_mul_of_nonneg_right ?_ (two_pos _).le
    exact_mod_cast rne_mono (by gcongr; exact (two_pos _).le)
  · rw [ulpExp_pos hp, ulpExp_pos hq] at hu
    have hlt : lg p + 1 ≤ lg q := by
      rcases hlg.lt_or_eq with h' | h'
      · omega
      · rw [h'] at hu; exact absurd rfl hu
    have huq : ulpExp q = lg q - 52 := by rw [ulpExp_pos hq]; omega
    have hup : ulpExp p ≤ lg q := by rw [ulpExp_pos hp]; omega
    have hpq : p ≤ two (lg q) := (lg_spec hp).2.le.trans (two_le hlt)
    have h1 : near p ≤ two (lg q) := by
      obtain ⟨k, hk, hk'⟩ := two_div_int hup
      unfold near
      have : rne (p / two (ulpExp p)) ≤ k := by
        rw [← rne_int k, ← hk]
        exact rne_mono (by gcongr; exact (two_pos _).le)
      rw [hk']
      exact mul_le_mul_of_nonneg_right (by exact_mod_cast this) (two_pos _).le
    have h2 : two (lg q) ≤ near q := by
      obtain ⟨k, hk, hk'⟩ := two_div_int (show ulpExp q ≤ lg q by omega)
      unfold near
      have : k ≤ rne (q / two (ulpExp q)) := by
        rw [← rne_int k, ← hk]
        exact rne_mono (by gcongr; exacts [(two_pos _).le, (lg_spec hq).1])
      rw [hk']
      exact mul_le_mul_of_nonneg_right (by exact_mod_cast this) (two_pos _).le
    linarith

/-- Rounding keeps the order. -/
theorem near_mono {p q : ℚ} (h : p ≤ q) : near p ≤ near q := by
  rcases lt_or_ge 0 p with hp | hp
  · exact near_mono_pos hp h
  · rcases lt_or_ge q 0 with hq | hq
    · have := near_mono_pos (p := -q) (q := -p) (by linarith) (by linarith)
      rw [near_neg, near_neg] at this; linarith
    · have h1 := near_nonneg (q := -p) (by linarith)
      rw [near_neg] at h1
      have h2 := near_nonneg hq
      linarith

theorem grid_int {m : ℤ} (h : |m| ≤ 2 ^ 53) : OnGrid (m : ℚ) :=
  ⟨m, 0, h, by norm_num, by simp [two_eq]⟩

theorem near_int {m : ℤ} (h : |m| ≤ 2 ^ 53) : near (m : ℚ) = m := near_of_grid (grid_int h)

theorem near_nat {n : ℕ} (h : n ≤ 2 ^ 53) : near (n : ℚ) = n := by
  have := near_int (m := (n : ℤ)) (by rw [abs_of_nonneg (by positivity)]; exact_mod_cast h)
  simpa using this

/-- A number rounded is at most half a unit in the last place away. -/
theorem near_err (q : ℚ) : |near q - q| ≤ two (ulpExp q) / 2 := by
  have h := rne_near (q / two (ulpExp q))
  have hp := two_pos (ulpExp q)
  unfold near
  have : (rne (q / two (ulpExp q)) : ℚ) * two (ulpExp q) - q = ((rne (q / two (ulpExp q)) : ℚ) - q / two (ulpExp q)) * two (ulpExp q) := by
    field_simp
  rw [this, abs_mul, abs_of_pos hp]
  nlinarith

/-- Relative error of rounding for numbers that are not tiny. -/
theorem near_rel {q : ℚ} (h : two (-1022) ≤ |q|) : |near q - q| ≤ |q| * two (-53) := by
  have hq : 0 < |q| := (two_pos _).trans_le h
  have h0 : q ≠ 0 := abs_pos.mp hq
  refine (near_err q).trans ?_
  have hu : ulpExp q = lg |q| - 52 := by
    unfold ulpExp
    rw [if_neg h0]
    have : (-1022 : ℤ) ≤ lg |q| := by
      have := lt_of_two_lt (lt_of_le_of_lt h (lg_spec hq).2)
      omega
    omega
  have h1 := (lg_spec hq).1
  rw [hu]
  have h2 : two (lg |q| - 52) / 2 = two (lg |q|) * two (-53) := by
    rw [← two_add, show lg |q| + -53 = (lg |q| - 52) + (-1) by ring, two_add, show two (-1) = 1 / 2 by decide +kernel]; ring
  rw [h2]
  exact mul_le_mul_of_nonneg_right h1 (two_pos _).le

/-! ## `rnd` -/

theorem huge_pos : 0 < huge := by unfold huge; positivity

theorem rnd_fin {q : ℚ} (h : |near q| < huge) : rnd q = .fin (near q) := by
  rw [abs_lt] at h
  unfold rnd
  rw [if_neg (by linarith [h.1]), if_neg (by linarith [h.2])]

theorem rnd_fin_inv {q x : ℚ} (h : rnd q = .fin x) : x = near q ∧ |x| < huge := by
  unfold rnd at h
  split_ifs at h with h1 h2
  injection h with h
  subst h
  exact ⟨rfl, abs_lt.mpr ⟨not_le.mp h1, not_le.mp h2⟩⟩

theorem rnd_neg (q : ℚ) : rnd (-q) = (rnd q).neg := by
  have := huge_pos
  unfold rnd
  rw [near_neg]
  split_ifs <;> first | rfl | (exfalso; linarith)

/-- The finite values of `double`. -/
def IsDbl (q : ℚ) : Prop := rnd q = .fin q

instance (q : ℚ) : Decidable (IsDbl q) := inferInstanceAs (Decidable (rnd q = .fin q))

theorem isDbl_iff {q : ℚ} : IsDbl q ↔ near q = q ∧ |q| < huge := by
  constructor
  · intro h; obtain ⟨h1, h2⟩ := rnd_fin_inv h; exact ⟨h1.symm, h2⟩
  · rintro ⟨h1, h2⟩; unfold IsDbl; rw [rnd_fin (by rwa [h1]), h1]

theorem rnd_isDbl {q x : ℚ} (h : rnd q = .fin x) : IsDbl x := by
  obtain ⟨rfl, h2⟩ := rnd_fin_inv h
  exact isDbl_iff.mpr ⟨near_near q, h2⟩

theorem IsDbl.neg {q : ℚ} (h : IsDbl q) : IsDbl (-q) := by
  unfold IsDbl at *; rw [rnd_neg, h]; rfl

theorem nat_lt_huge {n : ℕ} (h : n ≤ 2 ^ 53) : (n : ℚ) < huge := by
  have h1 : (n : ℚ) ≤ ((2 ^ 53 : ℕ) : ℚ) := by exact_mod_cast h
  have h2 : ((2 ^ 53 : ℕ) : ℚ) < huge := by decide +kernel
  linarith

theorem isDbl_nat {n : ℕ} (h : n ≤ 2 ^ 53) : IsDbl (n : ℚ) :=
  isDbl_iff.mpr ⟨near_nat h, by rw [abs_of_nonneg (by positivity)]; exact nat_lt_huge h⟩

theorem ofNat_eq {n : ℕ} (h : n ≤ 2 ^ 53) : Dbl.ofNat n = .fin (n : ℚ) := isDbl_nat h

/-- Between two finite values rounding stays between them. -/
theorem rnd_between {a b q : ℚ} (ha : IsDbl a) (hb : IsDbl b) (h1 : a ≤ q) (h2 : q ≤ b) :
    ∃ x, rnd q = .fin x ∧ a ≤ x ∧ x ≤ b ∧ x = near q := by
  obtain ⟨ha1, ha2⟩ := isDbl_iff.mp ha
  obtain ⟨hb1, hb2⟩ := isDbl_iff.mp hb
  have k1 := near_mono h1
  have k2 := near_mono h2
  rw [ha1] at k1
  rw [hb1] at k2
  rw [abs_lt] at ha2 hb2
  exact ⟨near q, rnd_fin (abs_lt.mpr ⟨by linarith, by linarith⟩), k1, k2, rfl⟩

end MLTK.Fp
