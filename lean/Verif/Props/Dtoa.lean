import Verif.Lemmas.Dtoa
/-!
# C147-C148: the text of a number and reading it back
-/
namespace MLTK.Props
open MLTK MLTK.Text MLTK.Spec
open MLTK.Data (Res_bind_ok Res_bind_error Res_pure)

theorem dtoa_of (n : ℚ) (hn : n ≠ 0) (s : List Char) (h : dtoaChars n = .ok s) (hs : s.length ≤ 31) : dtoa n = .ok s := by
  simp only [dtoa, if_neg hn, h, Res_bind_ok]
  rw [if_pos (by omega)]

theorem signed_abs (n : ℚ) : (if n < 0 then (-1 : ℚ) else 1) * |n| = n := by
  by_cases h : n < 0
  · rw [if_pos h, abs_of_neg h]; ring
  · rw [if_neg h, abs_of_nonneg (not_lt.1 h)]; ring

theorem signText_of (n : ℚ) : SignText (if n < 0 then ['-'] else []) (if n < 0 then -1 else 1) := by
  by_cases h : n < 0
  · rw [if_pos h, if_pos h]; exact .minus
  · rw [if_neg h, if_neg h]; exact .none

theorem sign_abs_one (n : ℚ) : |if n < 0 then (-1 : ℚ) else 1| = 1 := by
  by_cases h : n < 0
  · rw [if_pos h]; norm_num
  · rw [if_neg h]; norm_num

/-- `n` and its text agree in sign, the text is not the larger in size, and they differ by at most `err`. -/
theorem signed_close (n w err : ℚ) (hw : 0 ≤ w) (h1 : 0 ≤ |n| - w) (h2 : |n| - w ≤ err) :
    0 ≤ n * ((if n < 0 then (-1 : ℚ) else 1) * w) ∧ |(if n < 0 then (-1 : ℚ) else 1) * w| ≤ |n| ∧
      |n - (if n < 0 then (-1 : ℚ) else 1) * w| ≤ err := by
  refine ⟨?_, ?_, ?_⟩
  · by_cases h : n < 0
    · rw [if_pos h]; nlinarith
    · rw [if_neg h]; have := not_lt.1 h; nlinarith
  · rw [abs_mul, sign_abs_one, one_mul, abs_of_nonneg hw]; linarith
  · have : n - (if n < 0 then (-1 : ℚ) else 1) * w = (if n < 0 then (-1 : ℚ) else 1) * (|n| - w) := by
      rw [mul_sub, signed_abs]
    rw [this, abs_mul, sign_abs_one, one_mul, abs_of_nonneg h1]; exact h2

/-- **C147 (partial: plain notation)** For every number of size above 10⁻⁹ that is below 10¹⁴ and above -10⁹, the text is
a decimal without exponent whose value has the sign of the number, is not larger in size and is at most 10⁻⁹ away.
Missing: the other numbers (below). -/
theorem C147_plain_partial (n : ℚ) (hlo : 1 / 10 ^ 9 < |n|) (hhi : n < 10 ^ 14) (hneg : -10 ^ 9 < n) :
    ∃ s v, dtoa n = .ok s ∧ Decimal s v ∧ 0 ≤ n * v ∧ |v| ≤ |n| ∧ |n - v| ≤ 1 / 10 ^ 9 := by
  obtain ⟨M, is, fs, point, hr, hM, _, k2, k3, k4, k5, k6, k7, k8, k9, k10, k11⟩ := plain_run n hlo hhi hneg
  have hn : n ≠ 0 := by rintro rfl; simp at hlo; norm_num at hlo
  have hpl : point.length ≤ 1 := by rw [k6]; split <;> simp
  obtain ⟨c1, c2, c3⟩ := signed_close n (digitsValue is + digitsValue fs / 10 ^ fs.length) precision (by positivity) k10 k11
  refine ⟨_, _, dtoa_of n hn _ hr ?_, ⟨if n < 0 then ['-'] else [], if n < 0 then -1 else 1, is, fs, point,
    signText_of n, k2, k3, ?_, ?_, by simp [List.append_assoc], rfl⟩, c1, c2, c3⟩
  · have : (if n < 0 then ['-'] else []).length ≤ 1 := by split <;> simp
    simp only [List.length_append, List.length_map]; omega
  · intro h
    have := congrArg List.length h
    simp only [List.length_append, List.length_nil] at this; omega
  · by_cases h : (digitsValue is : ℚ) < |n|
    · left; rw [k6, if_pos h]
    · right; have e : point = [] := by rw [k6, if_neg h]
      exact ⟨e, k7 e⟩

/-- **C147 (integers)** are written as their numerals: no point, no superfluous zero. -/
theorem C147_integer_partial (k : Int) (h1 : -10 ^ 9 < k) (h2 : k < 10 ^ 14) : ∃ s, dtoa (k : ℚ) = .ok s ∧ IsNumeral k s := by
  by_cases hk : k = 0
  · subst hk
    exact ⟨['0'], by simp [dtoa], [0], by simp, by simp, by simp, by simp [digitsValue], by simp [digitChar]⟩
  · have hk1 : 1 ≤ |k| := Int.one_le_abs hk
    have habs : |(k : ℚ)| = ((k.natAbs : Nat) : ℚ) := by rw [← Int.cast_abs, Int.abs_eq_natAbs]; simp
    have hlo : precision < |(k : ℚ)| := by
      have : (1 : ℚ) ≤ |(k : ℚ)| := by rw [← Int.cast_abs]; exact_mod_cast hk1
      exact lt_of_lt_of_le (by norm_num [precision]) this
    obtain ⟨M, is, fs, point, hr, hM, hM', l2, l3, l4, l5, l6, l7, l8, l9, l10, l11⟩ :=
      plain_run (k : ℚ) hlo (by exact_mod_cast h2) (by exact_mod_cast h1)
    rw [habs] at l8 l9 hM' l6
    have hv : digitsValue is = k.natAbs := by
      have a : digitsValue is ≤ k.natAbs := by exact_mod_cast l8
      have b : k.natAbs < digitsValue is + 1 := by exact_mod_cast l9
      omega
    have hp : point = [] := by rw [l6, if_neg (by rw [hv]; simp)]
    have hf : fs = [] := l7 hp
    subst hf; subst hp
    have hlen : ((if (k : ℚ) < 0 then ['-'] else []) ++ (is.map digitChar ++ [] ++ [].map digitChar)).length ≤ 31 := by
      have : (if (k : ℚ) < 0 then ['-'] else []).length ≤ 1 := by split <;> simp
      simp only [List.length_append, List.length_map, List.length_nil]; omega
    refine ⟨_, dtoa_of _ (by exact_mod_cast hk) _ hr hlen, is, ?_, l2, ?_, hv, ?_⟩
    · rintro rfl; simp at l4
    · intro h0
      rcases hM' with h | h
      · subst h
        cases is with
        | nil => simp at l4
        | cons a as =>
          simp at h0 l4
          rw [h0, l4]
      · exfalso
        cases is with
        | nil => simp at l4
        | cons a as =>
          simp only [List.head?_cons, Option.some.injEq] at h0
          subst h0
          have hlt := digitsValue_lt as (fun k hk => l2 k (List.mem_cons_of_mem _ hk))
          have e : digitsValue (0 :: as) = digitsValue as := by simp [digitsValue]
          have hl : as.length = M := by simpa using l4
          rw [e] at hv
          rw [hv, hl] at hlt
          have h' : 10 ^ M ≤ k.natAbs := by exact_mod_cast h
          omega
    · simp [Int.cast_lt_zero]

example : ∃ s, dtoa ((-120 : Int) : ℚ) = .ok s ∧ IsNumeral (-120) s := C147_integer_partial _ (by norm_num) (by norm_num)

/-- the mantissa and the exponent of the scientific notation -/
theorem sci_close (n : ℚ) (m1 : Int) (e : Nat) (he : m1 = e ∨ m1 = -e) (he0 : e ≠ 0) (he1 : e < 1000)
    (hu : magnitude |n| ≥ 14 ∨ (n < 0 ∧ magnitude |n| ≥ 9) ∨ magnitude |n| ≤ -9)
    (hm1 : (if magnitude |n| < 0 then magnitude |n| - 1 else magnitude |n|) = m1)
    (hx1 : 1 ≤ |n| / 10 ^ m1) (hx : |n| / 10 ^ m1 < 10) (hn : n ≠ 0) :
    ∃ s v, dtoa n = .ok s ∧ Denotes s v ∧ 0 ≤ n * v ∧ |v| ≤ |n| ∧ |n - v| ≤ 1 / 10 ^ 9 * |n| ∧
      ∃ mv, Decimal (s.takeWhile (· ≠ 'e')) mv ∧ atod s = mv ∧ |mv| < 10 ∧ 1 ≤ |mv| := by
  obtain ⟨is, fs, point, hr, k2, k3, k4, k5, k6, k7, k8, k9, k10, k11⟩ := sci_run n m1 hu hm1 hx
  obtain ⟨es, e1, e2, e3, e4, e5⟩ := exponentDigits_spec e he0 (by omega)
  have hna : m1.natAbs = e := by omega
  have hexp : exponentDigits 10 m1.natAbs = es.map digitChar := by rw [hna, e1]
  have hpl : point.length ≤ 1 := by rw [k6]; split <;> simp
  have hpow : (0 : ℚ) < 10 ^ m1 := zpow_pos (by norm_num) m1
  set w : ℚ := digitsValue is + digitsValue fs / 10 ^ fs.length with hw
  have hw0 : 0 ≤ w := by positivity
  have hmn : |n| / 10 ^ m1 * 10 ^ m1 = |n| := div_mul_cancel₀ _ hpow.ne'
  obtain ⟨c1, c2, c3⟩ := signed_close n (w * 10 ^ m1) (1 / 10 ^ 9 * |n|) (mul_nonneg hw0 hpow.le)
    (by have := mul_nonneg k10 hpow.le; rw [sub_mul, hmn] at this; exact this)
    (by
      have h1 := mul_le_mul_of_nonneg_right k11 hpow.le
      rw [sub_mul, hmn] at h1
      have h2 : (10 : ℚ) ^ m1 ≤ |n| := by
        have := mul_le_mul_of_nonneg_right hx1 hpow.le
        rw [hmn, one_mul] at this; exact this
      have h3 : precision * 10 ^ m1 ≤ 1 / 10 ^ 9 * |n| := mul_le_mul_of_nonneg_left h2 (by norm_num [precision])
      exact h1.trans h3)
  have hdec : Decimal ((if n < 0 then ['-'] else []) ++ (is.map digitChar ++ point ++ fs.map digitChar))
      ((if n < 0 then -1 else 1) * w) := by
    refine ⟨if n < 0 then ['-'] else [], if n < 0 then -1 else 1, is, fs, point, signText_of n, k2, k3, ?_, ?_,
      by simp [List.append_assoc], rfl⟩
    · intro h
      have := congrArg List.length h
      simp only [List.length_append, List.length_nil] at this; omega
    · by_cases h : (digitsValue is : ℚ) < |n| / 10 ^ m1
      · left; rw [k6, if_pos h]
      · right; have e : point = [] := by rw [k6, if_neg h]
        exact ⟨e, k7 e⟩
  have hne : ∀ c ∈ (if n < 0 then ['-'] else []) ++ (is.map digitChar ++ point ++ fs.map digitChar), c ≠ 'e' := by
    intro c hc
    simp only [List.mem_append, List.mem_map] at hc
    rcases hc with h | (⟨k, hk, rfl⟩ | h) | ⟨k, hk, rfl⟩
    · split at h
      · simp at h; subst h; decide
      · simp at h
    · exact digitChar_ne (k2 k hk) 'e' (by decide)
    · rw [k6] at h
      split at h
      · simp at h; subst h; decide
      · simp at h
    · exact digitChar_ne (k3 k hk) 'e' (by decide)
  have hw1 : 1 ≤ w := by
    have : (1 : ℚ) ≤ digitsValue is := by
      have : 1 < digitsValue is + 1 := by
        have : (1 : ℚ) < digitsValue is + 1 := lt_of_le_of_lt hx1 k9
        exact_mod_cast this
      have : 1 ≤ digitsValue is := by omega
      exact_mod_cast this
    have h2 : (0 : ℚ) ≤ digitsValue fs / 10 ^ fs.length := by positivity
    rw [hw]; linarith
  have hmabs : |(if n < 0 then (-1 : ℚ) else 1) * w| = w := by
    rw [abs_mul, sign_abs_one, one_mul, abs_of_nonneg hw0]
  refine ⟨_, (if n < 0 then -1 else 1) * (w * 10 ^ m1), dtoa_of n hn _ hr ?_, Or.inr ⟨_, [if m1 > 0 then '+' else '-'], _,
    if m1 > 0 then 1 else -1, es, hdec, ?_, e2, e3, ?_, ?_⟩, c1, c2, c3, (if n < 0 then -1 else 1) * w, ?_, ?_, ?_, ?_⟩
  · have : (if n < 0 then ['-'] else []).length ≤ 1 := by split <;> simp
    have h2 := exponentDigits_length m1.natAbs
    simp only [List.length_append, List.length_map, List.length_cons]; omega
  · by_cases h : m1 > 0
    · rw [if_pos h, if_pos h]; exact .plus
    · rw [if_neg h, if_neg h]; exact .minus
  · rw [hexp]; simp
  · by_cases h : m1 > 0
    · have : m1 = e := by omega
      rw [if_pos h, if_pos (show (1 : ℚ) = 1 from rfl), e4, this, zpow_natCast]; ring
    · have : m1 = -e := by omega
      rw [if_neg h, if_neg (show ¬ ((-1 : ℚ) = 1) by norm_num), e4, this, zpow_neg, zpow_natCast, div_eq_mul_inv]
      ring
  · rw [List.takeWhile_append_of_pos (by simpa using hne)]
    rw [List.takeWhile_cons_of_neg (by simp), List.append_nil]
    exact hdec
  · have := atod_decimal [] _ ('e' :: (if m1 > 0 then '+' else '-') :: exponentDigits 10 m1.natAbs) _ (by simp) hdec
      (fun c hc => by simp at hc; subst hc; exact ⟨by decide, fun h => absurd h (by decide)⟩)
    simpa using this
  · rw [hmabs]; linarith
  · rw [hmabs]; exact hw1

/-- **C147 (partial: scientific notation)** For the other numbers that are not an exact power 10⁻ᵏ (sizes between
10⁻⁴⁰⁰ and 10⁴⁰⁰, so every finite `double`), the text denotes a number of the same sign, not larger in size, with a
relative error of at most 10⁻⁹.  Missing: the exact powers (below). -/
theorem C147_scientific_partial (n : ℚ) (hn : n ≥ 10 ^ 14 ∨ n ≤ -10 ^ 9 ∨ |n| ≤ 1 / 10 ^ 9)
    (hlo : 1 / 10 ^ 400 < |n|) (hhi : |n| < 10 ^ 400) (hp : ∀ k : Nat, |n| ≤ 1 / 10 ^ 9 → |n| ≠ 1 / 10 ^ k) :
    ∃ s v, dtoa n = .ok s ∧ Denotes s v ∧ 0 ≤ n * v ∧ |v| ≤ |n| ∧ |n - v| ≤ 1 / 10 ^ 9 * |n| ∧
      ∃ mv, Decimal (s.takeWhile (· ≠ 'e')) mv ∧ atod s = mv ∧ |mv| < 10 ∧ 1 ≤ |mv| := by
  have h0 : (0 : ℚ) < |n| := lt_trans (by positivity) hlo
  have hn0 : n ≠ 0 := by rintro rfl; simp at h0
  by_cases hsm : |n| ≤ 1 / 10 ^ 9
  · have h1 : |n| < 1 := lt_of_le_of_lt hsm (by norm_num)
    obtain ⟨k, hk, h2, h3⟩ := magnitude_lt h0 h1
    have hk9 : 9 ≤ k := by
      by_contra hc
      have h4 : (10 : ℚ) ^ (k + 1) ≤ 10 ^ 9 := pow_le_pow_right₀ (by norm_num) (by omega)
      have h5 : |n| * 10 ^ (k + 1) ≤ |n| * 10 ^ 9 := mul_le_mul_of_nonneg_left h4 h0.le
      have h6 : |n| * 10 ^ 9 ≤ 1 / 10 ^ 9 * 10 ^ 9 := mul_le_mul_of_nonneg_right hsm (by norm_num)
      have h7 : (1 : ℚ) / 10 ^ 9 * 10 ^ 9 = 1 := by norm_num
      linarith
    have hk400 : k < 400 := by
      by_contra hc
      have h4 : (10 : ℚ) ^ 400 ≤ 10 ^ k := pow_le_pow_right₀ (by norm_num) (by omega)
      have h5 : |n| * 10 ^ 400 ≤ |n| * 10 ^ k := mul_le_mul_of_nonneg_left h4 h0.le
      rw [div_lt_iff₀ (by positivity)] at hlo
      linarith
    have hpk : |n| * 10 ^ k ≠ 1 := by
      intro h
      refine hp k hsm ?_
      rw [eq_div_iff (by positivity)]; exact h
    have hzp : |n| / (10 : ℚ) ^ (-((k + 1 : Nat) : Int)) = |n| * 10 ^ (k + 1) := by
      rw [zpow_neg, zpow_natCast]; field_simp
    refine sci_close n (-((k + 1 : Nat) : Int)) (k + 1) (Or.inr rfl) (by omega) (by omega) ?_ ?_ ?_ ?_ hn0
    · right; right; rw [hk]; omega
    · rw [hk, if_pos (by omega)]; push_cast; ring
    · rw [hzp]; exact h3.le
    · rw [hzp, pow_succ]
      have := lt_of_le_of_ne h2 hpk
      linarith
  · have h1 : 1 ≤ |n| := by
      rcases hn with h | h | h
      · exact le_trans (by linarith) (le_abs_self n)
      · exact le_trans (by linarith) (neg_le_abs n)
      · exact absurd h hsm
    obtain ⟨M, hM, h2, h3⟩ := magnitude_ge h1
    have hM400 : M < 400 := by
      by_contra hc
      have h4 : (10 : ℚ) ^ 400 ≤ 10 ^ M := pow_le_pow_right₀ (by norm_num) (by omega)
      linarith
    have hM9 : (magnitude |n| ≥ 14 ∨ (n < 0 ∧ magnitude |n| ≥ 9) ∨ magnitude |n| ≤ -9) ∧ M ≠ 0 := by
      rw [hM]
      rcases hn with h | h | h
      · have : 14 ≤ M := by
          by_contra hc
          have h4 : (10 : ℚ) ^ (M + 1) ≤ 10 ^ 14 := pow_le_pow_right₀ (by norm_num) (by omega)
          have := le_abs_self n
          linarith
        exact ⟨Or.inl (by omega), by omega⟩
      · have : 9 ≤ M := by
          by_contra hc
          have h4 : (10 : ℚ) ^ (M + 1) ≤ 10 ^ 9 := pow_le_pow_right₀ (by norm_num) (by omega)
          have := neg_le_abs n
          linarith
        exact ⟨Or.inr (Or.inl ⟨by linarith, by omega⟩), by omega⟩
      · exact absurd h hsm
    have hpow : (0 : ℚ) < 10 ^ M := by positivity
    refine sci_close n (M : Int) M (Or.inl rfl) hM9.2 (by omega) hM9.1 ?_ ?_ ?_ hn0
    · rw [hM, if_neg (by omega)]
    · rw [zpow_natCast, le_div_iff₀ hpow]; linarith
    · rw [zpow_natCast, div_lt_iff₀ hpow]; rw [pow_succ] at h3; linarith

/-- `3·10⁻¹⁰`, `-2·10⁹` and `10¹⁵ + 1` are such numbers. -/
example : dtoa (3 / 10 ^ 10) = .ok "3e-10".toList ∧ dtoa (-2 * 10 ^ 9) = .ok "-2e+9".toList ∧
    dtoa (10 ^ 15 + 1) = .ok "1.e+15".toList := by decide +kernel

example : ((10 : ℚ) ^ 15 + 1 ≥ 10 ^ 14) ∧ ¬ |(10 : ℚ) ^ 15 + 1| ≤ 1 / 10 ^ 9 := by
  refine ⟨by norm_num, ?_⟩
  rw [abs_of_pos (by positivity)]; norm_num

/-- **C147 (refuted)** Every negative power of ten from 10⁻⁹ on is written with the character `:` as its first digit,
which denotes no number. -/
theorem C147_powers_refuted (k : Nat) (h9 : 9 ≤ k) (h : k < 400) :
    ∃ s, dtoa (1 / 10 ^ k) = .ok (':' :: s) ∧ ¬ ∃ v, Denotes (':' :: s) v := by
  have hpk : (0 : ℚ) < 10 ^ k := by positivity
  have hpos : (0 : ℚ) < 1 / 10 ^ k := by positivity
  have habs : |(1 : ℚ) / 10 ^ k| = 1 / 10 ^ k := abs_of_pos hpos
  have h1 : (1 : ℚ) / 10 ^ k < 1 := by
    rw [div_lt_one hpk]
    exact one_lt_pow₀ (by norm_num) (by omega)
  have hk : magnitude |(1 : ℚ) / 10 ^ k| = -(k : Int) := by
    rw [habs, magnitude, if_neg (not_le.2 h1), one_div_one_div]
    have : ((10 : ℚ) ^ k) = ((10 ^ k : Nat) : ℚ) := by push_cast; rfl
    rw [this, Nat.floor_natCast, Nat.log_pow (by norm_num)]
  have hzp : |(1 : ℚ) / 10 ^ k| / (10 : ℚ) ^ (-((k + 1 : Nat) : Int)) = 10 := by
    rw [habs, zpow_neg, zpow_natCast, pow_succ]; field_simp
  have hrun : dtoaChars (1 / 10 ^ k) = .ok (':' :: 'e' :: '-' :: exponentDigits 10 (k + 1)) := by
    have hu : magnitude |(1 : ℚ) / 10 ^ k| ≥ 14 ∨ ((1 : ℚ) / 10 ^ k < 0 ∧ magnitude |(1 : ℚ) / 10 ^ k| ≥ 9) ∨
        magnitude |(1 : ℚ) / 10 ^ k| ≤ -9 := by right; right; rw [hk]; omega
    have hm : (if magnitude |(1 : ℚ) / 10 ^ k| < 0 then magnitude |(1 : ℚ) / 10 ^ k| - 1 else magnitude |(1 : ℚ) / 10 ^ k|)
        = -((k + 1 : Nat) : Int) := by rw [hk, if_pos (by omega)]; push_cast; ring
    simp only [dtoaChars, abs_ite, if_pos hu, hm, hzp]
    rw [if_neg (not_lt.2 hpos.le), if_neg (show ¬ (-((k + 1 : Nat) : Int) > 0) by omega),
      if_pos (show (0 : Int) < 1 by norm_num)]
    have hloop : dtoaLoop 64 10 0 = .ok [':'] := by decide +kernel
    rw [hloop]
    have : (-((k + 1 : Nat) : Int)).natAbs = k + 1 := by omega
    rw [this]
    rfl
  refine ⟨'e' :: '-' :: exponentDigits 10 (k + 1), dtoa_of _ hpos.ne' _ hrun ?_, ?_⟩
  · have := exponentDigits_length (k + 1)
    simp only [List.length_cons]; omega
  · have hdec : ∀ s v, Decimal s v → s.head? ≠ some ':' := by
      rintro s v ⟨sg, sv, is, fs, point, c1, c2, c3, c4, c5, rfl, _⟩ hh
      have hd : ∀ k, k < 10 → digitChar k ≠ ':' := fun k hk => digitChar_ne hk ':' (by decide)
      cases c1 with
      | plus => simp at hh
      | minus => simp at hh
      | none =>
        cases is with
        | cons a as => simp at hh; exact hd a (c2 a (by simp)) hh
        | nil =>
          rcases c5 with rfl | ⟨rfl, rfl⟩
          · simp at hh
          · simp at c4
    rintro ⟨v, hv | ⟨m, sg, mv, sv, es, c1, c2, c3, c4, c5, c6⟩⟩
    · exact hdec _ v hv rfl
    · have hm := hdec m mv c1
      cases m with
      | nil =>
        simp at c5
      | cons a as =>
        simp only [List.cons_append, List.cons.injEq] at c5
        apply hm
        simp [← c5.1]

example : dtoa (1 / 10 ^ 10) = .ok ":e-11".toList := by decide +kernel

/-! ## C148 -/

/-- **C148 (partial)** Reading back the text of a number in the plain range gives a number at most 10⁻⁹ away; an
integer comes back exactly.  Missing: numbers written with an exponent. -/
theorem C148_round_trip_partial (n : ℚ) (hlo : 1 / 10 ^ 9 < |n|) (hhi : n < 10 ^ 14) (hneg : -10 ^ 9 < n) :
    ∃ s, dtoa n = .ok s ∧ |atod s - n| ≤ 1 / 10 ^ 9 := by
  obtain ⟨s, v, h1, h2, _, _, h5⟩ := C147_plain_partial n hlo hhi hneg
  refine ⟨s, h1, ?_⟩
  have := atod_decimal [] s [] v (by simp) h2 (fun c hc => by simp at hc)
  simp only [List.nil_append, List.append_nil] at this
  rw [this, abs_sub_comm]; exact h5

/-- An integer comes back exactly. -/
theorem C148_integer_round_trip_partial (k : Int) (h1 : -10 ^ 9 < k) (h2 : k < 10 ^ 14) :
    ∃ s, dtoa (k : ℚ) = .ok s ∧ atod s = k := by
  obtain ⟨s, hs, ks, c1, c2, c3, c4, rfl⟩ := C147_integer_partial k h1 h2
  refine ⟨_, hs, ?_⟩
  have hd : Decimal ((if k < 0 then ['-'] else []) ++ ks.map digitChar) ((if (k : ℚ) < 0 then -1 else 1) * |(k : ℚ)|) := by
    refine ⟨if k < 0 then ['-'] else [], if (k : ℚ) < 0 then -1 else 1, ks, [], [], ?_, c2, by simp, by simpa using c1,
      Or.inr ⟨rfl, rfl⟩, by simp, ?_⟩
    · have := signText_of (k : ℚ)
      simpa using this
    · simp [digitsValue, c4, Nat.cast_natAbs]
  have := atod_decimal [] _ [] _ (by simp) hd (fun c hc => by simp at hc)
  simp only [List.nil_append, List.append_nil] at this
  rw [this, signed_abs]

/-- **C148 (refuted)** Every number written with an exponent (and not an exact power 10⁻ᵏ) comes back as its mantissa:
a number of size at least 10⁹ comes back with a size below 10, and one of size at most 10⁻⁹ with a size of at least 1. -/
theorem C148_exponent_lost_refuted (n : ℚ) (hn : n ≥ 10 ^ 14 ∨ n ≤ -10 ^ 9 ∨ |n| ≤ 1 / 10 ^ 9)
    (hlo : 1 / 10 ^ 400 < |n|) (hhi : |n| < 10 ^ 400) (hp : ∀ k : Nat, |n| ≤ 1 / 10 ^ 9 → |n| ≠ 1 / 10 ^ k) :
    ∃ s, dtoa n = .ok s ∧ 1 ≤ |atod s| ∧ |atod s| < 10 := by
  obtain ⟨s, v, h1, _, _, _, _, mv, _, h2, h3, h4⟩ := C147_scientific_partial n hn hlo hhi hp
  exact ⟨s, h1, by rw [h2]; exact h4, by rw [h2]; exact h3⟩

example : (dtoa (7 * 10 ^ 20)).toOption.map atod = some 7 := by decide +kernel

end MLTK.Props
