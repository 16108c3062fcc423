import Mathlib.Tactic.Linarith
import Mathlib.Tactic.Positivity
import Mathlib.Tactic.FieldSimp
import Mathlib.Tactic.Ring
import Mathlib.Tactic.NormNum
import Verif.Model.Dtoa
import Verif.Spec.Text
import Verif.Lemmas.Text
namespace MLTK.Text
open MLTK MLTK.Spec
open MLTK.Data (Res_bind_ok Res_bind_error Res_pure)

theorem magnitude_ge {n : ℚ} (h : 1 ≤ n) : ∃ M : Nat, magnitude n = M ∧ (10 : ℚ) ^ M ≤ n ∧ n < 10 ^ (M + 1) := by
  have hf : ⌊n⌋₊ ≠ 0 := by
    intro h0
    rw [Nat.floor_eq_zero] at h0; linarith
  refine ⟨Nat.log 10 ⌊n⌋₊, by rw [magnitude, if_pos h], ?_, ?_⟩
  · have h1 : 10 ^ Nat.log 10 ⌊n⌋₊ ≤ ⌊n⌋₊ := Nat.pow_log_le_self 10 hf
    have h2 : (⌊n⌋₊ : ℚ) ≤ n := Nat.floor_le (by linarith)
    calc (10 : ℚ) ^ Nat.log 10 ⌊n⌋₊ = ((10 ^ Nat.log 10 ⌊n⌋₊ : Nat) : ℚ) := by push_cast; rfl
      _ ≤ (⌊n⌋₊ : ℚ) := by exact_mod_cast h1
      _ ≤ n := h2
  · have h1 : ⌊n⌋₊ < 10 ^ (Nat.log 10 ⌊n⌋₊ + 1) := Nat.lt_pow_succ_log_self (by norm_num) _
    have h3 : n < ((10 ^ (Nat.log 10 ⌊n⌋₊ + 1) : Nat) : ℚ) := (Nat.floor_lt (by linarith)).1 h1
    simpa using h3

theorem magnitude_lt {n : ℚ} (h0 : 0 < n) (h : n < 1) :
    ∃ k : Nat, magnitude n = -(k : Int) ∧ n * 10 ^ k ≤ 1 ∧ 1 < n * 10 ^ (k + 1) := by
  have hi : 1 ≤ 1 / n := by rw [le_div_iff₀ h0]; linarith
  obtain ⟨M, hM, h1, h2⟩ := magnitude_ge hi
  rw [magnitude, if_pos hi] at hM
  refine ⟨M, by rw [magnitude, if_neg (by linarith), hM], ?_, ?_⟩
  · rw [le_div_iff₀ h0] at h1; linarith
  · rw [div_lt_iff₀ h0] at h2; linarith

/-- the loop after the point -/
theorem loop_fraction : ∀ (fuel j : Nat) (n : ℚ), 10 ≤ fuel + j → 1 ≤ fuel → 0 ≤ n → n * 10 ^ j < 1 →
    ∃ ks : List Nat, dtoaLoop fuel n (-(j + 1 : Nat)) = .ok (ks.map digitChar) ∧ (∀ k ∈ ks, k < 10) ∧
      ks.length + j ≤ max j 9 ∧ (n ≤ precision → ks = []) ∧
      0 ≤ n - digitsValue ks / 10 ^ (j + ks.length) ∧ n - digitsValue ks / 10 ^ (j + ks.length) ≤ precision := by
  intro fuel
  induction fuel with
  | zero => intro j n _ h; omega
  | succ fuel ih =>
    intro j n hf _ hn hlt
    by_cases hp : n ≤ precision
    · refine ⟨[], ?_, by simp, by simp, fun _ => rfl, by simpa [digitsValue] using hn, by simpa [digitsValue] using hp⟩
      rw [dtoaLoop, if_neg (by push Not; exact ⟨hp, by omega⟩)]; rfl
    · have hp' : precision < n := not_le.1 hp
      have hj : j < 9 := by
        by_contra hc
        have h1 : (10 : ℚ) ^ 9 ≤ 10 ^ j := pow_le_pow_right₀ (by norm_num) (by omega)
        have h2 : n * 10 ^ 9 ≤ n * 10 ^ j := mul_le_mul_of_nonneg_left h1 hn
        have h3 : precision * 10 ^ 9 < n * 10 ^ 9 := mul_lt_mul_of_pos_right hp' (by norm_num)
        norm_num [precision] at h3
        norm_num at h2
        linarith
      have hw : (10 : ℚ) ^ (-((j + 1 : Nat) : Int)) = 1 / 10 ^ (j + 1) := by
        rw [zpow_neg, zpow_natCast, one_div]
      have hpos : (0 : ℚ) < 10 ^ (j + 1) := by positivity
      have hq : n / (10 : ℚ) ^ (-((j + 1 : Nat) : Int)) = n * 10 ^ (j + 1) := by rw [hw]; field_simp
      have hq0 : 0 ≤ n * 10 ^ (j + 1) := by positivity
      have hq10 : n * 10 ^ (j + 1) < 10 := by rw [pow_succ]; linarith
      obtain ⟨d, hd⟩ : ∃ d : Nat, ⌊n * 10 ^ (j + 1)⌋ = (d : Int) :=
        ⟨_, (Int.toNat_of_nonneg (Int.floor_nonneg.2 hq0)).symm⟩
      have hd1 : (d : ℚ) ≤ n * 10 ^ (j + 1) := by
        have := Int.floor_le (n * 10 ^ (j + 1)); rw [hd] at this; simpa using this
      have hd2 : n * 10 ^ (j + 1) < d + 1 := by
        have := Int.lt_floor_add_one (n * 10 ^ (j + 1)); rw [hd] at this; simpa using this
      have hd10 : d < 10 := by
        have : (d : ℚ) < 10 := by linarith
        exact_mod_cast this
      have hmul : (n - d * (1 / 10 ^ (j + 1))) * 10 ^ (j + 1) = n * 10 ^ (j + 1) - d := by field_simp
      have hn' : 0 ≤ n - d * (1 / 10 ^ (j + 1)) := by
        have : 0 ≤ (n - d * (1 / 10 ^ (j + 1))) * 10 ^ (j + 1) := by rw [hmul]; linarith
        exact nonneg_of_mul_nonneg_left this hpos
      obtain ⟨ks, k1, k2, k3, k4, k5, k6⟩ := ih (j + 1) (n - d * (1 / 10 ^ (j + 1))) (by omega) (by omega) hn'
        (by rw [hmul]; linarith)
      have hval : n - (digitsValue (d :: ks) : ℚ) / 10 ^ (j + (d :: ks).length)
          = n - d * (1 / 10 ^ (j + 1)) - digitsValue ks / 10 ^ (j + 1 + ks.length) := by
        have e : j + (d :: ks).length = j + 1 + ks.length := by simp; omega
        rw [e]
        simp only [digitsValue]; push_cast
        rw [pow_add (10 : ℚ) (j + 1) ks.length]
        field_simp; ring
      refine ⟨d :: ks, ?_, ?_, ?_, fun h => absurd h hp, ?_, ?_⟩
      · rw [dtoaLoop, if_pos (Or.inl hp')]
        simp only [hq, hd]
        simp only [hw, Int.cast_natCast, Int.toNat_natCast]
        rw [if_neg (by omega)]
        have e : (-((j + 1 : Nat) : Int)) - 1 = -((j + 1 + 1 : Nat) : Int) := by push_cast; ring
        rw [e]
        rw [k1]
        simp [digitChar]
      · intro k hk
        rcases List.mem_cons.1 hk with h | h
        · omega
        · exact k2 k h
      · simp only [List.length_cons]; omega
      · rw [hval]; exact k5
      · rw [hval]; exact k6

/-- the whole loop -/
theorem loop_whole : ∀ (M fuel : Nat) (n : ℚ), M + 11 ≤ fuel → 0 ≤ n → n < 10 ^ (M + 1) →
    ∃ (is fs : List Nat) (point : List Char), dtoaLoop fuel n M = .ok (is.map digitChar ++ point ++ fs.map digitChar) ∧
      (∀ k ∈ is, k < 10) ∧ (∀ k ∈ fs, k < 10) ∧ is.length = M + 1 ∧ fs.length ≤ 9 ∧
      point = (if (digitsValue is : ℚ) < n then ['.'] else []) ∧ (point = [] → fs = []) ∧
      (digitsValue is : ℚ) ≤ n ∧ n < digitsValue is + 1 ∧
      0 ≤ n - (digitsValue is + digitsValue fs / 10 ^ fs.length) ∧
      n - (digitsValue is + digitsValue fs / 10 ^ fs.length) ≤ precision := by
  intro M
  induction M with
  | zero =>
    intro fuel n hf hn hlt
    obtain ⟨fuel, rfl⟩ : ∃ f, fuel = f + 1 := ⟨fuel - 1, by omega⟩
    obtain ⟨d, hd⟩ : ∃ d : Nat, ⌊n⌋ = (d : Int) := ⟨_, (Int.toNat_of_nonneg (Int.floor_nonneg.2 hn)).symm⟩
    have hd1 : (d : ℚ) ≤ n := by have := Int.floor_le n; rw [hd] at this; simpa using this
    have hd2 : n < d + 1 := by have := Int.lt_floor_add_one n; rw [hd] at this; simpa using this
    have hd10 : d < 10 := by
      have : (d : ℚ) < 10 := by norm_num at hlt; linarith
      exact_mod_cast this
    obtain ⟨ks, k1, k2, k3, k4, k5, k6⟩ := loop_fraction fuel 0 (n - d) (by omega) (by omega) (by linarith)
      (by simp; linarith)
    have hds : digitsValue [d] = d := by simp [digitsValue]
    refine ⟨[d], ks, if (d : ℚ) < n then ['.'] else [], ?_, by simpa using hd10, k2, rfl, by simpa using k3, ?_, ?_, ?_,
      ?_, ?_, ?_⟩
    · rw [dtoaLoop, if_pos (Or.inr (by simp))]
      simp only [Nat.cast_zero, zpow_zero, div_one, hd, mul_one, Int.cast_natCast, true_and, Int.toNat_natCast]
      have e : ((0 : Int) - 1) = -((0 + 1 : Nat) : Int) := by norm_num
      rw [e, k1]
      simp [digitChar]
    · rw [hds]
    · intro hpt
      by_cases h : (d : ℚ) < n
      · rw [if_pos h] at hpt; simp at hpt
      · refine k4 ?_
        have : n - d ≤ 0 := by linarith
        refine this.trans ?_
        norm_num [precision]
    · rw [hds]; exact hd1
    · rw [hds]; exact hd2
    · rw [hds]; rw [Nat.zero_add] at k5; linarith
    · rw [hds]; rw [Nat.zero_add] at k6; linarith
  | succ M ih =>
    intro fuel n hf hn hlt
    obtain ⟨fuel, rfl⟩ : ∃ f, fuel = f + 1 := ⟨fuel - 1, by omega⟩
    have hpos : (0 : ℚ) < 10 ^ (M + 1) := by positivity
    have hq0 : 0 ≤ n / 10 ^ (M + 1) := by positivity
    obtain ⟨d, hd⟩ : ∃ d : Nat, ⌊n / (10 : ℚ) ^ (M + 1)⌋ = (d : Int) :=
      ⟨_, (Int.toNat_of_nonneg (Int.floor_nonneg.2 hq0)).symm⟩
    have hd1 : (d : ℚ) * 10 ^ (M + 1) ≤ n := by
      have := Int.floor_le (n / (10 : ℚ) ^ (M + 1)); rw [hd, le_div_iff₀ hpos] at this; simpa using this
    have hd2 : n < (d + 1) * 10 ^ (M + 1) := by
      have := Int.lt_floor_add_one (n / (10 : ℚ) ^ (M + 1)); rw [hd, div_lt_iff₀ hpos] at this; simpa using this
    have hd10 : d < 10 := by
      have h1 : (d : ℚ) * 10 ^ (M + 1) < 10 * 10 ^ (M + 1) := by
        rw [pow_succ] at hlt; linarith
      have : (d : ℚ) < 10 := lt_of_mul_lt_mul_right h1 hpos.le
      exact_mod_cast this
    obtain ⟨is, fs, point, k1, k2, k3, k4, k5, k6, k7, k8, k9, k10, k11⟩ := ih fuel (n - d * 10 ^ (M + 1)) (by omega)
      (by linarith) (by linarith)
    have hds : (digitsValue (d :: is) : ℚ) = d * 10 ^ (M + 1) + digitsValue is := by
      simp only [digitsValue, k4]; push_cast; rfl
    refine ⟨d :: is, fs, point, ?_, ?_, k3, by simp [k4], k5, ?_, k7, ?_, ?_, ?_, ?_⟩
    · rw [dtoaLoop, if_pos (Or.inr (by positivity))]
      rw [zpow_natCast]
      simp only [hd, Int.cast_natCast, Int.toNat_natCast]
      rw [if_neg (by omega)]
      have e : ((M + 1 : Nat) : Int) - 1 = (M : Int) := by push_cast; ring
      rw [e, k1]
      simp [digitChar]
    · intro k hk
      rcases List.mem_cons.1 hk with h | h
      · omega
      · exact k2 k h
    · rw [k6, hds]
      by_cases h : (digitsValue is : ℚ) < n - d * 10 ^ (M + 1)
      · rw [if_pos h, if_pos (by linarith)]
      · rw [if_neg h, if_neg (by linarith)]
    · rw [hds]; linarith
    · rw [hds]; linarith
    · rw [hds]; linarith
    · rw [hds]; linarith

theorem exponentDigits_spec (m : Nat) (h0 : m ≠ 0) (h : m < 10 ^ 10) : ∃ ks : List Nat,
    exponentDigits 10 m = ks.map digitChar ∧ ks ≠ [] ∧ (∀ k ∈ ks, k < 10) ∧ digitsValue ks = m ∧ ks.head? ≠ some 0 := by
  obtain ⟨ks, k1, k2, k3, k4, k5⟩ := digitsLoop_spec 10 m h
  refine ⟨ks, ?_, fun hk => h0 (k5.2 hk), k2, k3, k4⟩
  simp only [exponentDigits, reverse_loop_eq, k1]
  simp [digitChar]

theorem digitsLoop_length : ∀ f n, (digitsLoop f n).length ≤ f := by
  intro f
  induction f with
  | zero => intro n; simp [digitsLoop]
  | succ f ih =>
    intro n
    by_cases h : n = 0
    · simp [digitsLoop, h]
    · simp [digitsLoop, h]; exact ih _

theorem exponentDigits_length (m : Nat) : (exponentDigits 10 m).length ≤ 10 := by
  simp only [exponentDigits, reverse_loop_eq, List.length_map, List.length_reverse]
  exact digitsLoop_length 10 m

theorem abs_ite (n : ℚ) : (if n < 0 then -n else n) = |n| := by
  by_cases h : n < 0
  · rw [if_pos h, abs_of_neg h]
  · rw [if_neg h, abs_of_nonneg (not_lt.1 h)]

/-- the text of a number in the plain notation -/
theorem plain_run (n : ℚ) (hlo : precision < |n|) (hhi : n < 10 ^ 14) (hneg : -10 ^ 9 < n) :
    ∃ (M : Nat) (is fs : List Nat) (point : List Char),
      dtoaChars n = .ok ((if n < 0 then ['-'] else []) ++ (is.map digitChar ++ point ++ fs.map digitChar)) ∧
      M ≤ 13 ∧ (M = 0 ∨ (10 : ℚ) ^ M ≤ |n|) ∧
      (∀ k ∈ is, k < 10) ∧ (∀ k ∈ fs, k < 10) ∧ is.length = M + 1 ∧ fs.length ≤ 9 ∧
      point = (if (digitsValue is : ℚ) < |n| then ['.'] else []) ∧ (point = [] → fs = []) ∧
      (digitsValue is : ℚ) ≤ |n| ∧ |n| < digitsValue is + 1 ∧
      0 ≤ |n| - (digitsValue is + digitsValue fs / 10 ^ fs.length) ∧
      |n| - (digitsValue is + digitsValue fs / 10 ^ fs.length) ≤ precision := by
  have h0 : (0 : ℚ) < |n| := lt_trans (by norm_num [precision]) hlo
  have key : ∃ M : Nat, ¬ (magnitude |n| ≥ 14 ∨ (n < 0 ∧ magnitude |n| ≥ 9) ∨ magnitude |n| ≤ -9) ∧
      (if magnitude |n| < 1 then 0 else magnitude |n|) = (M : Int) ∧ M ≤ 13 ∧ (M = 0 ∨ (10 : ℚ) ^ M ≤ |n|) ∧
      |n| < 10 ^ (M + 1) := by
    by_cases h1 : 1 ≤ |n|
    · obtain ⟨M, hM, h2, h3⟩ := magnitude_ge h1
      have hM14 : M < 14 := by
        by_contra hc
        have h4 : (10 : ℚ) ^ 14 ≤ 10 ^ M := pow_le_pow_right₀ (by norm_num) (by omega)
        rcases abs_cases n with ⟨e, _⟩ | ⟨e, _⟩
        · rw [e] at h2; linarith
        · rw [e] at h2; norm_num at h4 hneg; linarith
      have hM9 : n < 0 → M < 9 := by
        intro hn
        by_contra hc
        have h4 : (10 : ℚ) ^ 9 ≤ 10 ^ M := pow_le_pow_right₀ (by norm_num) (by omega)
        rw [abs_of_neg hn] at h2; linarith
      refine ⟨M, ?_, ?_, by omega, Or.inr h2, h3⟩
      · rw [hM]
        rintro (h | ⟨h, h'⟩ | h)
        · omega
        · have := hM9 h; omega
        · omega
      · rw [hM]
        by_cases h : (M : Int) < 1
        · rw [if_pos h]; omega
        · rw [if_neg h]
    · obtain ⟨k, hk, h2, h3⟩ := magnitude_lt h0 (not_le.1 h1)
      have hk9 : k < 9 := by
        by_contra hc
        have h4 : (10 : ℚ) ^ 9 ≤ 10 ^ k := pow_le_pow_right₀ (by norm_num) (by omega)
        have h5 : |n| * 10 ^ 9 ≤ |n| * 10 ^ k := mul_le_mul_of_nonneg_left h4 h0.le
        have h6 : precision * 10 ^ 9 < |n| * 10 ^ 9 := mul_lt_mul_of_pos_right hlo (by norm_num)
        have h7 : precision * 10 ^ 9 = 1 := by norm_num [precision]
        linarith
      refine ⟨0, ?_, ?_, by omega, Or.inl rfl, ?_⟩
      · rw [hk]
        rintro (h | ⟨h, h'⟩ | h) <;> omega
      · rw [hk, if_pos (by omega)]; rfl
      · norm_num; linarith
  obtain ⟨M, hu, hm, hM, hM', hlt⟩ := key
  obtain ⟨is, fs, point, k1, k2⟩ := loop_whole M 64 |n| (by omega) h0.le hlt
  refine ⟨M, is, fs, point, ?_, hM, hM', k2⟩
  simp only [dtoaChars, abs_ite, if_neg hu, hm, k1, Res_bind_ok, Res_pure, List.append_nil]

/-- the text of a number in the scientific notation -/
theorem sci_run (n : ℚ) (m1 : Int) (hu : magnitude |n| ≥ 14 ∨ (n < 0 ∧ magnitude |n| ≥ 9) ∨ magnitude |n| ≤ -9)
    (hm1 : (if magnitude |n| < 0 then magnitude |n| - 1 else magnitude |n|) = m1)
    (hx : |n| / 10 ^ m1 < 10) :
    ∃ (is fs : List Nat) (point : List Char),
      dtoaChars n = .ok ((if n < 0 then ['-'] else []) ++ (is.map digitChar ++ point ++ fs.map digitChar) ++
        'e' :: (if m1 > 0 then '+' else '-') :: exponentDigits 10 m1.natAbs) ∧
      (∀ k ∈ is, k < 10) ∧ (∀ k ∈ fs, k < 10) ∧ is.length = 1 ∧ fs.length ≤ 9 ∧
      point = (if (digitsValue is : ℚ) < |n| / 10 ^ m1 then ['.'] else []) ∧ (point = [] → fs = []) ∧
      (digitsValue is : ℚ) ≤ |n| / 10 ^ m1 ∧ |n| / 10 ^ m1 < digitsValue is + 1 ∧
      0 ≤ |n| / 10 ^ m1 - (digitsValue is + digitsValue fs / 10 ^ fs.length) ∧
      |n| / 10 ^ m1 - (digitsValue is + digitsValue fs / 10 ^ fs.length) ≤ precision := by
  obtain ⟨is, fs, point, k1, k2⟩ := loop_whole 0 64 (|n| / 10 ^ m1) (by omega)
    (div_nonneg (abs_nonneg n) (zpow_nonneg (by norm_num) m1)) (by simpa using hx)
  refine ⟨is, fs, point, ?_, k2⟩
  simp only [dtoaChars, abs_ite, if_pos hu, hm1]
  rw [if_pos (by norm_num)]
  simp only [Nat.cast_zero] at k1
  rw [k1]
  rfl

end MLTK.Text
