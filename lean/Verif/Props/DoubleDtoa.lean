import Verif.Model.DoubleDtoa
import Verif.Props.DoubleText
import Verif.Props.DoubleSizes
/-!
# C240: writing numbers in `double` arithmetic
-/
namespace MLTK.Spec
open MLTK.Fp

/-- What is assumed of the C library: the logarithm of a whole number below `10 ^ 14`, rounded towards zero, is its number of
digits less one, and the powers of ten that are whole numbers of at most 14 digits are exact. -/
def GoodLibm (lib : Libm) : Prop :=
  (∀ n : ℕ, 1 ≤ n → n < 10 ^ 14 → lib.log10 n = (Nat.log 10 n : ℤ)) ∧ ∀ k : ℕ, k ≤ 13 → lib.pow10 k = .fin (10 ^ k)

/-- Such a library whose powers of ten are all rounded correctly and whose logarithms of the numbers between `10 ^ -8` and 1 lie
between -8 and 0. -/
def RoundedLibm (lib : Libm) : Prop :=
  GoodLibm lib ∧ (∀ k : ℤ, lib.pow10 k = rnd ((10 : ℚ) ^ k)) ∧
  ∀ q : ℚ, 1 / 10 ^ 8 ≤ q → q < 1 → -8 ≤ lib.log10 q ∧ lib.log10 q ≤ 0

end MLTK.Spec

namespace MLTK.Props
open MLTK.Spec MLTK.Fp MLTK.Text
open MLTK.Data (Res_bind_ok Res_bind_error Res_pure)

/-- The library with the exact functions rounded once. -/
def exactLibm : Libm := ⟨magnitude, fun k => rnd ((10 : ℚ) ^ k)⟩

section
attribute [local irreducible] Fp.rnd Fp.near Fp.huge Fp.two

theorem ten_le {m : ℕ} (h : m ≤ 13) : (10 : ℕ) ^ m ≤ 10 ^ 13 := Nat.pow_le_pow_right (by norm_num) h

theorem intOf_nat {d : ℕ} (h : d < 10) : intOf (.fin ((d : ℤ) : ℚ)) = .ok (d : ℤ) := by
  have h0 : (0 : ℚ) ≤ ((d : ℤ) : ℚ) := by positivity
  unfold intOf
  simp only [if_pos h0, Int.floor_intCast]
  rw [if_pos (by constructor <;> omega)]

/-- The digits written for a whole number: one per place. -/
theorem dtoaLoopD_whole (lib : Libm) (hp : ∀ k : ℕ, k ≤ 13 → lib.pow10 k = .fin (10 ^ k)) :
    ∀ (m n fuel : ℕ), m ≤ 13 → n < 10 ^ (m + 1) → m + 2 ≤ fuel →
    ∃ ks : List ℕ, ks.length = m + 1 ∧ (∀ k ∈ ks, k < 10) ∧ digitsValue ks = n ∧ (10 ^ m ≤ n → ks.head? ≠ some 0) ∧
      dtoaLoopD lib fuel (.fin (n : ℚ)) (m : ℤ) = .ok (ks.map digitChar) := by
  intro m
  induction m with
  | zero =>
    intro n fuel hm hn hf
    obtain ⟨fuel, rfl⟩ : ∃ f, fuel = f + 2 := ⟨fuel - 2, by omega⟩
    have hn' : n < 10 := by simpa using hn
    refine ⟨[n], rfl, by simpa using hn', by simp [digitsValue], ?_, ?_⟩
    · intro h; simp; simp at h; omega
    · have hw := hp 0 (by norm_num)
      have hdiv : ((Dbl.fin (n : ℚ)).div (.fin 1)) = .fin (n : ℚ) := by
        rw [div_fin one_pos, div_one]; exact isDbl_nat (by omega)
      have hmul : (Dbl.fin ((n : ℤ) : ℚ)).mul (.fin 1) = .fin (n : ℚ) := by
        simp only [Dbl.mul, mul_one, Int.cast_natCast]; exact isDbl_nat (by omega)
      have hsub : (Dbl.fin (n : ℚ)).sub (.fin (n : ℚ)) = .fin 0 := by
        simp only [Dbl.sub, Dbl.neg, Dbl.add]
        rw [add_neg_cancel]; exact rnd_eq_zero.2 near_zero
      have hint := intOf_nat (d := n) (by omega)
      have hstop : precisionD.lt (.fin 0) = false := by decide +kernel
      simp only [dtoaLoopD]
      rw [if_pos (Or.inr (by norm_num))]
      simp only [Nat.cast_zero] at hw ⊢
      rw [hw]
      simp only [pow_zero]
      rw [if_pos (by decide), hdiv]
      simp only [Dbl.floor, Int.floor_natCast]
      rw [hint]
      simp only [Res_bind_ok, Res_pure, hmul, hsub]
      rw [if_neg (by rw [hstop]; simp), if_neg (by simp [Dbl.lt])]
      simp only [Res_bind_ok, List.append_nil, List.map_cons, List.map_nil]
      congr 2
  | succ m ih =>
    intro n fuel hm hn hf
    obtain ⟨fuel, rfl⟩ : ∃ f, fuel = f + 1 := ⟨fuel - 1, by omega⟩
    have hW0 : 0 < 10 ^ (m + 1) := by positivity
    have hW := ten_le hm
    have hn53 : n < 2 ^ 53 := by
      have : 10 ^ (m + 1 + 1) ≤ 10 ^ 14 := Nat.pow_le_pow_right (by norm_num) (by omega)
      omega
    have hd : n / 10 ^ (m + 1) < 10 := by
      rw [Nat.div_lt_iff_lt_mul hW0, ← pow_succ']; exact hn
    obtain ⟨ks, k1, k2, k3, -, k5⟩ := ih (n % 10 ^ (m + 1)) fuel (by omega) (Nat.mod_lt _ hW0) (by omega)
    have hdm := Nat.div_add_mod n (10 ^ (m + 1))
    set d := n / 10 ^ (m + 1) with hdd
    set r := n % 10 ^ (m + 1) with hrr
    refine ⟨d :: ks, by simp [k1], ?_, ?_, ?_, ?_⟩
    · intro k hk
      rcases List.mem_cons.1 hk with rfl | h
      · exact hd
      · exact k2 k h
    · simp only [digitsValue, k1, k3]; rw [mul_comm]; exact hdm
    · intro h
      have : 0 < d := Nat.div_pos h hW0
      simp; omega
    · have hw := hp (m + 1) hm
      have hcast : ((10 ^ (m + 1) : ℕ) : ℚ) = 10 ^ (m + 1) := by push_cast; rfl
      have hdiv : ∃ x, (Dbl.fin (n : ℚ)).div (.fin (10 ^ (m + 1))) = .fin x ∧ ⌊x⌋ = ((d : ℕ) : ℤ) := by
        have h1 := (div_ofNat (n := n) (k := 10 ^ (m + 1)) hW0 hn53.le (by omega)).1
        rw [ofNat_eq hn53.le, ofNat_eq (by omega), hcast] at h1
        refine ⟨_, h1, ?_⟩
        have := floor_near_div (n := n) (k := 10 ^ (m + 1)) hW0 hn53 (by omega)
        rwa [hcast] at this
      obtain ⟨x, hx, hfx⟩ := hdiv
      have hmulN : d * 10 ^ (m + 1) ≤ 2 ^ 53 := by
        have : 10 ^ (m + 1) * d ≤ n := by omega
        nlinarith
      have hmul : (Dbl.fin ((d : ℤ) : ℚ)).mul (.fin (10 ^ (m + 1))) = .fin ((d * 10 ^ (m + 1) : ℕ) : ℚ) := by
        have := isDbl_nat hmulN
        unfold IsDbl at this
        rw [← this]
        simp only [Dbl.mul]
        congr 1
        push_cast; ring
      have hsub : (Dbl.fin (n : ℚ)).sub (.fin ((d * 10 ^ (m + 1) : ℕ) : ℚ)) = .fin (r : ℚ) := by
        have := isDbl_nat (n := r) (by omega)
        unfold IsDbl at this
        rw [← this]
        simp only [Dbl.sub, Dbl.neg, Dbl.add]
        congr 1
        have : (n : ℚ) = 10 ^ (m + 1) * d + r := by exact_mod_cast hdm.symm
        rw [this]; push_cast; ring
      have hint := intOf_nat (d := d) (by omega)
      simp only [dtoaLoopD]
      rw [if_pos (Or.inr (by positivity)), hw, if_pos ⟨by simp [Dbl.lt], by simp⟩, hx]
      simp only [Dbl.floor, hfx]
      rw [hint]
      simp only [Res_bind_ok, Res_pure, hmul, hsub]
      rw [if_neg (by omega)]
      rw [show (((m + 1 : ℕ) : ℤ) - 1) = (m : ℤ) by push_cast; ring, k5]
      simp only [Res_bind_ok, List.append_nil, List.map_cons]
      rfl

/-- A whole number below `10 ^ 14` and above `-10 ^ 9` is written as its decimal numeral, and that text is read back as the same
`double`.  Missing: numbers with a part after the point, for which both are false, and the numbers written with an exponent, which
`atod` does not read (C148). -/
theorem C240_whole_partial (lib : Libm) (hl : GoodLibm lib) (z : ℤ) (h1 : -10 ^ 9 < z) (h2 : z < 10 ^ 14) :
    ∃ s, dtoaD lib (.fin (z : ℚ)) = .ok s ∧ IsNumeral z s ∧ atodD s = .fin (z : ℚ) := by
  obtain ⟨hlog, hpow⟩ := hl
  have main : ∃ s, dtoaD lib (.fin (z : ℚ)) = .ok s ∧ IsNumeral z s := by
    by_cases hz : z = 0
    · subst hz
      exact ⟨['0'], by simp [dtoaD], [0], by simp, by simp, by simp, by simp [digitsValue], by simp [digitChar]⟩
    · have hz' : (z : ℚ) ≠ 0 := by exact_mod_cast hz
      have hN1 : 1 ≤ z.natAbs := by omega
      have hN : z.natAbs < 10 ^ 14 := by omega
      have habs : (if (z : ℚ) < 0 then -(z : ℚ) else (z : ℚ)) = ((z.natAbs : ℕ) : ℚ) := by
        rw [Nat.cast_natAbs]
        push_cast
        split_ifs with h
        · rw [abs_of_neg h]
        · rw [abs_of_nonneg (not_lt.1 h)]
      have hm := hlog z.natAbs hN1 hN
      set m := Nat.log 10 z.natAbs with hmd
      have hlow : 10 ^ m ≤ z.natAbs := Nat.pow_log_le_self 10 (by omega)
      have hhigh : z.natAbs < 10 ^ (m + 1) := Nat.lt_pow_succ_log_self (by norm_num) _
      have hm13 : m ≤ 13 := by
        by_contra hc
        have : 10 ^ 14 ≤ 10 ^ m := Nat.pow_le_pow_right (by norm_num) (by omega)
        omega
      have hneg8 : (z : ℚ) < 0 → m ≤ 8 := by
        intro hlt
        have hlt' : z < 0 := by exact_mod_cast hlt
        by_contra hc
        have : 10 ^ 9 ≤ 10 ^ m := Nat.pow_le_pow_right (by norm_num) (by omega)
        omega
      have huse : ¬ ((m : ℤ) ≥ 14 ∨ ((z : ℚ) < 0 ∧ (m : ℤ) ≥ 9) ∨ (m : ℤ) ≤ -9) := by
        rintro (h | ⟨h, h'⟩ | h)
        · omega
        · have := hneg8 h; omega
        · omega
      obtain ⟨ks, k1, k2, k3, k4, k5⟩ := dtoaLoopD_whole lib hpow m z.natAbs 64 hm13 hhigh (by omega)
      have hmm : (if (m : ℤ) < 1 then (0 : ℤ) else m) = m := by split_ifs <;> omega
      have hchars : dtoaCharsD lib (z : ℚ) = .ok ((if (z : ℚ) < 0 then ['-'] else []) ++ ks.map digitChar) := by
        unfold dtoaCharsD
        simp only [habs, hm]
        simp only [if_neg huse, hmm, k5, Res_bind_ok, Res_pure, List.append_nil]
      have hsign : (if (z : ℚ) < 0 then ['-'] else []) = (if z < 0 then ['-'] else []) := by
        by_cases h : z < 0
        · rw [if_pos h, if_pos (by exact_mod_cast h)]
        · rw [if_neg h, if_neg (by exact_mod_cast h)]
      refine ⟨(if z < 0 then ['-'] else []) ++ ks.map digitChar, ?_, ks, ?_, k2, ?_, k3, rfl⟩
      · unfold dtoaD
        simp only [if_neg hz', hchars, Res_bind_ok]
        rw [hsign, if_pos]
        have : (if z < 0 then ['-'] else [] : List Char).length ≤ 1 := by split <;> simp
        simp only [List.length_append, List.length_map, k1]
        omega
      · intro h; rw [h] at k1; simp at k1
      · intro h; exact absurd h (k4 hlow)
  obtain ⟨s, hs, hnum⟩ := main
  refine ⟨s, hs, hnum, ?_⟩
  have hz53 : |z| ≤ 2 ^ 53 := by rw [abs_le]; constructor <;> omega
  have hw : Written s z 0 := by
    obtain ⟨ks, k1, k2, k3, k4, rfl⟩ := hnum
    refine ⟨if z < 0 then ['-'] else [], if z < 0 then -1 else 1, ks, [], [], ?_, k2, by simp, by simpa using k1,
      Or.inr ⟨rfl, rfl⟩, by simp, ?_, rfl⟩
    · by_cases h : z < 0
      · simpa [h] using SignText.minus
      · simpa [h] using SignText.none
    · rw [List.append_nil, k4]
      split_ifs with h <;> omega
  have := C239_exact_partial s z 0 hw hz53 (by norm_num) (by simpa using isDbl_int hz53)
  simpa using this

/-- The library that rounds the exact powers satisfies the assumptions. -/
theorem exactLibm_rounded : RoundedLibm exactLibm := by
  refine ⟨⟨fun n h1 _ => ?_, fun k hk => ?_⟩, fun k => rfl, fun q h1 h2 => ?_⟩
  · have h1' : (1 : ℚ) ≤ n := by exact_mod_cast h1
    simp only [exactLibm, magnitude, if_pos h1', Nat.floor_natCast]
  · have := tenPow_dbl (k := k) (by omega)
    simp only [exactLibm, zpow_natCast]
    exact this
  · have h0 : 0 < q := lt_of_lt_of_le (by norm_num) h1
    simp only [exactLibm, magnitude, if_neg (not_le.2 h2)]
    have hq : 1 / q ≤ 10 ^ 8 := by
      rw [div_le_iff₀ h0]
      have := mul_le_mul_of_nonneg_left h1 (show (0 : ℚ) ≤ 10 ^ 8 by norm_num)
      norm_num at this ⊢
      linarith
    have hf : ⌊1 / q⌋₊ ≤ 10 ^ 8 := by
      have := Nat.floor_le_floor hq
      have h8 : ⌊(10 ^ 8 : ℚ)⌋₊ = 10 ^ 8 := by
        have := Nat.floor_natCast (R := ℚ) (10 ^ 8)
        push_cast at this; exact this
      rwa [h8] at this
    have hlg : Nat.log 10 ⌊1 / q⌋₊ ≤ 8 := by
      calc Nat.log 10 ⌊1 / q⌋₊ ≤ Nat.log 10 (10 ^ 8) := Nat.log_mono_right hf
        _ = 8 := Nat.log_pow (by norm_num) 8
    omega

/-- "-123456789" is written and read back. -/
example : GoodLibm exactLibm ∧ ∃ s, dtoaD exactLibm (.fin (-123456789)) = .ok s ∧ atodD s = .fin (-123456789) := by
  refine ⟨exactLibm_rounded.1, ?_⟩
  obtain ⟨s, h1, -, h3⟩ := C240_whole_partial exactLibm exactLibm_rounded.1 (-123456789) (by norm_num) (by norm_num)
  push_cast at h1 h3
  exact ⟨s, h1, h3⟩

theorem dtoaLoopD_congr {lib lib' : Libm} (h : ∀ k, lib.pow10 k = lib'.pow10 k) : ∀ (fuel : ℕ) (n : Dbl) (m : ℤ),
    dtoaLoopD lib fuel n m = dtoaLoopD lib' fuel n m := by
  intro fuel
  induction fuel with
  | zero => intros; rfl
  | succ fuel ih => intro n m; simp only [dtoaLoopD, h, ih]

/-- Numbers between `10 ^ -8` and 1 are written digit by digit from the point on. -/
theorem dtoaD_fraction {lib : Libm} (hl : RoundedLibm lib) {q : ℚ} (h1 : 1 / 10 ^ 8 ≤ q) (h2 : q < 1) :
    dtoaD lib (.fin q) = (do
      let s ← dtoaLoopD exactLibm 64 (.fin q) 0
      if s.length + 1 ≤ 32 then .ok s else .error .outOfBounds) := by
  obtain ⟨-, hp, hlog⟩ := hl
  have h0 : 0 < q := lt_of_lt_of_le (by norm_num) h1
  obtain ⟨l1, l2⟩ := hlog q h1 h2
  have hnn : ¬ q < 0 := not_lt.2 h0.le
  have huse : ¬ (lib.log10 q ≥ 14 ∨ (q < 0 ∧ lib.log10 q ≥ 9) ∨ lib.log10 q ≤ -9) := by
    rintro (h | ⟨h, -⟩ | h)
    · omega
    · exact hnn h
    · omega
  have hm : (if lib.log10 q < 1 then (0 : ℤ) else lib.log10 q) = 0 := if_pos (by omega)
  have hc : dtoaCharsD lib q = dtoaLoopD exactLibm 64 (.fin q) 0 := by
    rw [← dtoaLoopD_congr (lib := lib) (lib' := exactLibm) (fun k => by rw [hp]; rfl)]
    unfold dtoaCharsD
    simp only [if_neg hnn, if_neg huse, hm, List.nil_append, List.append_nil]
    cases dtoaLoopD lib 64 (.fin q) 0 <;> rfl
  unfold dtoaD
  simp only [if_neg h0.ne', hc]

end

/-- The `double` 0.3 is written as "0.299999999" and comes back as another number. -/
theorem C240_fraction_refuted : ∃ q, IsDbl q ∧ rnd (3 / 10) = .fin q ∧ ∀ lib, RoundedLibm lib →
    ∃ s, dtoaD lib (.fin q) = .ok s ∧ s = "0.299999999".toList ∧ atodD s ≠ .fin q := by
  refine ⟨5404319552844595 / 18014398509481984, by decide +kernel, by decide +kernel, fun lib hl => ⟨_, ?_, rfl, by decide +kernel⟩⟩
  rw [dtoaD_fraction hl (by norm_num) (by norm_num)]
  decide +kernel

/-- The `double` below 0.00001 is written with the character `:`, and the text denotes no number. -/
theorem C240_digit_refuted : ∃ q, IsDbl q ∧ ∀ lib, RoundedLibm lib →
    dtoaD lib (.fin q) = .ok "0.00000:".toList ∧ isNumber "0.00000:".toList = false := by
  refine ⟨368934881474191 / 36893488147419103232, by decide +kernel, fun lib hl => ⟨?_, by decide +kernel⟩⟩
  rw [dtoaD_fraction hl (by norm_num) (by norm_num)]
  decide +kernel

/-- What is not a number or not finite is written as a word that is read back as 0, and the sign of an infinity is not written. -/
theorem C240_words_refuted (lib : Libm) : (∃ s, dtoaD lib .nan = .ok s ∧ s = "nan".toList ∧ atodD s = .fin 0) ∧
    ∀ b, ∃ s, dtoaD lib (.inf b) = .ok s ∧ s = "inf".toList ∧ atodD s = .fin 0 :=
  ⟨⟨_, rfl, rfl, by decide +kernel⟩, fun b => ⟨_, rfl, rfl, by decide +kernel⟩⟩

end MLTK.Props
