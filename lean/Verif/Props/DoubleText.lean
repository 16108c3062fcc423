import Verif.Model.DoubleText
import Verif.Lemmas.DoubleNear
import Verif.Lemmas.Text
import Verif.Props.DoubleKernel
import Verif.Props.DoubleNorm
/-!
# C239: reading decimals in `double` arithmetic
-/
namespace MLTK.Spec
open MLTK.Fp

/-- A decimal with `k` digits after the point, which without its point reads as the integer `m`; it denotes `m / 10 ^ k`. -/
def Written (s : List Char) (m : ℤ) (k : ℕ) : Prop :=
  ∃ (sg : List Char) (sv : ℤ) (is fs : List Nat) (point : List Char),
    SignText sg (sv : ℚ) ∧ (∀ d ∈ is, d < 10) ∧ (∀ d ∈ fs, d < 10) ∧ is ++ fs ≠ [] ∧
    (point = ['.'] ∨ (point = [] ∧ fs = [])) ∧
    s = sg ++ is.map digitChar ++ point ++ fs.map digitChar ∧
    m = sv * digitsValue (is ++ fs) ∧ k = fs.length

/-- `x` is a `double`, and no `double` is closer to `v`. -/
def Nearest (x v : ℚ) : Prop := IsDbl x ∧ ∀ y, IsDbl y → |x - v| ≤ |y - v|

end MLTK.Spec

namespace MLTK.Props
open MLTK.Spec MLTK.Fp MLTK.Text

attribute [local irreducible] Fp.rnd Fp.near Fp.huge Fp.two

theorem digitsValue_append (a b : List Nat) : digitsValue (a ++ b) = digitsValue a * 10 ^ b.length + digitsValue b := by
  induction a with
  | nil => simp [digitsValue]
  | cons k a ih => simp only [List.cons_append, digitsValue, ih, List.length_append]; ring

/-- What a written decimal denotes. -/
theorem written_decimal {s : List Char} {m : ℤ} {k : ℕ} (h : Written s m k) : Decimal s ((m : ℚ) / 10 ^ k) := by
  obtain ⟨sg, sv, is, fs, point, h0, h1, h2, h3, h4, h5, rfl, rfl⟩ := h
  refine ⟨sg, sv, is, fs, point, h0, h1, h2, h3, h4, h5, ?_⟩
  have : (10 : ℚ) ^ fs.length ≠ 0 := by positivity
  rw [digitsValue_append]; push_cast; field_simp

theorem step_exact {v d : ℕ} (h : 10 * v + d ≤ 2 ^ 53) :
    ((Dbl.fin 10).mul (.fin (v : ℚ))).add (.fin (d : ℚ)) = .fin ((10 * v + d : ℕ) : ℚ) := by
  have h1 : (Dbl.fin 10).mul (.fin (v : ℚ)) = .fin ((10 * v : ℕ) : ℚ) := by
    have := isDbl_nat (n := 10 * v) (by omega)
    unfold IsDbl at this
    rw [← this]; simp only [Dbl.mul]; congr 1; push_cast; ring
  rw [h1]
  have := isDbl_nat h
  unfold IsDbl at this
  rw [← this]; simp only [Dbl.add]; congr 1; push_cast; ring

theorem readWhole_exact (ks : List Nat) (h : ∀ k ∈ ks, k < 10) (rest : List Char)
    (hr : ∀ c, rest.head? = some c → isDigit c = false) (v : ℕ) (hv : v * 10 ^ ks.length + digitsValue ks ≤ 2 ^ 53) :
    readWhole (ks.map digitChar ++ rest) (.fin (v : ℚ)) = (.fin ((v * 10 ^ ks.length + digitsValue ks : ℕ) : ℚ), rest) := by
  induction ks generalizing v with
  | nil =>
    simp only [List.map_nil, List.nil_append, List.length_nil, pow_zero, mul_one, digitsValue, add_zero]
    cases rest with
    | nil => rfl
    | cons c rest => simp [readWhole, hr c rfl]
  | cons k ks ih =>
    have hk := h k (by simp)
    have he : v * 10 ^ (k :: ks).length + digitsValue (k :: ks) = (10 * v + k) * 10 ^ ks.length + digitsValue ks := by
      simp only [List.length_cons, digitsValue]; ring
    rw [he] at hv ⊢
    have hle : 10 * v + k ≤ 2 ^ 53 := by
      have : 1 ≤ 10 ^ ks.length := Nat.one_le_pow _ _ (by norm_num)
      nlinarith
    simp only [List.map_cons, List.cons_append, readWhole, isDigit_digitChar hk, if_true]
    rw [digitVal_digitChar hk]
    have hs := step_exact hle
    rw [show (((k : ℤ) : ℚ)) = ((k : ℕ) : ℚ) by norm_cast, hs]
    exact ih (fun x hx => h x (by simp [hx])) _ hv

/-- The powers of ten up to `10 ^ 22` are doubles. -/
theorem tenPow_dbl {k : ℕ} (h : k ≤ 22) : IsDbl ((10 : ℚ) ^ k) := by
  have : ∀ k < 23, IsDbl ((10 : ℚ) ^ k) := by decide +kernel
  exact this k (by omega)

theorem readFrac_exact (ks : List Nat) (h : ∀ k ∈ ks, k < 10) (rest : List Char)
    (hr : ∀ c, rest.head? = some c → isDigit c = false) (v j : ℕ) (hv : v * 10 ^ ks.length + digitsValue ks ≤ 2 ^ 53)
    (hj : j + ks.length ≤ 22) :
    readFrac (ks.map digitChar ++ rest) (.fin (v : ℚ)) (.fin ((10 : ℚ) ^ j)) =
      (.fin ((v * 10 ^ ks.length + digitsValue ks : ℕ) : ℚ), .fin ((10 : ℚ) ^ (j + ks.length))) := by
  induction ks generalizing v j with
  | nil =>
    simp only [List.map_nil, List.nil_append, List.length_nil, pow_zero, mul_one, digitsValue, add_zero]
    cases rest with
    | nil => rfl
    | cons c rest => simp [readFrac, hr c rfl]
  | cons k ks ih =>
    have hk := h k (by simp)
    have he : v * 10 ^ (k :: ks).length + digitsValue (k :: ks) = (10 * v + k) * 10 ^ ks.length + digitsValue ks := by
      simp only [List.length_cons, digitsValue]; ring
    simp only [List.length_cons] at hj
    rw [he] at hv ⊢
    have hle : 10 * v + k ≤ 2 ^ 53 := by
      have : 1 ≤ 10 ^ ks.length := Nat.one_le_pow _ _ (by norm_num)
      nlinarith
    simp only [List.map_cons, List.cons_append, readFrac, isDigit_digitChar hk, if_true]
    rw [digitVal_digitChar hk]
    have hs := step_exact hle
    have hp : (Dbl.fin ((10 : ℚ) ^ j)).mul (.fin 10) = .fin ((10 : ℚ) ^ (j + 1)) := by
      have := tenPow_dbl (k := j + 1) (by omega)
      unfold IsDbl at this
      rw [← this]; simp only [Dbl.mul]; congr 1; rw [pow_succ]
    rw [show (((k : ℤ) : ℚ)) = ((k : ℕ) : ℚ) by norm_cast, hs, hp, ih (fun x hx => h x (by simp [hx])) _ _ hv (by omega)]
    simp only [List.length_cons]
    rw [show j + 1 + ks.length = j + (ks.length + 1) by omega]

theorem atodD_written {ws s rest : List Char} {m : ℤ} {k : ℕ} (hws : ∀ c ∈ ws, IsBlank c) (hs : Written s m k)
    (hr : ∀ c, rest.head? = some c → isDigit c = false ∧ c ≠ '.') (hm : |m| ≤ 2 ^ 53) (hk : k ≤ 22) :
    atodD (ws ++ s ++ rest) = rnd ((m : ℚ) / 10 ^ k) := by
  obtain ⟨sg, sv, is, fs, point, h0, h1, h2, h3, h4, rfl, rfl, rfl⟩ := hs
  have hsv : sv = 1 ∨ sv = -1 := by
    generalize hv : ((sv : ℤ) : ℚ) = q at h0
    cases h0
    · exact Or.inl (by exact_mod_cast hv)
    · exact Or.inl (by exact_mod_cast hv)
    · exact Or.inr (by exact_mod_cast hv)
  have hN : digitsValue (is ++ fs) ≤ 2 ^ 53 := by
    have : ((digitsValue (is ++ fs) : ℕ) : ℤ) ≤ 2 ^ 53 := by
      rcases hsv with rfl | rfl <;> simpa using hm
    exact_mod_cast this
  have hdot : (if (point ++ (fs.map digitChar ++ rest)).head? = some '.' then
      (point ++ (fs.map digitChar ++ rest)).tail else (point ++ (fs.map digitChar ++ rest))) =
      fs.map digitChar ++ rest := by
    rcases h4 with rfl | ⟨rfl, rfl⟩
    · simp
    · simp only [List.map_nil, List.nil_append]
      rw [if_neg]
      intro h
      exact (hr '.' h).2 rfl
  have hp1 : ∀ c, (point ++ (fs.map digitChar ++ rest)).head? = some c → isDigit c = false := by
    intro c hc
    rcases h4 with rfl | ⟨rfl, rfl⟩
    · simp at hc; subst hc; decide
    · exact (hr c (by simpa using hc)).1
  have happ := digitsValue_append is fs
  have hI : digitsValue is ≤ 2 ^ 53 := by
    have : 1 ≤ 10 ^ fs.length := Nat.one_le_pow _ _ (by norm_num)
    nlinarith
  have hwhole : readWhole (is.map digitChar ++ (point ++ (fs.map digitChar ++ rest))) (.fin 0) =
      (.fin ((digitsValue is : ℕ) : ℚ), point ++ (fs.map digitChar ++ rest)) := by
    have := readWhole_exact is h1 _ hp1 0 (by simpa using hI)
    simpa using this
  have hfrac : readFrac (fs.map digitChar ++ rest) (.fin ((digitsValue is : ℕ) : ℚ)) (.fin 1) =
      (.fin ((digitsValue (is ++ fs) : ℕ) : ℚ), .fin ((10 : ℚ) ^ fs.length)) := by
    have := readFrac_exact fs h2 rest (fun c hc => (hr c hc).1) (digitsValue is) 0 (by omega) (by omega)
    rw [← happ] at this
    simpa using this
  have hfin : ∀ z : ℤ, (z = 1 ∨ z = -1) →
      ((Dbl.fin (z : ℚ)).mul (.fin ((digitsValue (is ++ fs) : ℕ) : ℚ))).div (.fin ((10 : ℚ) ^ fs.length)) =
      rnd (((z * digitsValue (is ++ fs) : ℤ) : ℚ) / 10 ^ fs.length) := by
    intro z hz
    have hb : |z * ((digitsValue (is ++ fs) : ℕ) : ℤ)| ≤ 2 ^ 53 := by
      have : ((digitsValue (is ++ fs) : ℕ) : ℤ) ≤ 2 ^ 53 := by exact_mod_cast hN
      rcases hz with rfl | rfl <;> simpa using this
    have := mul_whole hb
    rw [show (((digitsValue (is ++ fs) : ℕ) : ℤ) : ℚ) = ((digitsValue (is ++ fs) : ℕ) : ℚ) by norm_cast] at this
    rw [this, div_fin (by positivity)]
  have hnb : ∀ c, (is.map digitChar ++ (point ++ (fs.map digitChar ++ rest))).head? = some c →
      isDigit c = true ∨ c = '.' := by
    intro c hc
    rcases head?_append_digits is h1 _ c hc with h | h
    · exact Or.inl h
    · rcases h4 with rfl | ⟨rfl, rfl⟩
      · simp at h; exact Or.inr h.symm
      · cases is with
        | nil => simp at h3
        | cons k is =>
          simp only [List.map_cons, List.cons_append, List.head?_cons, Option.some.injEq] at hc
          subst hc
          exact Or.inl (isDigit_digitChar (h1 k (by simp)))
  have hskip : (ws ++ (sg ++ is.map digitChar ++ point ++ fs.map digitChar) ++ rest).dropWhile isSpace =
      sg ++ (is.map digitChar ++ (point ++ (fs.map digitChar ++ rest))) := by
    rw [show ws ++ (sg ++ is.map digitChar ++ point ++ fs.map digitChar) ++ rest =
      ws ++ (sg ++ (is.map digitChar ++ (point ++ (fs.map digitChar ++ rest)))) by simp]
    refine dropWhile_append_stop _ _ _ (fun c hc => (isSpace_iff c).2 (hws c hc)) ?_
    intro c hc
    generalize hv : ((sv : ℤ) : ℚ) = q at h0
    cases h0 with
    | none =>
      rcases hnb c hc with h | rfl
      · exact (isDigit_props c h).2.2.2.1
      · decide
    | plus => simp at hc; subst hc; decide
    | minus => simp at hc; subst hc; decide
  simp only [atodD, hskip]
  generalize hv : ((sv : ℤ) : ℚ) = q at h0
  cases h0 with
  | none =>
    have hm : ∀ c, c = '-' ∨ c = '+' →
        ¬ ([] ++ (is.map digitChar ++ (point ++ (fs.map digitChar ++ rest)))).head? = some c := by
      intro c hc h
      rcases hnb c h with h' | rfl
      · rcases hc with rfl | rfl
        · exact (isDigit_props _ h').1 rfl
        · exact (isDigit_props _ h').2.1 rfl
      · simp at hc
    rw [if_neg (hm '-' (Or.inl rfl)), if_neg (not_or.2 ⟨hm '+' (Or.inr rfl), hm '-' (Or.inl rfl)⟩)]
    simp only [List.nil_append, hwhole, hdot, hfrac]
    have : sv = 1 := by exact_mod_cast hv
    subst this
    simpa using hfin 1 (Or.inl rfl)
  | plus =>
    simp only [List.cons_append, List.nil_append, List.head?_cons, Option.some.injEq, true_or, if_true, List.tail_cons]
    rw [if_neg (by decide)]
    simp only [hwhole, hdot, hfrac]
    have : sv = 1 := by exact_mod_cast hv
    subst this
    simpa using hfin 1 (Or.inl rfl)
  | minus =>
    simp only [List.cons_append, List.nil_append, List.head?_cons, or_true, if_true, List.tail_cons]
    simp only [hwhole, hdot, hfrac]
    have : sv = -1 := by exact_mod_cast hv
    subst this
    simpa using hfin (-1) (Or.inr rfl)

/-- A decimal whose digits form a number of at most `2 ^ 53`, with at most 22 of them after the point, is read as the
`double` nearest to the number it denotes, after any white space and before any text that does not continue it; of two nearest
ones the even one is chosen, as for every operation.  Missing: longer decimals, for which it is false. -/
theorem C239_nearest_partial (ws s rest : List Char) (m : ℤ) (k : ℕ) (hws : ∀ c ∈ ws, IsBlank c) (hs : Written s m k)
    (hr : ∀ c, rest.head? = some c → ¬ ('0' ≤ c ∧ c ≤ '9') ∧ c ≠ '.') (hm : |m| ≤ 2 ^ 53) (hk : k ≤ 22) :
    ∃ x, atodD (ws ++ s ++ rest) = .fin x ∧ Nearest x ((m : ℚ) / 10 ^ k) ∧ rnd ((m : ℚ) / 10 ^ k) = .fin x := by
  have hq : |(m : ℚ) / 10 ^ k| ≤ 2 ^ 53 := by
    rw [abs_div, abs_of_pos (a := (10 : ℚ) ^ k) (by positivity), div_le_iff₀ (by positivity)]
    have h1 : |(m : ℚ)| ≤ 2 ^ 53 := by rw [← Int.cast_abs]; exact_mod_cast hm
    have h2 : (1 : ℚ) ≤ 10 ^ k := one_le_pow₀ (by norm_num)
    nlinarith
  have hb : IsDbl (2 ^ 53 : ℚ) := by decide +kernel
  obtain ⟨x, hx, -, -, -⟩ := rnd_between hb.neg hb (abs_le.1 hq).1 (abs_le.1 hq).2
  refine ⟨x, ?_, ⟨rnd_isDbl hx, fun y hy => ?_⟩, hx⟩
  · rw [atodD_written hws hs ?_ hm hk, hx]
    intro c hc
    obtain ⟨h1, h2⟩ := hr c hc
    refine ⟨?_, h2⟩
    by_contra hd
    apply h1
    simp only [Bool.not_eq_false, isDigit, Bool.and_eq_true, decide_eq_true_eq] at hd
    constructor
    · show ('0' : Char).val ≤ c.val
      rw [UInt32.le_iff_toNat_le]; exact hd.1
    · show c.val ≤ ('9' : Char).val
      rw [UInt32.le_iff_toNat_le]; exact hd.2
  · rw [(rnd_fin_inv hx).1]
    exact near_nearest _ (isDbl_iff.1 hy).1

/-- If such a decimal denotes a `double`, that `double` is read. -/
theorem C239_exact_partial (s : List Char) (m : ℤ) (k : ℕ) (hs : Written s m k) (hm : |m| ≤ 2 ^ 53) (hk : k ≤ 22)
    (hd : IsDbl ((m : ℚ) / 10 ^ k)) : atodD s = .fin ((m : ℚ) / 10 ^ k) := by
  obtain ⟨x, h1, -, h3⟩ := C239_nearest_partial [] s [] m k (by simp) hs (by simp) hm hk
  simp only [List.nil_append, List.append_nil] at h1
  rw [h1, ← h3]; exact hd

/-- "-12.50" is such a decimal and is read exactly; "0.1" is one and is read as the `double` nearest to one tenth. -/
example : Written "-12.50".toList (-1250) 2 ∧ atodD "-12.50".toList = .fin (-25/2) ∧ IsDbl ((-1250 : ℤ) / 10 ^ 2 : ℚ) ∧
    Written "0.1".toList 1 1 ∧ atodD "0.1".toList = .fin (3602879701896397 / 2 ^ 55) := by
  refine ⟨⟨['-'], -1, [1, 2], [5, 0], ['.'], ?_, by decide, by decide, by decide, Or.inl rfl, by decide, by decide, rfl⟩,
    by decide +kernel, by decide +kernel,
    ⟨[], 1, [0], [1], ['.'], ?_, by decide, by decide, by decide, Or.inl rfl, by decide, by decide, rfl⟩,
    by decide +kernel⟩
  · have := SignText.minus; simpa using this
  · have := SignText.none; simpa using this

/-- With sixteen digits the number read need not be a nearest one: "0.9652208359910183" is read as the second nearest. -/
theorem C239_digits_refuted : ∃ s m k x y, Written s m k ∧ k ≤ 22 ∧ atodD s = .fin x ∧ IsDbl y ∧
    |y - (m : ℚ) / 10 ^ k| < |x - (m : ℚ) / 10 ^ k| := by
  refine ⟨"0.9652208359910183".toList, 9652208359910183, 16, 4346968197299389 / 4503599627370496, 8693936394598777 / 9007199254740992,
    ⟨[], 1, [0], [9, 6, 5, 2, 2, 0, 8, 3, 5, 9, 9, 1, 0, 1, 8, 3], ['.'], ?_, by decide, by decide, by decide,
    Or.inl rfl, by decide, by decide, rfl⟩, by norm_num, ?_, ?_, ?_⟩
  · have := SignText.none; simpa using this
  all_goals decide +kernel

/-- With 23 digits after the point even a single significant digit is not always read as a nearest `double`. -/
theorem C239_places_refuted : ∃ s x y, Written s 1 23 ∧ atodD s = .fin x ∧ IsDbl y ∧
    |y - (1 : ℚ) / 10 ^ 23| < |x - (1 : ℚ) / 10 ^ 23| := by
  refine ⟨"0.00000000000000000000001".toList, 3402823669209385 / 340282366920938463463374607431768211456,
    6805647338418769 / 680564733841876926926749214863536422912, ⟨[], 1, [0], List.replicate 22 0 ++ [1], ['.'], ?_, by decide, by decide, by decide,
    Or.inl rfl, by decide, by decide, rfl⟩, ?_, ?_, ?_⟩
  · have := SignText.none; simpa using this
  all_goals decide +kernel

/-- A decimal that denotes one is read as NaN if enough zeros follow the point. -/
theorem C239_nan_refuted : ∃ s, Decimal s 1 ∧ atodD s = .nan := by
  refine ⟨'1' :: '.' :: (List.replicate 309 0).map digitChar, ?_, by decide +kernel⟩
  have hz : ∀ n, digitsValue (List.replicate n 0) = 0 := by
    intro n
    induction n with
    | zero => rfl
    | succ n ih => simp [List.replicate_succ, digitsValue, ih]
  refine ⟨[], 1, [1], List.replicate 309 0, ['.'], SignText.none, by decide, ?_, List.cons_ne_nil _ _, Or.inl rfl, rfl, ?_⟩
  · intro d hd
    rw [List.eq_of_mem_replicate hd]; norm_num
  · rw [hz]; norm_num [digitsValue]

end MLTK.Props
