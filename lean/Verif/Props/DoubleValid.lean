import Verif.Model.DoubleValid
import Verif.Lemmas.DoubleSmoTrain
import Verif.Props.Validation
/-!
# C222-C223: accuracies and cross-validation errors in `double` arithmetic
-/
namespace MLTK.Props
open MLTK.Fp MLTK.Spec
open MLTK.Valid (Outcome confusion)

attribute [local irreducible] Fp.rnd Fp.near Fp.huge Fp.two

/-! ## C222: accuracies -/

theorem addNat_exact {a b : ℕ} (h : a + b ≤ 2 ^ 53) : (Dbl.fin (a : ℚ)).add (.fin (b : ℚ)) = .fin ((a + b : ℕ) : ℚ) := by
  have := ofNat_eq h
  simp only [Dbl.ofNat] at this
  simp only [Dbl.add]
  rw [← this]
  push_cast
  rfl

theorem rnd_unit {x : ℚ} (h0 : 0 ≤ x) (h1 : x ≤ 1) : rnd x = .fin (near x) ∧ 0 ≤ near x ∧ near x ≤ 1 := by
  refine ⟨(rnd_small (by rw [abs_le]; constructor <;> linarith)).1, near_nonneg h0, ?_⟩
  have := near_mono h1
  rwa [show near 1 = 1 by decide +kernel] at this

theorem divNat_eq {a b : ℕ} (hb : 0 < b) (h : a ≤ b) (hb' : b ≤ 2 ^ 53) :
    (Dbl.ofNat a).div (.ofNat b) = .fin (near ((a : ℚ) / b)) := by
  rw [ofNat_eq (le_trans h hb'), ofNat_eq hb']
  have hb0 : (b : ℚ) ≠ 0 := by exact_mod_cast hb.ne'
  simp only [Dbl.div, if_neg hb0]
  refine (rnd_unit (by positivity) ?_).1
  rw [div_le_one (by exact_mod_cast hb)]
  exact_mod_cast h

/-- A ratio of counts below `2^53` keeps clear of the ends. -/
theorem ratio_bounds {a b : ℕ} (hb : 0 < b) (hb' : b ≤ 2 ^ 53) :
    (0 < a → 1 / 2 ^ 53 ≤ (a : ℚ) / b) ∧ (a < b → (a : ℚ) / b ≤ 1 - 1 / 2 ^ 53) := by
  have hbq : (0 : ℚ) < b := by exact_mod_cast hb
  have hbl : (b : ℚ) ≤ 2 ^ 53 := by exact_mod_cast hb'
  constructor
  · intro ha
    have : (1 : ℚ) ≤ a := by exact_mod_cast ha
    rw [div_le_div_iff₀ (by positivity) hbq]
    nlinarith
  · intro ha
    have : (a : ℚ) + 1 ≤ b := by exact_mod_cast ha
    rw [div_le_iff₀ hbq]
    have : (b : ℚ) / 2 ^ 53 ≤ 1 := by rw [div_le_one (by positivity)]; exact hbl
    linarith

theorem near_lo : near (1 / 2 ^ 53) = 1 / 2 ^ 53 := by decide +kernel
theorem near_hi : near (1 - 1 / 2 ^ 53) = 1 - 1 / 2 ^ 53 := by decide +kernel

theorem near_ratio {a b : ℕ} (hb : 0 < b) (h : a ≤ b) (hb' : b ≤ 2 ^ 53) :
    (near ((a : ℚ) / b) = 0 ↔ a = 0) ∧ (near ((a : ℚ) / b) = 1 ↔ a = b) := by
  have hbq : (b : ℚ) ≠ 0 := by exact_mod_cast hb.ne'
  obtain ⟨h1, h2⟩ := ratio_bounds (a := a) hb hb'
  constructor
  · constructor
    · intro hz
      by_contra h0
      have := near_mono (h1 (Nat.pos_of_ne_zero h0))
      rw [hz, near_lo] at this
      norm_num at this
    · rintro rfl; simp [near_zero]
  · constructor
    · intro hz
      by_contra h0
      have := near_mono (h2 (lt_of_le_of_ne h h0))
      rw [hz, near_hi] at this
      norm_num at this
    · rintro rfl
      rw [div_self hbq]; decide +kernel

theorem hitsLoop_eq (os : List Outcome) : ∀ a : ℕ, a + os.length ≤ 2 ^ 53 →
    os.foldl (fun (acc : Dbl) o => if o.pred = o.y then acc.add (.fin 1) else acc) (.fin (a : ℚ)) =
      .fin ((a + correct os : ℕ) : ℚ) := by
  induction os with
  | nil => intro a _; simp [correct]
  | cons o os ih =>
    intro a ha
    rw [List.length_cons] at ha
    rw [List.foldl_cons]
    have hc : correct (o :: os) = correct os + if o.y = o.pred then 1 else 0 := by
      unfold correct; rw [List.countP_cons]; simp
    rw [hc]
    by_cases h : o.pred = o.y
    · rw [if_pos h, if_pos h.symm]
      have := addNat_exact (a := a) (b := 1) (by omega)
      rw [Nat.cast_one] at this
      rw [this, ih _ (by omega)]
      congr 2
      omega
    · rw [if_neg h, if_neg (Ne.symm h), ih _ (by omega)]
      rfl

theorem accuracy_eq (os : List Outcome) (h0 : os ≠ []) (hn : os.length ≤ 2 ^ 53) :
    Fp.accuracy os = .fin (near ((correct os : ℚ) / os.length)) := by
  have hl : 0 < os.length := List.length_pos_iff.mpr h0
  have hc : correct os ≤ os.length := List.countP_le_length
  unfold Fp.accuracy hitsLoop
  have := hitsLoop_eq os 0 (by omega)
  rw [Nat.cast_zero, Nat.zero_add, ← ofNat_eq (le_trans hc hn)] at this
  rw [this]
  exact divNat_eq hl hc hn

/-- **C222 (accuracy)** The accuracy a user gets for any list of at most `2^53` answers is a number of `[0, 1]`, the `double`
nearest to the fraction of correct answers; it is 1 exactly when every answer is correct and 0 exactly when none is. -/
theorem C222_accuracy (os : List Outcome) (h0 : os ≠ []) (hn : os.length ≤ 2 ^ 53) :
    ∃ q, Fp.accuracy os = .fin q ∧ rnd ((correct os : ℚ) / os.length) = .fin q ∧ 0 ≤ q ∧ q ≤ 1 ∧
      (q = 1 ↔ ∀ o ∈ os, o.y = o.pred) ∧ (q = 0 ↔ ∀ o ∈ os, o.y ≠ o.pred) := by
  have hl : 0 < os.length := List.length_pos_iff.mpr h0
  have hc : correct os ≤ os.length := List.countP_le_length
  have hu := rnd_unit (x := (correct os : ℚ) / os.length) (by positivity) (by
    rw [div_le_one (by exact_mod_cast hl)]; exact_mod_cast hc)
  obtain ⟨e0, e1⟩ := near_ratio hl hc hn
  refine ⟨_, accuracy_eq os h0 hn, hu.1, hu.2.1, hu.2.2, ?_, ?_⟩
  · rw [e1]
    unfold correct
    rw [List.countP_eq_length]
    simp
  · rw [e0]
    unfold correct
    rw [List.countP_eq_zero]
    simp

/-- **C222 (order)** Of two evaluations of the same number of samples, fewer than `2^53`, the one with more correct answers has the
greater accuracy: rounding never makes them equal. -/
theorem C222_order (os os' : List Outcome) (hl : os.length = os'.length) (hn : os.length < 2 ^ 53)
    (h : correct os < correct os') : (Fp.accuracy os).lt (Fp.accuracy os') = true := by
  have hc : correct os ≤ os.length := List.countP_le_length
  have hc' : correct os' ≤ os'.length := List.countP_le_length
  have h0 : os' ≠ [] := by rintro rfl; simp [correct] at h
  have hp' : 0 < os'.length := List.length_pos_iff.mpr h0
  have h0' : os ≠ [] := by rintro rfl; simp at hl; omega
  rw [accuracy_eq os h0' (by omega), accuracy_eq os' h0 (by omega)]
  simp only [Dbl.lt, decide_eq_true_eq]
  rw [hl] at hn ⊢
  have hlq : (0 : ℚ) < os'.length := by exact_mod_cast hp'
  obtain ⟨_, hb1⟩ := ratio_bounds (a := correct os) hp' hn.le
  rcases Nat.lt_or_ge (correct os') os'.length with hlt | hge
  · have hx : (correct os : ℚ) / os'.length < 1 := by
      rw [div_lt_one hlq]; exact_mod_cast (by omega : correct os < os'.length)
    have hx' : (correct os' : ℚ) / os'.length < 1 := by rw [div_lt_one hlq]; exact_mod_cast hlt
    have e1 := abs_le.1 (near_err_lt (x := (correct os : ℚ) / os'.length) (k := 0) (by norm_num) (by
      rw [abs_of_nonneg (by positivity), show two 0 = 1 by decide +kernel]; exact hx))
    have e2 := abs_le.1 (near_err_lt (x := (correct os' : ℚ) / os'.length) (k := 0) (by norm_num) (by
      rw [abs_of_nonneg (by positivity), show two 0 = 1 by decide +kernel]; exact hx'))
    rw [show two (0 - 54) = 1 / 2 ^ 54 by decide +kernel] at e1 e2
    have hd : (1 : ℚ) / 2 ^ 53 < (correct os' : ℚ) / os'.length - (correct os : ℚ) / os'.length := by
      rw [← sub_div, div_lt_div_iff₀ (by positivity) hlq]
      have k1 : (correct os : ℚ) + 1 ≤ correct os' := by exact_mod_cast h
      have k2 : (os'.length : ℚ) < 2 ^ 53 := by exact_mod_cast hn
      nlinarith
    linarith [e1.2, e2.1]
  · have he : correct os' = os'.length := by omega
    rw [he, div_self hlq.ne', show near 1 = 1 by decide +kernel]
    have := near_mono (hb1 (by omega))
    rw [near_hi] at this
    linarith

theorem accRow_eq (i : Nat) (row : List Nat) : ∀ (j a b : ℕ), a ≤ b → b + row.sum ≤ 2 ^ 53 →
    ∃ a' : ℕ, a' ≤ b + row.sum ∧
      Fp.accRow i row j (.fin (a : ℚ), .fin (b : ℚ)) = (.fin (a' : ℚ), .fin ((b + row.sum : ℕ) : ℚ)) ∧
      Valid.accRow (K := ℚ) i row j ((a : ℚ), (b : ℚ)) = ((a' : ℚ), ((b + row.sum : ℕ) : ℚ)) := by
  induction row with
  | nil => intro j a b h _; exact ⟨a, by simpa using h, by simp [Fp.accRow], by simp [Valid.accRow]⟩
  | cons x row ih =>
    intro j a b hab hb
    rw [List.sum_cons] at hb
    have e2 := addNat_exact (a := b) (b := x) (by omega)
    have e1 := addNat_exact (a := a) (b := x) (by omega)
    rw [← ofNat_eq (n := x) (by omega)] at e1 e2
    unfold Fp.accRow Valid.accRow
    rw [e1, e2]
    by_cases hij : i ≠ j
    · simp only [if_pos hij]
      obtain ⟨a', h1, h2, h3⟩ := ih (j + 1) (a + x) (b + x) (by omega) (by omega)
      refine ⟨a', by rw [List.sum_cons]; omega, by rw [h2, List.sum_cons, Nat.add_assoc], ?_⟩
      rw [List.sum_cons, ← Nat.add_assoc, ← h3]
      push_cast
      rfl
    · simp only [if_neg hij]
      obtain ⟨a', h1, h2, h3⟩ := ih (j + 1) a (b + x) (by omega) (by omega)
      refine ⟨a', by rw [List.sum_cons]; omega, by rw [h2, List.sum_cons, Nat.add_assoc], ?_⟩
      rw [List.sum_cons, ← Nat.add_assoc, ← h3]
      push_cast
      rfl

theorem accRows_eq (m : List (List Nat)) : ∀ (i a b : ℕ), a ≤ b → b + total m ≤ 2 ^ 53 →
    ∃ a' : ℕ, a' ≤ b + total m ∧
      Fp.accRows m i (.fin (a : ℚ), .fin (b : ℚ)) = (.fin (a' : ℚ), .fin ((b + total m : ℕ) : ℚ)) ∧
      Valid.accRows (K := ℚ) m i ((a : ℚ), (b : ℚ)) = ((a' : ℚ), ((b + total m : ℕ) : ℚ)) := by
  induction m with
  | nil => intro i a b h _; exact ⟨a, by simpa [total] using h, by simp [Fp.accRows, total], by simp [Valid.accRows, total]⟩
  | cons row m ih =>
    intro i a b hab hb
    have ht : total (row :: m) = row.sum + total m := by simp [total]
    rw [ht] at hb
    obtain ⟨a1, h1, h2, h3⟩ := accRow_eq i row 0 a b hab (by omega)
    obtain ⟨a2, k1, k2, k3⟩ := ih (i + 1) a1 (b + row.sum) h1 (by omega)
    unfold Fp.accRows Valid.accRows
    rw [h2, h3, ht]
    exact ⟨a2, by omega, by rw [k2, Nat.add_assoc], by rw [k3, Nat.add_assoc]⟩

/-- **C222 (percentage)** The accuracy computed from the confusion matrix of any list of at most `2^53` answers, labels and answers
among the classes, is a number of `[0, 100]`; it is 100 exactly when every answer is correct, 0 exactly when none is. -/
theorem C222_percentage (classes : List Int) (hc : classes.Nodup) (os : List Outcome) (h0 : os ≠ [])
    (hk : KnownLabels classes os) (hn : os.length ≤ 2 ^ 53) :
    ∃ m q, confusion classes os = .ok m ∧ Fp.confusionAccuracy m = .fin q ∧ 0 ≤ q ∧ q ≤ 100 ∧
      (q = 100 ↔ ∀ o ∈ os, o.y = o.pred) ∧ (q = 0 ↔ ∀ o ∈ os, o.y ≠ o.pred) := by
  obtain ⟨o, hoo⟩ := List.exists_mem_of_ne_nil os h0
  have hcl : classes ≠ [] := List.ne_nil_of_mem (hk o hoo).1
  obtain ⟨m, hm, hacc, _⟩ := C53_matrix_partial (K := ℚ) classes hc os h0 hk
  obtain ⟨m', hm', _, htot⟩ := C52_transposed_partial classes hc hcl os hk
  rw [hm] at hm'
  cases hm'
  have hl : 0 < os.length := List.length_pos_iff.mpr h0
  have hlq : (0 : ℚ) < os.length := by exact_mod_cast hl
  obtain ⟨e, he, hd, hq⟩ := accRows_eq m 0 0 0 (le_refl _) (by omega)
  rw [Nat.cast_zero] at hd hq
  rw [Nat.zero_add, htot] at he hd hq
  have hcor : correct os ≤ os.length := List.countP_le_length
  have hex : (e : ℚ) / os.length = 1 - (correct os : ℚ) / os.length := by
    unfold Valid.confusionAccuracy at hacc
    rw [hq] at hacc
    simp only [Valid.fdiv, if_neg hlq.ne', Option.map_some, Option.some.injEq] at hacc
    have := mul_div_assoc (100 : ℚ) (correct os : ℚ) os.length
    linarith
  have hee : e = os.length - correct os := by
    have : (e : ℚ) = os.length - correct os := by
      field_simp at hex
      linarith
    have h2 : (e : ℚ) = ((os.length - correct os : ℕ) : ℚ) := by rw [this, Nat.cast_sub hcor]
    exact_mod_cast h2
  have hall : (e = 0 ↔ ∀ o ∈ os, o.y = o.pred) := by
    have : e = 0 ↔ correct os = os.length := by omega
    rw [this]; unfold correct; rw [List.countP_eq_length]; simp
  have hnone : (e = os.length ↔ ∀ o ∈ os, o.y ≠ o.pred) := by
    have : e = os.length ↔ correct os = 0 := by omega
    rw [this]; unfold correct; rw [List.countP_eq_zero]; simp
  obtain ⟨r0, r1⟩ := near_ratio hl he hn
  have hdiv := divNat_eq hl he hn
  rw [ofNat_eq (le_trans he hn), ofNat_eq hn] at hdiv
  set x := near ((e : ℚ) / os.length) with hx
  have hu := rnd_unit (x := (e : ℚ) / os.length) (by positivity) (by rw [div_le_one hlq]; exact_mod_cast he)
  rw [← hx] at hu
  have hy := rnd_unit (x := 1 - x) (by linarith [hu.2.2]) (by linarith [hu.2.1])
  refine ⟨m, near (near (1 - x) * 100), hm, ?_, near_nonneg (by linarith [hy.2.1]), ?_, ?_, ?_⟩
  · unfold Fp.confusionAccuracy
    rw [hd]
    simp only []
    rw [hdiv, sub_small (by rw [abs_le]; constructor <;> linarith [hu.2.1, hu.2.2])]
    simp only [Dbl.mul]
    exact (rnd_small (by rw [abs_le]; constructor <;> linarith [hy.2.1, hy.2.2])).1
  · have := near_mono (show near (1 - x) * 100 ≤ 100 by linarith [hy.2.2])
    rwa [show near 100 = 100 by decide +kernel] at this
  · rw [← hall]
    constructor
    · intro h
      by_contra hne
      have h1 := near_mono ((ratio_bounds (a := e) hl hn).1 (Nat.pos_of_ne_zero hne))
      rw [near_lo, ← hx] at h1
      have h2 := near_mono (show 1 - x ≤ 1 - 1 / 2 ^ 53 by linarith)
      rw [near_hi] at h2
      have h3 := near_mono (show near (1 - x) * 100 ≤ (1 - 1 / 2 ^ 53) * 100 by linarith)
      rw [h] at h3
      have : near ((1 - 1 / 2 ^ 53) * 100) < 100 := by decide +kernel
      linarith
    · intro h
      rw [r0.2 h, sub_zero, show near 1 = 1 by decide +kernel, one_mul]
      decide +kernel
  · rw [← hnone]
    constructor
    · intro h
      by_contra hne
      have h1 := near_mono ((ratio_bounds (a := e) hl hn).2 (lt_of_le_of_ne he hne))
      rw [near_hi, ← hx] at h1
      have h2 := near_mono (show 1 / 2 ^ 53 ≤ 1 - x by linarith)
      rw [near_lo] at h2
      have h3 := near_mono (show 1 / 2 ^ 53 * 100 ≤ near (1 - x) * 100 by linarith)
      rw [h] at h3
      have : 0 < near (1 / 2 ^ 53 * 100) := by decide +kernel
      linarith
    · intro h
      rw [r1.2 h, sub_self, near_zero, zero_mul, near_zero]

/-- Five answers, three of them correct. -/
def fiveAnswers : List Outcome := [⟨1, 1⟩, ⟨-1, 1⟩, ⟨1, 1⟩, ⟨-1, -1⟩, ⟨1, -1⟩]

example : fiveAnswers ≠ [] ∧ fiveAnswers.length ≤ 2 ^ 53 ∧ KnownLabels [1, -1] fiveAnswers ∧ correct fiveAnswers = 3 ∧
    Fp.accuracy fiveAnswers = .fin (5404319552844595 / 9007199254740992) := by
  refine ⟨by decide, by decide, by unfold KnownLabels; decide, by decide, by decide +kernel⟩

/-- **C222 (refuted: no samples)** The accuracy computed from the matrix of no samples is not a number. -/
theorem C222_empty_refuted : ¬ ∀ (classes : List Int) (os : List Outcome) (m : List (List Nat)), classes.Nodup →
    KnownLabels classes os → confusion classes os = .ok m → Fp.confusionAccuracy m ≠ .nan := by
  intro h
  exact h [1, -1] [] [[0, 0], [0, 0]] (by decide) (by unfold KnownLabels; decide) rfl (by decide +kernel)

/-- **C222 (complement)** The accuracy and the error of a metrics report add up to 1, also after rounding. -/
theorem C222_complement (tp size : Nat) (h : tp ≤ size) (h0 : 0 < size) (hn : size ≤ 2 ^ 53) :
    (reportRates tp size).1.add (reportRates tp size).2 = .fin 1 := by
  have hlq : (0 : ℚ) < size := by exact_mod_cast h0
  have hu := rnd_unit (x := (tp : ℚ) / size) (by positivity) (by rw [div_le_one hlq]; exact_mod_cast h)
  unfold reportRates
  simp only []
  rw [divNat_eq h0 h hn]
  set x := near ((tp : ℚ) / size)
  have hy := rnd_unit (x := 1 - x) (by linarith [hu.2.2]) (by linarith [hu.2.1])
  rw [sub_small (by rw [abs_le]; constructor <;> linarith [hu.2.1, hu.2.2]),
    add_small (by rw [abs_le]; constructor <;> linarith [hu.2.1, hu.2.2, hy.2.1, hy.2.2])]
  congr 1
  rcases eq_or_lt_of_le hu.2.1 with hx0 | hxp
  · rw [← hx0]; decide +kernel
  · have e1 := abs_le.1 (near_err_lt (x := 1 - x) (k := 0) (by norm_num) (by
      rw [abs_of_nonneg (by linarith [hu.2.2]), show two 0 = 1 by decide +kernel]; linarith))
    rw [show two (0 - 54) = 1 / 2 ^ 54 by decide +kernel] at e1
    have h1 := near_mono (show x + near (1 - x) ≤ 1 + 1 / 2 ^ 54 by linarith [e1.2])
    have h2 := near_mono (show 1 - 1 / 2 ^ 54 ≤ x + near (1 - x) by linarith [e1.1])
    rw [show near (1 + 1 / 2 ^ 54) = 1 by decide +kernel] at h1
    rw [show near (1 - 1 / 2 ^ 54) = 1 by decide +kernel] at h2
    exact le_antisymm h1 h2

example : 1 ≤ 3 ∧ reportRates 1 3 = (.fin (6004799503160661 / 18014398509481984), .fin (6004799503160662 / 9007199254740992)) :=
  ⟨by decide, by decide +kernel⟩

/-! ## C223: cross-validation -/

theorem near_100 : near 100 = 100 := by decide +kernel

/-- Adding up `double`s of `[0, 100]`. -/
theorem sum_percent (xs : List ℚ) (hx : ∀ x ∈ xs, near x = x ∧ 0 ≤ x ∧ x ≤ 100) : ∀ (q : ℚ) (m : ℕ), near q = q → 0 ≤ q →
    q ≤ 100 * m → m + xs.length ≤ 2 ^ 46 →
    ∃ q', xs.foldl (fun (e : Dbl) x => e.add (.fin x)) (.fin q) = .fin q' ∧ near q' = q' ∧ q ≤ q' ∧
      q' ≤ 100 * (m + xs.length : ℕ) ∧ (∀ x ∈ xs, x ≤ q') ∧ ((∀ x ∈ xs, x = 0) → q' = q) ∧
      ((∀ x ∈ xs, x = 100) → q = 100 * m → q' = 100 * (m + xs.length : ℕ)) := by
  induction xs with
  | nil =>
    intro q m hq _ hm _
    exact ⟨q, rfl, hq, le_refl _, by simpa using hm, by simp, fun _ => rfl, fun _ h => by simpa using h⟩
  | cons x xs ih =>
    intro q m hq h0 hm hlen
    rw [List.length_cons] at hlen
    obtain ⟨dx, x0, x1⟩ := hx x (by simp)
    have hgrid : ∀ j : ℕ, j ≤ 2 ^ 46 → near (100 * (j : ℚ)) = 100 * j := by
      intro j hj
      have := near_nat (n := 100 * j) (by omega)
      push_cast at this
      exact this
    have hb : q + x ≤ 100 * ((m + 1 : ℕ) : ℚ) := by push_cast; linarith
    have hle := near_mono hb
    rw [hgrid _ (by omega)] at hle
    have hge1 := near_mono (show q ≤ q + x by linarith)
    rw [hq] at hge1
    have hge2 := near_mono (show x ≤ q + x by linarith)
    rw [dx] at hge2
    have hadd : (Dbl.fin q).add (.fin x) = .fin (near (q + x)) := by
      apply rnd_fin
      rw [abs_of_nonneg (le_trans h0 hge1)]
      refine lt_of_le_of_lt hle ?_
      have h1 : ((m + 1 : ℕ) : ℚ) ≤ 2 ^ 46 := by exact_mod_cast (by omega : m + 1 ≤ 2 ^ 46)
      have h2 : (100 * 2 ^ 46 : ℚ) < huge := by decide +kernel
      linarith
    obtain ⟨q', h1, h2, h3, h4, h5, h6, h7⟩ := ih (fun y hy => hx y (by simp [hy])) (near (q + x)) (m + 1) (near_near _)
      (le_trans h0 hge1) hle (by omega)
    have hcomm : m + 1 + xs.length = m + (xs.length + 1) := by omega
    rw [hcomm] at h4 h7
    refine ⟨q', by rw [List.foldl_cons, hadd]; exact h1, h2, le_trans hge1 h3, by rw [List.length_cons]; exact h4, ?_, ?_, ?_⟩
    · intro y hy
      rcases List.mem_cons.1 hy with rfl | hy
      · exact le_trans hge2 h3
      · exact h5 y hy
    · intro hz
      rw [h6 (fun y hy => hz y (by simp [hy])), hz x (by simp), add_zero, hq]
    · intro hz hqm
      rw [List.length_cons]
      refine h7 (fun y hy => hz y (by simp [hy])) ?_
      rw [hqm, hz x (by simp), ← hgrid _ (show m + 1 ≤ 2 ^ 46 by omega)]
      push_cast
      congr 1
      ring

/-- The mean of `double`s of `[0, 100]`. -/
theorem mean_percent (xs : List ℚ) (hx : ∀ x ∈ xs, near x = x ∧ 0 ≤ x ∧ x ≤ 100) (h0 : xs ≠ []) (hn : xs.length ≤ 2 ^ 46) :
    ∃ e, (xs.foldl (fun (e : Dbl) x => e.add (.fin x)) (.fin 0)).div (.ofNat xs.length) = .fin e ∧ near e = e ∧ 0 ≤ e ∧ e ≤ 100 ∧
      (∀ x ∈ xs, near (x / xs.length) ≤ e) ∧ ((∀ x ∈ xs, x = 0) → e = 0) ∧ ((∀ x ∈ xs, x = 100) → e = 100) := by
  have hl : 0 < xs.length := List.length_pos_iff.mpr h0
  have hlq : (0 : ℚ) < xs.length := by exact_mod_cast hl
  obtain ⟨q, h1, h2, h3, h4, h5, h6, h7⟩ := sum_percent xs hx 0 0 near_zero (le_refl _) (by simp) (by omega)
  rw [Nat.zero_add] at h4 h7
  have hle : q / xs.length ≤ 100 := by rw [div_le_iff₀ hlq]; exact h4
  have hge : 0 ≤ q / xs.length := div_nonneg h3 hlq.le
  have hm := near_mono hle
  rw [near_100] at hm
  refine ⟨near (q / xs.length), ?_, near_near _, near_nonneg hge, hm, ?_, ?_, ?_⟩
  · rw [h1, ofNat_eq (by omega)]
    simp only [Dbl.div, if_neg hlq.ne']
    exact (rnd_small (by rw [abs_le]; constructor <;> linarith)).1
  · intro x hxx
    exact near_mono (div_le_div_of_nonneg_right (h5 x hxx) hlq.le)
  · intro hz
    rw [h6 hz, zero_div, near_zero]
  · intro hz
    rw [h7 hz (by simp), mul_div_assoc, div_self hlq.ne', mul_one, near_100]

/-- `100.0 - e`. -/
theorem rest_percent {e : ℚ} (h0 : 0 ≤ e) (h1 : e ≤ 100) :
    (Dbl.fin 100).sub (.fin e) = .fin (near (100 - e)) ∧ 0 ≤ near (100 - e) ∧ near (100 - e) ≤ 100 ∧
      (Dbl.fin (near (100 - e))).add (.fin e) = .fin 100 := by
  have hn : 0 ≤ near (100 - e) := near_nonneg (by linarith)
  have hl := near_mono (show 100 - e ≤ 100 by linarith)
  rw [near_100] at hl
  refine ⟨sub_small (by rw [abs_le]; constructor <;> linarith), hn, hl, ?_⟩
  rw [add_small (by rw [abs_le]; constructor <;> linarith)]
  congr 1
  have e1 := abs_le.1 (near_err_lt (x := 100 - e) (k := 7) (by norm_num) (by
    rw [abs_of_nonneg (by linarith), show two 7 = 128 by decide +kernel]; linarith))
  rw [show two (7 - 54) = 1 / 2 ^ 47 by decide +kernel] at e1
  have k1 := near_mono (show near (100 - e) + e ≤ 100 + 1 / 2 ^ 47 by linarith [e1.2])
  have k2 := near_mono (show 100 - 1 / 2 ^ 47 ≤ near (100 - e) + e by linarith [e1.1])
  rw [show near (100 + 1 / 2 ^ 47) = 100 by decide +kernel] at k1
  rw [show near (100 - 1 / 2 ^ 47) = 100 by decide +kernel] at k2
  exact le_antisymm k1 k2

theorem foldErrors_eq (t : List Outcome) : foldErrors t = wrong t := by
  have key : ∀ (t : List Outcome) (n : ℕ), t.foldl (fun n o => if o.y ≠ o.pred then n + 1 else n) n = n + wrong t := by
    intro t
    induction t with
    | nil => intro n; simp [wrong]
    | cons o t ih =>
      intro n
      rw [List.foldl_cons, ih]
      unfold wrong
      rw [List.countP_cons]
      by_cases h : o.y = o.pred
      · simp [h]
      · simp [h]; omega
  unfold foldErrors
  rw [key]; omega

/-- The share of a fold. -/
def foldShare (t : List Outcome) : ℚ := near (near ((wrong t : ℚ) / t.length) * 100)

theorem foldShare_spec {t : List Outcome} (h0 : t ≠ []) (hn : t.length ≤ 2 ^ 53) :
    ((Dbl.ofNat (foldErrors t)).div (.ofNat t.length)).mul (.fin 100) = .fin (foldShare t) ∧
      near (foldShare t) = foldShare t ∧ 0 ≤ foldShare t ∧ foldShare t ≤ 100 ∧ (wrong t = 0 → foldShare t = 0) ∧
      (wrong t = t.length → foldShare t = 100) := by
  have hl : 0 < t.length := List.length_pos_iff.mpr h0
  have hlq : (0 : ℚ) < t.length := by exact_mod_cast hl
  have hw : wrong t ≤ t.length := List.countP_le_length
  have hu := rnd_unit (x := (wrong t : ℚ) / t.length) (by positivity) (by rw [div_le_one hlq]; exact_mod_cast hw)
  obtain ⟨r0, r1⟩ := near_ratio hl hw hn
  unfold foldShare
  rw [foldErrors_eq, divNat_eq hl hw hn]
  set x := near ((wrong t : ℚ) / t.length)
  have hle := near_mono (show x * 100 ≤ 100 by linarith [hu.2.2])
  rw [near_100] at hle
  refine ⟨?_, near_near _, near_nonneg (by linarith [hu.2.1]), hle, ?_, ?_⟩
  · exact (rnd_small (by rw [abs_le]; constructor <;> linarith [hu.2.1, hu.2.2])).1
  · intro h; rw [r0.2 h, zero_mul, near_zero]
  · intro h; rw [r1.2 h, one_mul, near_100]

theorem kfoldError_eq {tests : List (List Outcome)} (hs : ∀ t ∈ tests, t ≠ [] ∧ t.length ≤ 2 ^ 53) :
    kfoldError tests = ((tests.map foldShare).foldl (fun (e : Dbl) x => e.add (.fin x)) (.fin 0)).div
      (.ofNat (tests.map foldShare).length) := by
  unfold kfoldError errorSum
  rw [List.length_map]
  congr 1
  rw [List.foldl_map]
  generalize Dbl.fin 0 = q
  induction tests generalizing q with
  | nil => rfl
  | cons t tests ih =>
    have ht := hs t (by simp)
    rw [List.foldl_cons, List.foldl_cons, (foldShare_spec ht.1 ht.2).1]
    exact ih (fun u hu => hs u (by simp [hu])) _

theorem foldShares_ok {tests : List (List Outcome)} (hs : ∀ t ∈ tests, t ≠ [] ∧ t.length ≤ 2 ^ 53) :
    ∀ x ∈ tests.map foldShare, near x = x ∧ 0 ≤ x ∧ x ≤ 100 := by
  intro x hx
  obtain ⟨t, ht, rfl⟩ := List.mem_map.1 hx
  have := foldShare_spec (hs t ht).1 (hs t ht).2
  exact ⟨this.2.1, this.2.2.1, this.2.2.2.1⟩

theorem near_ge_rel {q : ℚ} (h : 1 / 2 ^ 1000 ≤ q) : q * (1 - 1 / 2 ^ 53) ≤ near q := by
  have hp : 0 < q := lt_of_lt_of_le (by positivity) h
  have h1 : two (-1022) ≤ |q| := by
    rw [abs_of_pos hp]
    refine le_trans ?_ h
    decide +kernel
  have := abs_le.1 (near_rel h1)
  rw [abs_of_pos hp, show two (-53) = 1 / 2 ^ 53 by decide +kernel] at this
  linarith [this.1]

/-- **C223 (k-fold)** The error and the accuracy a `k`-fold cross-validation reports, computed in `double`s, are numbers of `[0, 100]`
whose sum is 100 also after rounding; the error is 0 and the accuracy 100 exactly when every answer of every fold is
correct; when every answer is wrong the error is 100 and the accuracy 0.  For test sets that are not empty, `k` at most
`2^46` and `k` times the size of a test set at most `2^53`. -/
theorem C223_kfold (tests : List (List Outcome)) (h0 : tests ≠ []) (hk : tests.length ≤ 2 ^ 46)
    (hs : ∀ t ∈ tests, t ≠ [] ∧ t.length * tests.length ≤ 2 ^ 53) :
    ∃ e a, kfoldError tests = .fin e ∧ kfoldAccuracy tests = .fin a ∧ 0 ≤ e ∧ e ≤ 100 ∧ 0 ≤ a ∧ a ≤ 100 ∧
      (Dbl.fin a).add (.fin e) = .fin 100 ∧
      (e = 0 ↔ ∀ t ∈ tests, ∀ o ∈ t, o.y = o.pred) ∧ (a = 100 ↔ ∀ t ∈ tests, ∀ o ∈ t, o.y = o.pred) ∧
      ((∀ t ∈ tests, ∀ o ∈ t, o.y ≠ o.pred) → e = 100 ∧ a = 0) := by
  have hl : 0 < tests.length := List.length_pos_iff.mpr h0
  have hlq : (0 : ℚ) < tests.length := by exact_mod_cast hl
  have hs' : ∀ t ∈ tests, t ≠ [] ∧ t.length ≤ 2 ^ 53 := fun t ht =>
    ⟨(hs t ht).1, le_trans (Nat.le_mul_of_pos_right _ hl) (hs t ht).2⟩
  obtain ⟨e, he, hne, he0, he1, hbig, hz, hh⟩ := mean_percent (tests.map foldShare) (foldShares_ok hs') (by simpa using h0)
    (by simpa using hk)
  rw [← kfoldError_eq hs'] at he
  rw [List.length_map] at hbig
  obtain ⟨ha, ha0, ha1, hsum⟩ := rest_percent he0 he1
  have hright : (∀ t ∈ tests, ∀ o ∈ t, o.y = o.pred) → e = 0 := by
    intro hr
    apply hz
    intro x hx
    obtain ⟨t, ht, rfl⟩ := List.mem_map.1 hx
    refine (foldShare_spec (hs' t ht).1 (hs' t ht).2).2.2.2.2.1 ?_
    unfold wrong
    rw [List.countP_eq_zero]
    intro o ho
    simp [hr t ht o ho]
  have hmiss : ¬ (∀ t ∈ tests, ∀ o ∈ t, o.y = o.pred) → 3 / 2 ^ 48 ≤ e := by
    intro hr
    obtain ⟨t, ht, o, ho, hne⟩ : ∃ t ∈ tests, ∃ o ∈ t, o.y ≠ o.pred := by
      by_contra hcon
      apply hr
      intro t ht o ho
      by_contra hx
      exact hcon ⟨t, ht, o, ho, hx⟩
    have hw : 1 ≤ wrong t := by
      unfold wrong
      rw [Nat.one_le_iff_ne_zero, Ne, List.countP_eq_zero]
      intro hcon
      exact hcon o ho (by simpa using hne)
    have hlt : 0 < t.length := List.length_pos_iff.mpr (hs t ht).1
    have hltq : (0 : ℚ) < t.length := by exact_mod_cast hlt
    refine le_trans ?_ (hbig _ (List.mem_map.2 ⟨t, ht, rfl⟩))
    unfold foldShare
    have hprod : (t.length : ℚ) * tests.length ≤ 2 ^ 53 := by exact_mod_cast (hs t ht).2
    have hwq : (1 : ℚ) ≤ wrong t := by exact_mod_cast hw
    have htl : (t.length : ℚ) ≤ 2 ^ 53 := by exact_mod_cast (hs' t ht).2
    have hkl : (tests.length : ℚ) ≤ 2 ^ 53 := by
      have : (tests.length : ℚ) ≤ 2 ^ 46 := by exact_mod_cast hk
      linarith
    have h1 : (1 : ℚ) / t.length ≤ (wrong t : ℚ) / t.length := div_le_div_of_nonneg_right hwq hltq.le
    have h2 : (1 : ℚ) / 2 ^ 53 ≤ 1 / t.length := one_div_le_one_div_of_le hltq htl
    have n1 := near_ge_rel (q := (wrong t : ℚ) / t.length) (by
      refine le_trans ?_ (le_trans h2 h1); decide +kernel)
    have hc : (0 : ℚ) < 1 - 1 / 2 ^ 53 := by norm_num
    have b1 : 1 / t.length * (1 - 1 / 2 ^ 53) ≤ near ((wrong t : ℚ) / t.length) :=
      le_trans (mul_le_mul_of_nonneg_right h1 hc.le) n1
    have b2 : (1 / 2 ^ 54 : ℚ) ≤ near ((wrong t : ℚ) / t.length) := by
      refine le_trans ?_ b1
      have := mul_le_mul_of_nonneg_right h2 hc.le
      refine le_trans ?_ this
      norm_num
    set x := near ((wrong t : ℚ) / t.length)
    have n2 := near_ge_rel (q := x * 100) (by
      refine le_trans ?_ (show (1 : ℚ) / 2 ^ 54 * 1 ≤ x * 100 by linarith)
      decide +kernel)
    set z := near (x * 100)
    have b3 : 1 / t.length * (1 - 1 / 2 ^ 53) * 100 * (1 - 1 / 2 ^ 53) ≤ z := by
      refine le_trans ?_ n2
      apply mul_le_mul_of_nonneg_right _ hc.le
      linarith
    have hzp : (1 / 2 ^ 54 : ℚ) ≤ z := by
      refine le_trans ?_ n2
      have : (1 : ℚ) / 2 ^ 54 * 100 * (1 - 1 / 2 ^ 53) ≤ x * 100 * (1 - 1 / 2 ^ 53) :=
        mul_le_mul_of_nonneg_right (by linarith) hc.le
      refine le_trans ?_ this
      norm_num
    have hzk : (1 / 2 ^ 107 : ℚ) ≤ z / tests.length := by
      rw [le_div_iff₀ hlq]
      refine le_trans ?_ hzp
      have : (1 : ℚ) / 2 ^ 107 * tests.length ≤ 1 / 2 ^ 107 * 2 ^ 53 := mul_le_mul_of_nonneg_left hkl (by positivity)
      refine le_trans this ?_
      norm_num
    have n3 := near_ge_rel (q := z / tests.length) (le_trans (by decide +kernel) hzk)
    refine le_trans ?_ n3
    have b4 : 1 / t.length * (1 - 1 / 2 ^ 53) * 100 * (1 - 1 / 2 ^ 53) / tests.length ≤ z / tests.length :=
      div_le_div_of_nonneg_right b3 hlq.le
    refine le_trans ?_ (mul_le_mul_of_nonneg_right b4 hc.le)
    have hst : (1 : ℚ) / 2 ^ 53 ≤ 1 / (t.length * tests.length) := one_div_le_one_div_of_le (mul_pos hltq hlq) hprod
    have heq : 1 / (t.length : ℚ) * (1 - 1 / 2 ^ 53) * 100 * (1 - 1 / 2 ^ 53) / tests.length * (1 - 1 / 2 ^ 53) =
        1 / (t.length * tests.length) * ((1 - 1 / 2 ^ 53) * 100 * (1 - 1 / 2 ^ 53) * (1 - 1 / 2 ^ 53)) := by
      field_simp
    rw [heq]
    refine le_trans ?_ (mul_le_mul_of_nonneg_right hst (by positivity))
    norm_num
  refine ⟨e, _, he, by unfold kfoldAccuracy; rw [he]; exact ha, he0, he1, ha0, ha1, hsum, ⟨?_, hright⟩, ⟨?_, ?_⟩, ?_⟩
  · intro h
    by_contra hr
    have := hmiss hr
    rw [h] at this
    norm_num at this
  · intro h
    by_contra hr
    have := near_mono (show 100 - e ≤ 100 - 3 / 2 ^ 48 by linarith [hmiss hr])
    rw [h] at this
    have h2 : near (100 - 3 / 2 ^ 48) < 100 := by decide +kernel
    linarith
  · intro h
    rw [hright h, sub_zero, near_100]
  · intro hw
    have : e = 100 := by
      apply hh
      intro x hx
      obtain ⟨t, ht, rfl⟩ := List.mem_map.1 hx
      refine (foldShare_spec (hs' t ht).1 (hs' t ht).2).2.2.2.2.2 ?_
      unfold wrong
      rw [List.countP_eq_length]
      intro o ho
      simpa using hw t ht o ho
    rw [this, sub_self, near_zero]
    exact ⟨rfl, rfl⟩

/-- **C223 (repeated k-fold)** The same for the averages over at least one and at most `2^46` repetitions: error and accuracy are
numbers of `[0, 100]`, 0 and 100 when every answer is correct, 100 and 0 when every answer is wrong. -/
theorem C223_repeated (runs : List (List (List Outcome))) (h0 : runs ≠ []) (hr : runs.length ≤ 2 ^ 46)
    (hk : ∀ tests ∈ runs, tests ≠ [] ∧ tests.length ≤ 2 ^ 46 ∧ ∀ t ∈ tests, t ≠ [] ∧ t.length ≤ 2 ^ 53) :
    ∃ e a, kkfoldErr runs = .fin e ∧ kkfoldAccuracy runs = .fin a ∧ 0 ≤ e ∧ e ≤ 100 ∧ 0 ≤ a ∧ a ≤ 100 ∧
      ((∀ tests ∈ runs, ∀ t ∈ tests, ∀ o ∈ t, o.y = o.pred) → e = 0 ∧ a = 100) ∧
      ((∀ tests ∈ runs, ∀ t ∈ tests, ∀ o ∈ t, o.y ≠ o.pred) → e = 100 ∧ a = 0) := by
  -- the error of a run
  have hrun : ∀ tests ∈ runs, ∃ e, kfoldError tests = .fin e ∧ near e = e ∧ 0 ≤ e ∧ e ≤ 100 ∧
      ((∀ t ∈ tests, ∀ o ∈ t, o.y = o.pred) → e = 0) ∧ ((∀ t ∈ tests, ∀ o ∈ t, o.y ≠ o.pred) → e = 100) := by
    intro tests ht
    obtain ⟨hne, hlen, hs⟩ := hk tests ht
    obtain ⟨e, he, hnear, he0, he1, _, hz, hh⟩ := mean_percent (tests.map foldShare) (foldShares_ok hs) (by simpa using hne)
      (by simpa using hlen)
    rw [← kfoldError_eq hs] at he
    refine ⟨e, he, hnear, he0, he1, fun hc => hz ?_, fun hw => hh ?_⟩
    · intro x hx
      obtain ⟨t, ht, rfl⟩ := List.mem_map.1 hx
      refine (foldShare_spec (hs t ht).1 (hs t ht).2).2.2.2.2.1 ?_
      unfold wrong
      rw [List.countP_eq_zero]
      intro o ho
      simp [hc t ht o ho]
    · intro x hx
      obtain ⟨t, ht, rfl⟩ := List.mem_map.1 hx
      refine (foldShare_spec (hs t ht).1 (hs t ht).2).2.2.2.2.2 ?_
      unfold wrong
      rw [List.countP_eq_length]
      intro o ho
      simpa using hw t ht o ho
  choose! f hf using hrun
  have hfold : crossSum runs = (runs.map f).foldl (fun (e : Dbl) x => e.add (.fin x)) (.fin 0) := by
    unfold crossSum
    rw [List.foldl_map]
    generalize Dbl.fin 0 = q
    have hf' : ∀ r ∈ runs, kfoldError r = .fin (f r) := fun r hr => (hf r hr).1
    clear hf hk hr h0
    induction runs generalizing q with
    | nil => rfl
    | cons r runs ih =>
      rw [List.foldl_cons, List.foldl_cons, hf' r (by simp)]
      exact ih _ (fun u hu => hf' u (by simp [hu]))
  obtain ⟨e, he, _, he0, he1, _, hz, hh⟩ := mean_percent (runs.map f) (by
    intro x hx
    obtain ⟨r, hr, rfl⟩ := List.mem_map.1 hx
    have := hf r hr
    exact ⟨this.2.1, this.2.2.1, this.2.2.2.1⟩) (by simpa using h0) (by simpa using hr)
  rw [← hfold, List.length_map] at he
  obtain ⟨ha, ha0, ha1, _⟩ := rest_percent he0 he1
  obtain ⟨hb, hb0, hb1, _⟩ := rest_percent ha0 ha1
  have hacc : kkfoldAccuracy runs = .fin (near (100 - e)) := by unfold kkfoldAccuracy; rw [he]; exact ha
  refine ⟨_, _, by unfold kkfoldErr; rw [hacc]; exact hb, hacc, hb0, hb1, ha0, ha1, ?_, ?_⟩
  · intro hc
    have : e = 0 := by
      apply hz
      intro x hx
      obtain ⟨r, hr, rfl⟩ := List.mem_map.1 hx
      exact (hf r hr).2.2.2.2.1 (hc r hr)
    rw [this, sub_zero, near_100, sub_self, near_zero]
    exact ⟨rfl, rfl⟩
  · intro hw
    have : e = 100 := by
      apply hh
      intro x hx
      obtain ⟨r, hr, rfl⟩ := List.mem_map.1 hx
      exact (hf r hr).2.2.2.2.2 (hw r hr)
    rw [this, sub_self, near_zero, sub_zero, near_100]
    exact ⟨rfl, rfl⟩

/-- Three folds of two answers, one of them wrong. -/
def threeTests : List (List Outcome) := [[⟨1, 1⟩, ⟨-1, -1⟩], [⟨1, 1⟩, ⟨-1, 1⟩], [⟨1, 1⟩, ⟨-1, -1⟩]]

example : threeTests ≠ [] ∧ threeTests.length ≤ 2 ^ 46 ∧ (∀ t ∈ threeTests, t ≠ [] ∧ t.length * threeTests.length ≤ 2 ^ 53) ∧
    kfoldError threeTests = .fin (4691249611844267 / 281474976710656) := by
  refine ⟨by decide, by decide, by decide, by decide +kernel⟩

/-- **C223 (refuted: empty folds)** With an empty test set, which a split into more folds than samples produces, the reported error is
not a number. -/
theorem C223_empty_refuted : ¬ ∀ tests : List (List Outcome), tests ≠ [] → kfoldError tests ≠ .nan := by
  intro h
  exact h [[⟨1, 1⟩], []] (by decide) (by decide +kernel)

/-- **C223 (refuted: the average)** The error a repeated `k`-fold cross-validation reports need not be the average of the
errors of its repetitions, not even with a single one: it is computed as `100 - (100 - average)`. -/
theorem C223_average_refuted : ¬ ∀ tests : List (List Outcome), tests ≠ [] → (∀ t ∈ tests, t ≠ []) →
    kkfoldErr [tests] = kfoldError tests := by
  intro h
  exact absurd (h threeTests (by decide) (by decide)) (by decide +kernel)

end MLTK.Props
