import Verif.Model.DoubleStats
import Verif.Lemmas.DoubleSum
import Verif.Props.DoubleMetric
/-!
# C225: mean and deviation in `double` arithmetic
-/
namespace MLTK.Props
open MLTK.Fp
open MLTK.Data (Res_bind_ok Res_bind_error Res_pure)

attribute [local irreducible] Fp.rnd Fp.near Fp.huge Fp.two

theorem rnd_ne_nan (q : ℚ) : rnd q ≠ .nan := by unfold rnd; split_ifs <;> simp

theorem add_fin_ne_nan {a : Dbl} (h : a ≠ .nan) (q : ℚ) : a.add (.fin q) ≠ .nan := by
  cases a with
  | fin p => exact rnd_ne_nan _
  | inf s => simp [Dbl.add]
  | nan => exact absurd rfl h

theorem total_ne_nan (xs : List ℚ) : total (atPoint xs) ≠ .nan := by
  unfold total
  have : ∀ (xs : List ℚ) (s : Dbl), s ≠ .nan → (atPoint xs).foldl Dbl.add s ≠ .nan := by
    intro xs
    induction xs with
    | nil => intro s hs; exact hs
    | cons x xs ih => intro s hs; exact ih _ (add_fin_ne_nan hs x)
  exact this xs _ (by simp)

theorem div_nat_ne_nan {a : Dbl} (h : a ≠ .nan) {n : ℕ} (h0 : 0 < n) (hn : n ≤ 2 ^ 53) : a.div (.ofNat n) ≠ .nan := by
  rw [ofNat_eq hn]
  have : (n : ℚ) ≠ 0 := by exact_mod_cast h0.ne'
  cases a with
  | fin p => simp only [Dbl.div, if_neg this]; exact rnd_ne_nan _
  | inf s => simp [Dbl.div]
  | nan => exact absurd rfl h

theorem div_nat_D0 {a : Dbl} (h : D0 a) {n : ℕ} (h0 : 0 < n) (hn : n ≤ 2 ^ 53) : D0 (a.div (.ofNat n)) := by
  rw [ofNat_eq hn]
  have h1 : (0 : ℚ) < n := by exact_mod_cast h0
  rcases h with ⟨q, rfl, _, q0⟩ | rfl
  · simp only [Dbl.div, if_neg h1.ne']
    exact rnd_D0 (div_nonneg q0 h1.le)
  · right
    simp [Dbl.div, not_lt.2 h1.le]

theorem sqdiff_D0 {m : Dbl} (hm : m ≠ .nan) (x : ℚ) : D0 (((Dbl.fin x).sub m).mul ((Dbl.fin x).sub m)) := by
  cases m with
  | fin q => rw [sub_fin]; exact square_D0 _
  | inf s => right; cases s <;> rfl
  | nan => exact absurd rfl hm

theorem squares_eq (m : Dbl) (xs : List Dbl) : squares m xs = total (xs.map (fun x => (x.sub m).mul (x.sub m))) := by
  unfold squares total
  rw [List.foldl_map]

theorem squares_terms {m : Dbl} (hm : m ≠ .nan) (xs : List ℚ) :
    ∀ x ∈ (atPoint xs).map (fun x => (x.sub m).mul (x.sub m)), D0 x := by
  intro y hy
  unfold atPoint at hy
  rw [List.map_map] at hy
  obtain ⟨x, _, rfl⟩ := List.mem_map.1 hy
  exact sqdiff_D0 hm x

theorem meanOf_ne_nan {xs : List ℚ} (hn : xs.length ≤ 2 ^ 53) : meanOf (atPoint xs) ≠ .nan := by
  unfold meanOf
  split_ifs with h
  · exact div_nat_ne_nan (total_ne_nan xs) (by simpa [atPoint] using h) (by simpa [atPoint] using hn)
  · simp

theorem pred_mod {n : ℕ} (h1 : 0 < n) (h2 : n ≤ 2 ^ 53) : (n + (2 ^ 64 - 1)) % 2 ^ 64 = n - 1 := by omega

theorem spread_eq {xs : List Dbl} (h1 : 0 < xs.length) (h2 : xs.length ≤ 2 ^ 53) :
    spread xs = (squares (meanOf xs) xs).div (.ofNat (xs.length - 1)) := by
  unfold spread
  rw [pred_mod h1 h2]

/-- **C225 (nonnegative)** The mean of a feature with finite values is not NaN, also when sums overflow, and the deviation of at least
two values is the root of a nonnegative or infinite `double`, never of NaN or of a negative number; so is the variance. -/
theorem C225_nonneg (xs : List ℚ) (h1 : 2 ≤ xs.length) (hn : xs.length ≤ 2 ^ 53) :
    meanOf (atPoint xs) ≠ .nan ∧
    (spread (atPoint xs) = .inf false ∨ ∃ q, spread (atPoint xs) = .fin q ∧ IsDbl q ∧ 0 ≤ q) ∧
    (∀ sqrt, stdDevOf sqrt (atPoint xs) = sqrt (spread (atPoint xs))) ∧
    ∃ v, varPoint (atPoint xs) = .ok v ∧ (v = .inf false ∨ ∃ q, v = .fin q ∧ IsDbl q ∧ 0 ≤ q) := by
  have hl : (atPoint xs).length = xs.length := by simp [atPoint]
  have hm := meanOf_ne_nan hn
  have hsq := (sum_D0 _ (squares_terms hm xs) _ zero_D0).1
  have hor : ∀ {a : Dbl}, D0 a → a = .inf false ∨ ∃ q, a = .fin q ∧ IsDbl q ∧ 0 ≤ q := fun h => h.symm
  refine ⟨hm, hor ?_, ?_, ?_⟩
  · rw [spread_eq (by omega) (by omega), hl, squares_eq]
    exact div_nat_D0 hsq (by omega) (by omega)
  · intro sqrt
    unfold stdDevOf
    rw [if_neg (by omega)]
  · have hmean : meanPoint (atPoint xs) = .ok (meanOf (atPoint xs)) := by
      unfold meanPoint meanOf
      rw [if_pos (by omega), if_pos (by omega)]
    refine ⟨_, by unfold varPoint; rw [hmean, Res_bind_ok]; rfl, hor ?_⟩
    rw [hl]
    exact div_nat_D0 hsq (by omega) hn

/-! ## Whole numbers -/

/-- The sum of the magnitudes. -/
def weight (zs : List ℤ) : ℤ := (zs.map (fun z => |z|)).sum

theorem weight_nonneg (zs : List ℤ) : 0 ≤ weight zs := by
  unfold weight
  apply List.sum_nonneg
  intro x hx
  obtain ⟨z, _, rfl⟩ := List.mem_map.1 hx
  exact abs_nonneg z

/-- The column of these whole numbers. -/
def column (zs : List ℤ) : List ℚ := zs.map (fun z : ℤ => (z : ℚ))

theorem total_int (zs : List ℤ) : ∀ s : ℤ, |s| + weight zs ≤ 2 ^ 53 →
    (atPoint (column zs)).foldl Dbl.add (.fin (s : ℚ)) = .fin ((s + zs.sum : ℤ) : ℚ) := by
  induction zs with
  | nil => intro s _; simp [atPoint, column]
  | cons z zs ih =>
    intro s h
    have hw : weight (z :: zs) = |z| + weight zs := by simp [weight]
    have hb := weight_nonneg zs
    have habs := abs_add_le s z
    have h1 : (Dbl.fin (s : ℚ)).add (.fin (z : ℚ)) = .fin ((s + z : ℤ) : ℚ) := by
      have hle : |s + z| ≤ 2 ^ 53 := by omega
      have hn := near_int hle
      have : rnd ((s + z : ℤ) : ℚ) = .fin ((s + z : ℤ) : ℚ) := by
        rw [rnd_fin, hn]
        rw [hn, ← Int.cast_abs]
        have h2 : ((|s + z| : ℤ) : ℚ) ≤ 2 ^ 53 := by exact_mod_cast hle
        have h3 : (2 ^ 53 : ℚ) < huge := by decide +kernel
        linarith
      rw [← this]
      simp only [Dbl.add]
      push_cast
      rfl
    have := ih (s + z) (by omega)
    simp only [atPoint, column, List.map_cons, List.foldl_cons, List.sum_cons] at this ⊢
    rw [h1, this, add_assoc]

theorem isDbl_int {z : ℤ} (h : |z| ≤ 2 ^ 53) : IsDbl (z : ℚ) := by
  refine isDbl_iff.2 ⟨near_int h, ?_⟩
  rw [← Int.cast_abs]
  have h2 : ((|z| : ℤ) : ℚ) ≤ 2 ^ 53 := by exact_mod_cast h
  have h3 : (2 ^ 53 : ℚ) < huge := by decide +kernel
  linarith

theorem sum_le_bound {zs : List ℤ} {hi : ℤ} (h : ∀ z ∈ zs, z ≤ hi) : zs.sum ≤ hi * zs.length := by
  induction zs with
  | nil => simp
  | cons z zs ih =>
    have h1 := h z (by simp)
    have h2 := ih (fun y hy => h y (by simp [hy]))
    rw [List.sum_cons, List.length_cons]
    push_cast
    linarith

theorem sum_ge_bound {zs : List ℤ} {lo : ℤ} (h : ∀ z ∈ zs, lo ≤ z) : lo * zs.length ≤ zs.sum := by
  induction zs with
  | nil => simp
  | cons z zs ih =>
    have h1 := h z (by simp)
    have h2 := ih (fun y hy => h y (by simp [hy]))
    rw [List.sum_cons, List.length_cons]
    push_cast
    linarith

theorem mean_int {zs : List ℤ} (h0 : zs ≠ []) (hn : zs.length ≤ 2 ^ 53) (hw : weight zs ≤ 2 ^ 53) :
    meanOf (atPoint (column zs)) = rnd ((zs.sum : ℚ) / zs.length) := by
  have hl : 0 < zs.length := List.length_pos_iff.2 h0
  have hlen : (atPoint (column zs)).length = zs.length := by simp [atPoint, column]
  unfold meanOf total
  rw [if_pos (by omega), hlen, ofNat_eq hn]
  have := total_int zs 0 (by simpa using hw)
  rw [Int.cast_zero, zero_add] at this
  rw [this]
  have h1 : ((zs.length : ℕ) : ℚ) ≠ 0 := by exact_mod_cast hl.ne'
  simp only [Dbl.div, if_neg h1]

theorem mean_int_bounds {zs : List ℤ} (h0 : zs ≠ []) {lo hi : ℤ} (hlo : ∀ z ∈ zs, lo ≤ z) (hhi : ∀ z ∈ zs, z ≤ hi)
    (hl1 : |lo| ≤ 2 ^ 53) (hh1 : |hi| ≤ 2 ^ 53) :
    ∃ m, rnd ((zs.sum : ℚ) / zs.length) = .fin m ∧ (lo : ℚ) ≤ m ∧ m ≤ hi ∧ m = near ((zs.sum : ℚ) / zs.length) := by
  have hl : (0 : ℚ) < zs.length := by exact_mod_cast List.length_pos_iff.2 h0
  apply rnd_between (isDbl_int hl1) (isDbl_int hh1)
  · rw [le_div_iff₀ hl]; exact_mod_cast sum_ge_bound hlo
  · rw [div_le_iff₀ hl]; exact_mod_cast sum_le_bound hhi

theorem weight_mem {zs : List ℤ} {z : ℤ} (h : z ∈ zs) : |z| ≤ weight zs := by
  induction zs with
  | nil => simp at h
  | cons x zs ih =>
    have hw : weight (x :: zs) = |x| + weight zs := by simp [weight]
    have := weight_nonneg zs
    have hx := abs_nonneg x
    rcases List.mem_cons.1 h with rfl | h
    · omega
    · have := ih h; omega

/-- The square of the rounded difference of a whole number and a `double` that is zero or not tiny. -/
theorem sqdiff_pos {z : ℤ} {m : ℚ} (hm : near m = m) (hb : m = 0 ∨ two (-54) ≤ |m|) (hne : (z : ℚ) ≠ m) :
    (Dbl.fin (two (-212))).le (((Dbl.fin (z : ℚ)).sub (.fin m)).mul ((Dbl.fin (z : ℚ)).sub (.fin m))) = true := by
  have hgrid : ∃ k : ℤ, m = k * two (-106) := by
    rcases hb with h | h
    · exact ⟨0, by rw [h]; simp⟩
    · rcases le_total 0 m with hs | hs
      · rw [abs_of_nonneg hs] at h
        obtain ⟨k, hk⟩ := grid_of_ge (k := -54) (by norm_num) hm h
        exact ⟨k, hk⟩
      · rw [abs_of_nonpos hs] at h
        obtain ⟨k, hk⟩ := grid_of_ge (x := -m) (k := -54) (by norm_num) (by rw [near_neg, hm]) h
        exact ⟨-k, by push_cast; rw [neg_mul, show (k : ℚ) * two (-106) = -m from hk.symm]; ring⟩
  obtain ⟨k, hk⟩ := hgrid
  have h106 : (81129638414606681695789005144064 : ℚ) * two (-106) = 1 := by decide +kernel
  have hu := two_pos (-106)
  have hdiff : (z : ℚ) - m = ((z * 2 ^ 106 - k : ℤ) : ℚ) * two (-106) := by
    rw [hk]
    push_cast
    rw [sub_mul, mul_assoc, h106, mul_one]
  have hnz : z * 2 ^ 106 - k ≠ 0 := by
    intro h
    rw [h, Int.cast_zero, zero_mul] at hdiff
    exact hne (by linarith)
  have habs : two (-106) ≤ |(z : ℚ) - m| := by
    rw [hdiff, abs_mul, abs_of_pos hu, ← Int.cast_abs]
    have : (1 : ℚ) ≤ ((|z * 2 ^ 106 - k| : ℤ) : ℚ) := by exact_mod_cast Int.one_le_abs hnz
    nlinarith
  have hnear106 : near (two (-106)) = two (-106) := by decide +kernel
  have hd212 : IsDbl (two (-212)) := by decide +kernel
  have hmul212 : two (-212) = two (-106) * two (-106) := by decide +kernel
  have hsq : ∀ x : ℚ, two (-106) ≤ |x| → (Dbl.fin (two (-212))).le ((rnd x).mul (rnd x)) = true := by
    intro x hx
    have hnx : two (-106) ≤ |near x| := by
      rcases le_total 0 x with h | h
      · rw [abs_of_nonneg h] at hx
        have := near_mono hx
        rw [hnear106] at this
        rw [abs_of_nonneg (near_nonneg h)]
        exact this
      · rw [abs_of_nonpos h] at hx
        have := near_mono hx
        rw [hnear106, near_neg] at this
        rw [abs_of_nonpos (by linarith)]
        exact this
    cases hr : rnd x with
    | fin y =>
      obtain ⟨rfl, _⟩ := rnd_fin_inv hr
      simp only [Dbl.mul]
      refine le_rnd hd212 (two_pos _).le ?_
      rw [hmul212, ← abs_mul_abs_self (near x)]
      nlinarith
    | inf s => simp [Dbl.mul, Dbl.le]
    | nan => exact absurd hr (rnd_ne_nan x)
  rw [sub_fin]
  exact hsq _ habs

/-- **C225 (whole numbers)** For a feature whose values are whole numbers with magnitudes adding up to at most `2^53`: the mean is the
`double` nearest to the exact mean and lies between the bounds of the values; the number whose root is the deviation is zero
exactly when all values are equal, and positive otherwise. -/
theorem C225_whole_partial (zs : List ℤ) (h2 : 2 ≤ zs.length) (hn : zs.length ≤ 2 ^ 53) (hw : weight zs ≤ 2 ^ 53) :
    (∃ m, meanOf (atPoint (column zs)) = .fin m ∧ rnd ((zs.sum : ℚ) / zs.length) = .fin m ∧
      (∀ lo : ℤ, (∀ z ∈ zs, lo ≤ z) → (lo : ℚ) ≤ m) ∧ (∀ hi : ℤ, (∀ z ∈ zs, z ≤ hi) → m ≤ hi)) ∧
    ((∃ z, ∀ y ∈ zs, y = z) → spread (atPoint (column zs)) = .fin 0) ∧
    (∀ y ∈ zs, ∀ z ∈ zs, y ≠ z → (Dbl.fin 0).lt (spread (atPoint (column zs))) = true) := by
  have h0 : zs ≠ [] := by rintro rfl; simp at h2
  have hl : 0 < zs.length := by omega
  have hlq : (0 : ℚ) < zs.length := by exact_mod_cast hl
  have hlen : (atPoint (column zs)).length = zs.length := by simp [atPoint, column]
  have hmean := mean_int h0 hn hw
  have hall : ∀ z ∈ zs, -(2 ^ 53) ≤ z ∧ z ≤ 2 ^ 53 := fun z hz => abs_le.1 (le_trans (weight_mem hz) hw)
  obtain ⟨m, hm, _, _, hmn⟩ := mean_int_bounds (lo := -(2 ^ 53)) (hi := 2 ^ 53) h0 (fun z hz => (hall z hz).1)
    (fun z hz => (hall z hz).2) (by norm_num) (by norm_num)
  have hnm : near m = m := by rw [hmn, near_near]
  obtain ⟨z0, hz0⟩ := List.exists_mem_of_ne_nil zs h0
  refine ⟨⟨m, hmean.trans hm, hm, ?_, ?_⟩, ?_, ?_⟩
  · intro lo hlo
    by_cases hb : |lo| ≤ 2 ^ 53
    · obtain ⟨m', hm', h1, _, _⟩ := mean_int_bounds (lo := lo) (hi := 2 ^ 53) h0 hlo (fun z hz => (hall z hz).2) hb (by norm_num)
      rw [hm] at hm'
      cases hm'
      exact h1
    · have h1 := hlo z0 hz0
      have h3 := (hall z0 hz0).2
      have : lo < -(2 ^ 53) := by
        rcases lt_abs.1 (not_le.1 hb) with h | h <;> omega
      have h4 : (lo : ℚ) < -(2 ^ 53) := by exact_mod_cast this
      obtain ⟨m', hm', h5, _, _⟩ := mean_int_bounds (lo := -(2 ^ 53)) (hi := 2 ^ 53) h0 (fun z hz => (hall z hz).1)
        (fun z hz => (hall z hz).2) (by norm_num) (by norm_num)
      rw [hm] at hm'
      cases hm'
      push_cast at h5
      linarith
  · intro hi hhi
    by_cases hb : |hi| ≤ 2 ^ 53
    · obtain ⟨m', hm', _, h1, _⟩ := mean_int_bounds (lo := -(2 ^ 53)) (hi := hi) h0 (fun z hz => (hall z hz).1) hhi (by norm_num) hb
      rw [hm] at hm'
      cases hm'
      exact h1
    · have h1 := hhi z0 hz0
      have h3 := (hall z0 hz0).1
      have : 2 ^ 53 < hi := by
        rcases lt_abs.1 (not_le.1 hb) with h | h <;> omega
      have h4 : (2 ^ 53 : ℚ) < hi := by exact_mod_cast this
      obtain ⟨m', hm', _, h5, _⟩ := mean_int_bounds (lo := -(2 ^ 53)) (hi := 2 ^ 53) h0 (fun z hz => (hall z hz).1)
        (fun z hz => (hall z hz).2) (by norm_num) (by norm_num)
      rw [hm] at hm'
      cases hm'
      push_cast at h5
      linarith
  · rintro ⟨z, hz⟩
    have hzb : |z| ≤ 2 ^ 53 := by
      rw [← hz z0 hz0]; exact le_trans (weight_mem hz0) hw
    obtain ⟨m', hm', h5, h6, _⟩ := mean_int_bounds (lo := z) (hi := z) h0 (fun y hy => (hz y hy).ge) (fun y hy => (hz y hy).le) hzb hzb
    have hmz : m' = z := le_antisymm h6 h5
    rw [spread_eq (by omega) (by omega), hlen, hmean, hm', hmz, squares_eq]
    have hzero : (Dbl.fin (z : ℚ)).sub (.fin (z : ℚ)) = .fin 0 := by
      rw [sub_fin, sub_self]; exact rnd_eq_zero.2 near_zero
    have h00 : (Dbl.fin 0).mul (.fin 0) = .fin 0 := by
      simp only [Dbl.mul, mul_zero]; exact rnd_eq_zero.2 near_zero
    unfold total
    rw [sum_zero]
    · rw [ofNat_eq (by omega)]
      have hne : ((zs.length - 1 : ℕ) : ℚ) ≠ 0 := by
        have : zs.length - 1 ≠ 0 := by omega
        exact_mod_cast this
      simp only [Dbl.div, if_neg hne, zero_div]
      exact rnd_eq_zero.2 near_zero
    · intro x hx
      simp only [atPoint, column, List.map_map] at hx
      obtain ⟨y, hy, rfl⟩ := List.mem_map.1 hx
      simp only [Function.comp]
      rw [hz y hy, hzero, h00]
  · intro y hy z hz hyz
    -- one of the two differs from the mean
    obtain ⟨w, hwz, hwm⟩ : ∃ w ∈ zs, (w : ℚ) ≠ m := by
      by_cases h : (y : ℚ) = m
      · refine ⟨z, hz, fun h' => hyz ?_⟩
        have : (y : ℚ) = (z : ℚ) := h.trans h'.symm
        exact_mod_cast this
      · exact ⟨y, hy, h⟩
    have hbig : m = 0 ∨ two (-54) ≤ |m| := by
      by_cases hs : zs.sum = 0
      · left; rw [hmn, hs]; simp [near_zero]
      · right
        have h1 : (1 : ℚ) ≤ |(zs.sum : ℚ)| := by
          rw [← Int.cast_abs]; exact_mod_cast Int.one_le_abs hs
        have h3 : two (-54) ≤ |(zs.sum : ℚ) / zs.length| := by
          rw [abs_div, abs_of_pos hlq, le_div_iff₀ hlq]
          have h4 : (zs.length : ℚ) ≤ 2 ^ 53 := by exact_mod_cast hn
          have h5 : two (-54) * 2 ^ 53 ≤ 1 := by decide +kernel
          have := mul_le_mul_of_nonneg_left h4 (two_pos (-54)).le
          linarith
        have hn54 : near (two (-54)) = two (-54) := by decide +kernel
        rcases le_total 0 ((zs.sum : ℚ) / zs.length) with h | h
        · rw [abs_of_nonneg h] at h3
          have := near_mono h3
          rw [hn54, ← hmn] at this
          rw [abs_of_nonneg (le_trans (two_pos _).le this)]
          exact this
        · rw [abs_of_nonpos h] at h3
          have := near_mono h3
          rw [hn54, near_neg, ← hmn] at this
          have hp := two_pos (-54)
          rw [abs_of_nonpos (by linarith)]
          exact this
    have hsq := sqdiff_pos (z := w) hnm hbig hwm
    have hterms := squares_terms (m := .fin m) (by simp) (column zs)
    have hsum := sum_D0 _ hterms _ zero_D0
    have hterm : ((Dbl.fin (w : ℚ)).sub (.fin m)).mul ((Dbl.fin (w : ℚ)).sub (.fin m)) ∈
        (atPoint (column zs)).map (fun x => (x.sub (.fin m)).mul (x.sub (.fin m))) := by
      simp only [atPoint, column, List.map_map]
      exact List.mem_map.2 ⟨w, hwz, rfl⟩
    have hge := (hterms _ hterm).trans hsq (hsum.2.2 _ hterm)
    rw [spread_eq (by omega) (by omega), hlen, hmean, hm, squares_eq, ofNat_eq (by omega)]
    have hne : (0 : ℚ) < ((zs.length - 1 : ℕ) : ℚ) := by
      have : 0 < zs.length - 1 := by omega
      exact_mod_cast this
    unfold total
    rcases hsum.1 with ⟨q, hq, _, q0⟩ | hq
    · rw [hq] at hge ⊢
      simp only [Dbl.le, decide_eq_true_eq] at hge
      simp only [Dbl.div, if_neg hne.ne']
      have h4 : ((zs.length - 1 : ℕ) : ℚ) ≤ 2 ^ 53 := by exact_mod_cast (by omega : zs.length - 1 ≤ 2 ^ 53)
      have h5 : two (-265) ≤ q / ((zs.length - 1 : ℕ) : ℚ) := by
        rw [le_div_iff₀ hne]
        have h6 : two (-265) * 2 ^ 53 = two (-212) := by decide +kernel
        have := mul_le_mul_of_nonneg_left h4 (two_pos (-265)).le
        linarith
      have h7 := le_rnd (p := two (-265)) (by decide +kernel) (two_pos _).le h5
      have h8 := two_pos (-265)
      cases hr : rnd (q / ((zs.length - 1 : ℕ) : ℚ)) with
      | fin x =>
        rw [hr] at h7
        simp only [Dbl.le, decide_eq_true_eq] at h7
        simp only [Dbl.lt, decide_eq_true_eq]
        linarith
      | inf s => rw [hr] at h7; simpa [Dbl.le, Dbl.lt] using h7
      | nan => exact absurd hr (rnd_ne_nan _)
    · rw [hq]
      simp [Dbl.div, Dbl.lt, not_lt.2 hne.le]

example : 2 ≤ [3, -1, 3, 6].length ∧ weight [3, -1, 3, 6] ≤ 2 ^ 53 ∧ meanOf (atPoint (column [3, -1, 3, 6])) = .fin (11 / 4) ∧
    (3 : ℤ) ∈ [3, -1, 3, 6] ∧ (6 : ℤ) ∈ [3, -1, 3, 6] := by
  refine ⟨by decide, by decide, by decide +kernel, by decide, by decide⟩

/-- **C225 (refuted: constant features)** The mean of values that are all equal need not be that value, and their deviation need not be
zero: three times the `double` nearest to 1/10. -/
theorem C225_constant_refuted :
    (¬ ∀ (x : ℚ) (n : ℕ), IsDbl x → 2 ≤ n → meanOf (atPoint (List.replicate n x)) = .fin x) ∧
    ¬ ∀ (x : ℚ) (n : ℕ), IsDbl x → 2 ≤ n → spread (atPoint (List.replicate n x)) = .fin 0 := by
  constructor
  · intro h
    exact absurd (h (3602879701896397 / 2 ^ 55) 3 (by decide +kernel) (by decide)) (by decide +kernel)
  · intro h
    exact absurd (h (3602879701896397 / 2 ^ 55) 3 (by decide +kernel) (by decide)) (by decide +kernel)

/-- **C225 (refuted: different values)** Values that differ can have deviation zero: their squares underflow. -/
theorem C225_differ_refuted : ¬ ∀ x y : ℚ, IsDbl x → IsDbl y → x ≠ y → spread (atPoint [x, y]) ≠ .fin 0 := by
  intro h
  exact h (1 / 2 ^ 600) 0 (by decide +kernel) (by decide +kernel) (by decide +kernel) (by decide +kernel)

end MLTK.Props
