import Verif.Lemmas.DoubleSmoTrain
/-!
# Sums of nonnegative `double`s
-/
namespace MLTK.Fp

attribute [local irreducible] Fp.rnd Fp.near Fp.huge Fp.two

/-- A nonnegative `double`, possibly infinite. -/
def D0 (a : Dbl) : Prop := (∃ q, a = .fin q ∧ IsDbl q ∧ 0 ≤ q) ∨ a = .inf false

theorem rnd_D0 {q : ℚ} (h : 0 ≤ q) : D0 (rnd q) := by
  have hn := near_nonneg h
  by_cases hb : near q < huge
  · have := rnd_fin (q := q) (by rwa [abs_of_nonneg hn])
    exact .inl ⟨_, this, rnd_isDbl this, hn⟩
  · right
    have hp := huge_pos
    rw [not_lt] at hb
    unfold rnd
    rw [if_neg (by linarith), if_pos hb]

theorem rnd_inf {q : ℚ} (h : huge ≤ near q) : rnd q = .inf false := by
  have hp := huge_pos
  unfold rnd
  rw [if_neg (by linarith), if_pos h]

/-- Rounding up a `double` gives at least the `double`. -/
theorem le_rnd {p q : ℚ} (hp : IsDbl p) (h0 : 0 ≤ p) (h : p ≤ q) : (Dbl.fin p).le (rnd q) = true := by
  have hm := near_mono h
  rw [(isDbl_iff.1 hp).1] at hm
  by_cases hb : near q < huge
  · rw [rnd_fin (by rwa [abs_of_nonneg (le_trans h0 hm)])]
    simpa [Dbl.le] using hm
  · rw [rnd_inf (not_lt.1 hb)]; rfl

theorem D0.add {a b : Dbl} (ha : D0 a) (hb : D0 b) : D0 (a.add b) := by
  rcases ha with ⟨p, rfl, hp, p0⟩ | rfl <;> rcases hb with ⟨q, rfl, hq, q0⟩ | rfl
  · exact rnd_D0 (by linarith)
  · exact .inr rfl
  · exact .inr rfl
  · exact .inr rfl

theorem D0.le_left {a b : Dbl} (ha : D0 a) (hb : D0 b) : a.le (a.add b) = true := by
  rcases ha with ⟨p, rfl, hp, p0⟩ | rfl <;> rcases hb with ⟨q, rfl, hq, q0⟩ | rfl
  · exact le_rnd hp p0 (by linarith)
  · rfl
  · rfl
  · rfl

theorem dadd_comm (a b : Dbl) : a.add b = b.add a := by
  cases a <;> cases b <;> simp only [Dbl.add]
  · rw [_root_.add_comm]
  · rename_i s t
    by_cases h : s = t
    · subst h; rfl
    · rw [if_neg h, if_neg (fun h' => h h'.symm)]

theorem D0.le_right {a b : Dbl} (ha : D0 a) (hb : D0 b) : b.le (a.add b) = true := by
  rw [dadd_comm]; exact hb.le_left ha

theorem D0.trans {a b c : Dbl} (hb : D0 b) (h1 : a.le b = true) (h2 : b.le c = true) : a.le c = true := by
  rcases hb with ⟨q, rfl, _, _⟩ | rfl
  · cases a with
    | fin p =>
      cases c with
      | fin r =>
        simp only [Dbl.le, decide_eq_true_eq] at *
        linarith
      | inf s => simpa [Dbl.le] using h2
      | nan => simp [Dbl.le] at h2
    | inf s =>
      cases c with
      | fin r => simpa [Dbl.le] using h1
      | inf t =>
        simp only [Dbl.le] at *
        simp [h1]
      | nan => simp [Dbl.le] at h2
    | nan => simp [Dbl.le] at h1
  · cases c with
    | fin r => simp [Dbl.le] at h2
    | inf t =>
      cases a with
      | fin p => simpa [Dbl.le] using h2
      | inf s => simp [Dbl.le] at *; simp [h2]
      | nan => simp [Dbl.le] at h1
    | nan => simp [Dbl.le] at h2

theorem D0.refl {a : Dbl} (h : D0 a) : a.le a = true := by
  rcases h with ⟨q, rfl, _, _⟩ | rfl
  · simp [Dbl.le]
  · rfl

theorem zero_D0 : D0 (.fin 0) := .inl ⟨0, rfl, isDbl_iff.2 ⟨near_zero, by rw [abs_zero]; exact huge_pos⟩, le_refl _⟩

/-- A sum of nonnegative numbers is one, at least each of them and at least the start. -/
theorem sum_D0 (xs : List Dbl) (hx : ∀ x ∈ xs, D0 x) : ∀ s, D0 s → D0 (xs.foldl Dbl.add s) ∧ s.le (xs.foldl Dbl.add s) = true ∧
    ∀ x ∈ xs, x.le (xs.foldl Dbl.add s) = true := by
  induction xs with
  | nil => intro s hs; exact ⟨hs, hs.refl, by simp⟩
  | cons x xs ih =>
    intro s hs
    have h1 := hx x (by simp)
    have hsx := hs.add h1
    obtain ⟨a, b, c⟩ := ih (fun y hy => hx y (by simp [hy])) _ hsx
    refine ⟨a, hsx.trans (hs.le_left h1) b, ?_⟩
    intro y hy
    rcases List.mem_cons.1 hy with rfl | hy
    · exact hsx.trans (hs.le_right h1) b
    · exact c y hy

/-- A sum of zeros. -/
theorem sum_zero (xs : List Dbl) (hx : ∀ x ∈ xs, x = .fin 0) : xs.foldl Dbl.add (.fin 0) = .fin 0 := by
  induction xs with
  | nil => rfl
  | cons x xs ih =>
    rw [List.foldl_cons, hx x (by simp)]
    have : (Dbl.fin 0).add (.fin 0) = .fin 0 := by
      rw [add_small (by norm_num), add_zero, near_zero]
    rw [this]
    exact ih (fun y hy => hx y (by simp [hy]))

theorem D0.eq_zero {a : Dbl} (h : D0 a) (h0 : a.le (.fin 0) = true) : a = .fin 0 := by
  rcases h with ⟨q, rfl, _, q0⟩ | rfl
  · simp only [Dbl.le, decide_eq_true_eq] at h0
    rw [le_antisymm h0 q0]
  · simp [Dbl.le] at h0

theorem sum_zero_iff (xs : List Dbl) (hx : ∀ x ∈ xs, D0 x) : xs.foldl Dbl.add (.fin 0) = .fin 0 ↔ ∀ x ∈ xs, x = .fin 0 := by
  refine ⟨fun h x hxx => ?_, sum_zero xs⟩
  have := (sum_D0 xs hx _ zero_D0).2.2 x hxx
  rw [h] at this
  exact (hx x hxx).eq_zero this

/-- A `double` is a multiple of the least positive one. -/
theorem grid_unit {q : ℚ} (h : near q = q) : ∃ m : ℤ, q = m * two (-1074) := by
  have := near_grid q
  rw [h] at this
  obtain ⟨m, e, _, he, hq⟩ := this
  obtain ⟨k, _, hk⟩ := two_div_int he
  exact ⟨m * k, by rw [hq, hk]; push_cast; ring⟩

/-- Gradual underflow: the rounded difference of different `double`s is not zero. -/
theorem near_sub_zero {p q : ℚ} (hp : near p = p) (hq : near q = q) (h : near (p - q) = 0) : p = q := by
  obtain ⟨m, hm⟩ := grid_unit hp
  obtain ⟨k, hk⟩ := grid_unit hq
  by_contra hne
  have hu : near (two (-1074)) = two (-1074) := by decide +kernel
  have hup := two_pos (-1074)
  have hmk : m ≠ k := by
    rintro rfl
    exact hne (hm.trans hk.symm)
  rcases lt_or_gt_of_ne hmk with hlt | hgt
  · have h1 : (m : ℚ) + 1 ≤ k := by exact_mod_cast hlt
    have h2 : two (-1074) ≤ q - p := by rw [hm, hk]; nlinarith
    have h3 := near_mono h2
    rw [hu, show q - p = -(p - q) by ring, near_neg, h] at h3
    linarith
  · have h1 : (k : ℚ) + 1 ≤ m := by exact_mod_cast hgt
    have h2 : two (-1074) ≤ p - q := by rw [hm, hk]; nlinarith
    have h3 := near_mono h2
    rw [hu, h] at h3
    linarith

theorem sub_fin (p q : ℚ) : (Dbl.fin p).sub (.fin q) = rnd (p - q) := by
  simp only [Dbl.sub, Dbl.neg, Dbl.add, sub_eq_add_neg]

theorem rnd_eq_zero {q : ℚ} : rnd q = .fin 0 ↔ near q = 0 := by
  constructor
  · intro h; exact (rnd_fin_inv h).1.symm
  · intro h; rw [rnd_fin (by rw [h, abs_zero]; exact huge_pos), h]

theorem abs_rnd (q : ℚ) : (rnd q).abs = rnd |q| := by
  rcases le_total 0 q with h | h
  · rw [abs_of_nonneg h]
    rcases rnd_D0 h with ⟨x, hx, _, x0⟩ | hx
    · rw [hx]; simp [Dbl.abs, abs_of_nonneg x0]
    · rw [hx]; rfl
  · rw [abs_of_nonpos h, rnd_neg]
    have h' : 0 ≤ -q := by linarith
    have := rnd_D0 h'
    rw [rnd_neg] at this
    rcases hq : rnd q with x | s | _
    · rw [hq] at this
      simp only [Dbl.neg] at this ⊢
      rcases this with ⟨y, hy, _, y0⟩ | hy
      · cases hy
        simp [Dbl.abs, abs_of_nonpos (by linarith : x ≤ 0)]
      · cases hy
    · rw [hq] at this
      simp only [Dbl.neg] at this ⊢
      rcases this with ⟨y, hy, _, _⟩ | hy
      · cases hy
      · cases s <;> simp_all [Dbl.abs]
    · rfl

end MLTK.Fp
