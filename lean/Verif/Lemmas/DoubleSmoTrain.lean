import Verif.Lemmas.DoubleSmo
import Verif.Lemmas.Smo
import Verif.Spec.Smo
/-!
# SMO training in `double` arithmetic keeps the multipliers in the box
-/
namespace MLTK.Fp
open MLTK.Spec MLTK.Dll
open MLTK.Smo (Cfg St upd sampleIdx walkFuel Trained upd_same upd_other sampleIdx_nat)
open MLTK.Data (Res_bind_ok Res_bind_error Res_pure)

attribute [local irreducible] Fp.rnd Fp.near Fp.huge Fp.two

/-- NaN or a `double` of the box. -/
def InBox (a : Dbl) : Prop := a = .nan ∨ ∃ q, a = .fin q ∧ InBoxQ q

theorem add_near {a b : Dbl} {q : ℚ} (h : a.add b = .fin q) : near q = q := by
  cases a <;> cases b <;> simp only [Dbl.add] at h <;> try (split_ifs at h)
  all_goals first
    | exact (isDbl_iff.1 (rnd_isDbl h)).1
    | simp at h

theorem ofInt_one : ofInt 1 = .fin 1 := by decide +kernel
theorem ofInt_neg_one : ofInt (-1) = .fin (-1) := by decide +kernel

theorem add_small {p q : ℚ} (h : |p + q| ≤ 2 ^ 20) : (Dbl.fin p).add (.fin q) = .fin (near (p + q)) := (rnd_small h).1
theorem sub_small {p q : ℚ} (h : |p - q| ≤ 2 ^ 20) : (Dbl.fin p).sub (.fin q) = .fin (near (p - q)) := by
  simp only [Dbl.sub, Dbl.neg, Dbl.add]
  rw [← sub_eq_add_neg]; exact (rnd_small h).1

theorem near_bd {q : ℚ} {b : ℚ} (hb : near b = b) (h1 : -b ≤ q) (h2 : q ≤ b) : -b ≤ near q ∧ near q ≤ b := by
  have := near_abs_le hb (abs_le.2 ⟨h1, h2⟩)
  exact abs_le.1 this

theorem near_C2 : near 19998 = 19998 := by decide +kernel
theorem near_C3 : near 29997 = 29997 := by decide +kernel

/-- What `bounds` computes for numbers. -/
theorem bounds_minus {a1 a2 : ℚ} (h1 : InBoxQ a1) (h2 : InBoxQ a2) :
    bounds (-1) (.fin a1) (.fin a2) = (.fin (max 0 (near (a2 - a1))), .fin (min 9999 (near (near (9999 + a2) - a1)))) := by
  have := h1.nn; have := h1.le; have := h2.nn; have := h2.le
  have e1 := near_bd (q := 9999 + a2) near_C2 (by linarith) (by linarith)
  simp only [bounds, if_true, boxC]
  rw [sub_small (by rw [abs_le]; constructor <;> linarith), add_small (by rw [abs_le]; constructor <;> linarith),
    sub_small (by rw [abs_le]; constructor <;> linarith)]
  simp only [stdMax, stdMin, Dbl.lt, decide_eq_true_eq]
  refine Prod.ext ?_ ?_ <;> simp only []
  · split_ifs with h
    · rw [max_eq_right h.le]
    · rw [max_eq_left (not_lt.1 h)]
  · split_ifs with h
    · rw [min_eq_right h.le]
    · rw [min_eq_left (not_lt.1 h)]

theorem bounds_plus {a1 a2 : ℚ} (h1 : InBoxQ a1) (h2 : InBoxQ a2) :
    bounds 1 (.fin a1) (.fin a2) = (.fin (max 0 (near (near (a2 + a1) - 9999))), .fin (min 9999 (near (a1 + a2)))) := by
  have := h1.nn; have := h1.le; have := h2.nn; have := h2.le
  have e1 := near_bd (q := a2 + a1) near_C2 (by linarith) (by linarith)
  simp only [bounds, boxC, show ¬ (1 : ℤ) = -1 by decide, if_false]
  rw [add_small (p := a2) (by rw [abs_le]; constructor <;> linarith), add_small (by rw [abs_le]; constructor <;> linarith),
    sub_small (by rw [abs_le]; constructor <;> linarith)]
  simp only [stdMax, stdMin, Dbl.lt, decide_eq_true_eq]
  refine Prod.ext ?_ ?_ <;> simp only []
  · split_ifs with h
    · rw [max_eq_right h.le]
    · rw [max_eq_left (not_lt.1 h)]
  · split_ifs with h
    · rw [min_eq_right h.le]
    · rw [min_eq_left (not_lt.1 h)]

theorem bounds_nan {sg : ℤ} {a1 a2 : Dbl} (h : a1 = .nan ∨ a2 = .nan) : bounds sg a1 a2 = (.fin 0, boxC) := by
  unfold bounds
  rcases h with rfl | rfl
  · split_ifs <;> cases a2 <;> simp [Dbl.sub, Dbl.add, Dbl.neg, stdMax, stdMin, Dbl.lt, boxC]
  · split_ifs <;> cases a1 <;> simp [Dbl.sub, Dbl.add, Dbl.neg, stdMax, stdMin, Dbl.lt, boxC]

/-- The interval of the second multiplier: inside the box, not empty. -/
theorem bounds_box {sg : ℤ} (hs : sg = 1 ∨ sg = -1) {a1 a2 : Dbl} (h1 : InBox a1) (h2 : InBox a2) :
    ∃ lo hi, bounds sg a1 a2 = (.fin lo, .fin hi) ∧ InBoxQ lo ∧ InBoxQ hi ∧ lo ≤ hi := by
  rcases h1 with rfl | ⟨a1, rfl, h1⟩
  · exact ⟨0, 9999, bounds_nan (.inl rfl), zero_inBoxQ, C_inBoxQ, by norm_num⟩
  rcases h2 with rfl | ⟨a2, rfl, h2⟩
  · exact ⟨0, 9999, bounds_nan (.inr rfl), zero_inBoxQ, C_inBoxQ, by norm_num⟩
  have := h1.nn; have := h1.le; have := h2.nn; have := h2.le
  rcases hs with rfl | rfl
  · have e1 := near_bd (q := a2 + a1) near_C2 (by linarith) (by linarith)
    have e2 := near_mono (show near (a2 + a1) - 9999 ≤ 9999 by linarith)
    rw [near_C] at e2
    have e3 : near (near (a2 + a1) - 9999) ≤ near (a1 + a2) := by
      have := near_mono (show near (a2 + a1) - 9999 ≤ near (a1 + a2) by rw [add_comm a1 a2]; linarith)
      rwa [near_near] at this
    have e4 : 0 ≤ near (a1 + a2) := near_nonneg (by linarith)
    refine ⟨_, _, bounds_plus h1 h2, ⟨?_, le_max_left _ _, max_le (by norm_num) e2⟩,
      ⟨?_, le_min (by norm_num) e4, min_le_left _ _⟩,
      max_le (le_min (by norm_num) e4) (le_min e2 e3)⟩
    · rcases max_choice 0 (near (near (a2 + a1) - 9999)) with h | h <;> rw [h]
      · exact near_zero
      · exact near_near _
    · rcases min_choice 9999 (near (a1 + a2)) with h | h <;> rw [h]
      · exact near_C
      · exact near_near _
  · have e1 : 9999 ≤ near (9999 + a2) := by
      have := near_mono (show 9999 ≤ 9999 + a2 by linarith)
      rwa [near_C] at this
    have e2 := near_mono (show a2 - a1 ≤ 9999 by linarith)
    rw [near_C] at e2
    have e3 : near (a2 - a1) ≤ near (near (9999 + a2) - a1) := near_mono (by linarith)
    have e4 : 0 ≤ near (near (9999 + a2) - a1) := near_nonneg (by linarith)
    refine ⟨_, _, bounds_minus h1 h2, ⟨?_, le_max_left _ _, max_le (by norm_num) e2⟩,
      ⟨?_, le_min (by norm_num) e4, min_le_left _ _⟩,
      max_le (le_min (by norm_num) e4) (le_min e2 e3)⟩
    · rcases max_choice 0 (near (a2 - a1)) with h | h <;> rw [h]
      · exact near_zero
      · exact near_near _
    · rcases min_choice 9999 (near (near (9999 + a2) - a1)) with h | h <;> rw [h]
      · exact near_C
      · exact near_near _

/-- The new second multiplier: NaN, unchanged, or a number of the interval. -/
theorem newAlpha2_cases (eps eta : Dbl) (y2 : ℤ) (e1 e2 a2 : Dbl) {lo hi : ℚ} (hlo : InBoxQ lo) (hhi : InBoxQ hi) (hle : lo ≤ hi) :
    newAlpha2 eps eta y2 e1 e2 a2 (.fin lo) (.fin hi) = .nan ∨ newAlpha2 eps eta y2 e1 e2 a2 (.fin lo) (.fin hi) = a2 ∨
    ∃ v, newAlpha2 eps eta y2 e1 e2 a2 (.fin lo) (.fin hi) = .fin v ∧ InBoxQ v ∧ lo ≤ v ∧ v ≤ hi := by
  unfold newAlpha2
  split_ifs with h0
  · simp only []
    generalize hna : a2.add _ = na
    cases na with
    | nan => left; simp [Dbl.lt]
    | inf s =>
      right; right
      cases s
      · exact ⟨hi, by simp [Dbl.lt], hhi, hle, le_refl _⟩
      · exact ⟨lo, by simp [Dbl.lt], hlo, le_refl _, hle⟩
    | fin q =>
      right; right
      simp only [Dbl.lt, decide_eq_true_eq]
      split_ifs with h1 h2
      · exact ⟨lo, rfl, hlo, le_refl _, hle⟩
      · exact ⟨hi, rfl, hhi, hle, le_refl _⟩
      · exact ⟨q, rfl, ⟨add_near hna, le_trans hlo.nn (not_lt.1 h1), le_trans (not_lt.1 h2) hhi.le⟩, not_lt.1 h1, not_lt.1 h2⟩
  · simp only []
    split_ifs with h1 h2
    · right; right; exact ⟨lo, rfl, hlo, le_refl _, hle⟩
    · right; right; exact ⟨hi, rfl, hhi, hle, le_refl _⟩
    · right; left; rfl

theorem newPair_minus {a1 a2 v : ℚ} (h1 : InBoxQ a1) (h2 : InBoxQ a2) (hv : InBoxQ v)
    (hhi : v ≤ near (near (9999 + a2) - a1) ∨ v = a2) :
    InBox (newPair (-1) (.fin a1) (.fin a2) (.fin v)).1 ∧ InBox (newPair (-1) (.fin a1) (.fin a2) (.fin v)).2 := by
  obtain ⟨p1, p2⟩ := pair_minus h1 h2 hv hhi
  have := h1.nn; have := h1.le; have := h2.nn; have := h2.le; have := hv.nn; have := hv.le
  have e1 := near_bd (q := v - a2) near_C (by linarith) (by linarith)
  have e2 := near_bd (q := a1 + near (v - a2)) near_C2 (by linarith) (by linarith)
  have e3 := near_bd (q := near (a1 + near (v - a2)) - 9999) near_C3 (by linarith) (by linarith)
  have hm : ∀ x : ℚ, |x| ≤ 2 ^ 20 → (Dbl.fin (-1)).mul (.fin (near x)) = .fin (-near x) := by
    intro x hx
    have := (rnd_small (q := -near x) (by rw [abs_neg]; exact (rnd_small hx).2)).1
    rw [near_neg, near_near] at this
    simp only [Dbl.mul]
    rw [neg_one_mul]
    exact this
  unfold newPair adjust
  rw [ofInt_neg_one, sub_small (by rw [abs_le]; constructor <;> linarith), hm _ (by rw [abs_le]; constructor <;> linarith)]
  have e4 : (Dbl.fin a1).sub (.fin (-near (v - a2))) = .fin (near (a1 + near (v - a2))) := by
    rw [sub_small (by rw [abs_le]; constructor <;> linarith), sub_neg_eq_add]
  rw [e4]
  set n := near (a1 + near (v - a2)) with hn
  simp only [boxC, Dbl.lt, decide_eq_true_eq]
  split_ifs with c1 c2
  · refine ⟨.inr ⟨0, rfl, zero_inBoxQ⟩, .inr ⟨_, ?_, p1 c1⟩⟩
    simp only []
    rw [hn, hm _ (by rw [abs_le]; constructor <;> linarith), ← hn, add_small (by rw [abs_le]; constructor <;> linarith), ← sub_eq_add_neg]
  · refine ⟨.inr ⟨9999, rfl, C_inBoxQ⟩, .inr ⟨_, ?_, p2 c2⟩⟩
    simp only []
    rw [sub_small (by rw [abs_le]; constructor <;> linarith), hm _ (by rw [abs_le]; constructor <;> linarith),
      add_small (by rw [abs_le]; constructor <;> linarith), ← sub_eq_add_neg]
  · exact ⟨.inr ⟨n, rfl, by rw [hn]; exact near_near _, not_lt.1 c1, not_lt.1 c2⟩, .inr ⟨v, rfl, hv⟩⟩

theorem newPair_plus {a1 a2 v : ℚ} (h1 : InBoxQ a1) (h2 : InBoxQ a2) (hv : InBoxQ v)
    (hlo : near (near (a2 + a1) - 9999) ≤ v ∨ v = a2) :
    InBox (newPair 1 (.fin a1) (.fin a2) (.fin v)).1 ∧ InBox (newPair 1 (.fin a1) (.fin a2) (.fin v)).2 := by
  obtain ⟨p1, p2⟩ := pair_plus h1 h2 hv hlo
  have := h1.nn; have := h1.le; have := h2.nn; have := h2.le; have := hv.nn; have := hv.le
  have e1 := near_bd (q := v - a2) near_C (by linarith) (by linarith)
  have e2 := near_bd (q := a1 - near (v - a2)) near_C2 (by linarith) (by linarith)
  have e3 := near_bd (q := near (a1 - near (v - a2)) - 9999) near_C3 (by linarith) (by linarith)
  have hm : ∀ x : ℚ, |x| ≤ 2 ^ 20 → (Dbl.fin 1).mul (.fin (near x)) = .fin (near x) := by
    intro x hx
    have := (rnd_small (q := near x) ((rnd_small hx).2)).1
    rw [near_near] at this
    simp only [Dbl.mul]
    rw [one_mul]
    exact this
  unfold newPair adjust
  rw [ofInt_one, sub_small (by rw [abs_le]; constructor <;> linarith), hm _ (by rw [abs_le]; constructor <;> linarith),
    sub_small (by rw [abs_le]; constructor <;> linarith)]
  set n := near (a1 - near (v - a2)) with hn
  simp only [boxC, Dbl.lt, decide_eq_true_eq]
  split_ifs with c1 c2
  · refine ⟨.inr ⟨0, rfl, zero_inBoxQ⟩, .inr ⟨_, ?_, p1 c1⟩⟩
    simp only []
    rw [hn, hm _ (by rw [abs_le]; constructor <;> linarith), ← hn, add_small (by rw [abs_le]; constructor <;> linarith)]
  · refine ⟨.inr ⟨9999, rfl, C_inBoxQ⟩, .inr ⟨_, ?_, p2 c2⟩⟩
    simp only []
    rw [sub_small (by rw [abs_le]; constructor <;> linarith), hm _ (by rw [abs_le]; constructor <;> linarith),
      add_small (by rw [abs_le]; constructor <;> linarith)]
  · exact ⟨.inr ⟨n, rfl, by rw [hn]; exact near_near _, not_lt.1 c1, not_lt.1 c2⟩, .inr ⟨v, rfl, hv⟩⟩

theorem nan_sub (a : Dbl) : Dbl.nan.sub a = .nan := by cases a <;> rfl
theorem sub_nan (a : Dbl) : a.sub .nan = .nan := by cases a <;> rfl
theorem mul_nan (a : Dbl) : a.mul .nan = .nan := by cases a <;> rfl

theorem adjust_nan (sg : ℤ) (v : Dbl) : adjust sg .nan v = (.nan, v) := by simp [adjust, Dbl.lt, boxC]

/-- The pair a step stores. -/
theorem newPair_box {sg : ℤ} (hs : sg = 1 ∨ sg = -1) {a1 a2 : Dbl} (h1 : InBox a1) (h2 : InBox a2)
    (eps eta : Dbl) (y2 : ℤ) (e1 e2 : Dbl) :
    InBox (newPair sg a1 a2 (newAlpha2 eps eta y2 e1 e2 a2 (bounds sg a1 a2).1 (bounds sg a1 a2).2)).1 ∧
    InBox (newPair sg a1 a2 (newAlpha2 eps eta y2 e1 e2 a2 (bounds sg a1 a2).1 (bounds sg a1 a2).2)).2 := by
  obtain ⟨lo, hi, hb, hlo, hhi, hle⟩ := bounds_box hs h1 h2
  have hv := newAlpha2_cases eps eta y2 e1 e2 a2 hlo hhi hle
  rw [hb]
  simp only []
  generalize newAlpha2 eps eta y2 e1 e2 a2 (.fin lo) (.fin hi) = v at hv ⊢
  have hvb : InBox v := by
    rcases hv with rfl | rfl | ⟨q, rfl, hq, _⟩
    · exact .inl rfl
    · exact h2
    · exact .inr ⟨q, rfl, hq⟩
  rcases h1 with rfl | ⟨a1, rfl, h1⟩
  · rw [newPair, nan_sub, adjust_nan]; exact ⟨.inl rfl, hvb⟩
  rcases h2 with rfl | ⟨a2, rfl, h2⟩
  · rw [newPair, sub_nan, mul_nan, sub_nan, adjust_nan]; exact ⟨.inl rfl, hvb⟩
  rcases hvb with rfl | ⟨q, rfl, hq⟩
  · rw [newPair, nan_sub, mul_nan, sub_nan, adjust_nan]; exact ⟨.inl rfl, .inl rfl⟩
  rcases hs with rfl | rfl
  · refine newPair_plus h1 h2 hq ?_
    rcases hv with h | h | ⟨q', h, _, hl, _⟩
    · simp at h
    · right; simpa using h
    · left
      simp only [Dbl.fin.injEq] at h
      subst h
      rw [bounds_plus h1 h2] at hb
      simp only [Prod.mk.injEq, Dbl.fin.injEq] at hb
      rw [← hb.1] at hl
      exact (max_le_iff.1 hl).2
  · refine newPair_minus h1 h2 hq ?_
    rcases hv with h | h | ⟨q', h, _, _, hu⟩
    · simp at h
    · right; simpa using h
    · left
      simp only [Dbl.fin.injEq] at h
      subst h
      rw [bounds_minus h1 h2] at hb
      simp only [Prod.mk.injEq, Dbl.fin.injEq] at hb
      rw [← hb.2] at hu
      exact (le_min_iff.1 hu).2

/-! ### The list of support vectors -/

/-- The part of a state the list invariant is about. -/
def toQ (s : St Dbl) : St ℚ :=
  { alpha := fun _ => 0, err := fun _ => 0, done := s.done, sv := s.sv, heap := s.heap, head := s.head, bias := 0 }

/-- The part of a configuration the list invariant is about. -/
def cq (c : Cfg Dbl) : Cfg ℚ :=
  { n := c.n, y := c.y, M := fun _ _ => 0, eps := 0, maxEpoch := 0, k0 := 0 }

/-- What every training state satisfies. -/
structure DInv (c : Cfg Dbl) (s : St Dbl) : Prop where
  box : ∀ k < c.n, InBox (s.alpha k)
  list : ∃ P, SvHolds (cq c) P (toQ s)

theorem DInv.of_list {c : Cfg Dbl} {s s' : St Dbl} (h : DInv c s) (hb : ∀ k < c.n, InBox (s'.alpha k))
    (h1 : s'.heap = s.heap) (h2 : s'.head = s.head) (h3 : s'.sv = s.sv) : DInv c s' := by
  obtain ⟨_, P, hP⟩ := h
  exact ⟨hb, P, hP.congr (fun _ _ => Iff.rfl) h1 h2 h3⟩

theorem dwalk {β : Type} {c : Cfg Dbl} {s : St Dbl} (h : ∃ P, SvHolds (cq c) P (toQ s)) :
    ∃ hd nx, ∃ ks : List Nat, Dll.deref s.heap s.head = .ok hd ∧ hd.next = nx ∧ (∀ k ∈ ks, k < c.n) ∧
      ∀ (body : β → Int → Res β) (b : β), each s.heap body (walkFuel s) nx b =
        ks.foldlM (fun b (k : Nat) => body b (k : Int)) b := by
  obtain ⟨P, h⟩ := h
  obtain ⟨hd, nx, ks, a, b, _, d, e⟩ := SvHolds.walk (β := β) h
  exact ⟨hd, nx, ks, a, b, fun k hk => ((d k).1 hk).1, e⟩

theorem function_ok {c : Cfg Dbl} {s : St Dbl} (h : ∃ P, SvHolds (cq c) P (toQ s)) (i : Nat) :
    ∃ v, function c s i = .ok v := by
  obtain ⟨hd, nx, ks, hde, hnx, hk, hw⟩ := dwalk (β := Dbl) h
  unfold function
  rw [hde, Res_bind_ok, hnx, hw]
  rw [foldlM_ok _ (fun sum k => if (Dbl.fin 0).lt (s.alpha k) then
    (sum.add (((s.alpha k).mul (ofInt (c.y k))).mul (c.M k i))) else sum) ks _ ?_]
  · exact ⟨_, rfl⟩
  · intro k hk' b
    rw [sampleIdx_nat _ _ (hk k hk'), Res_bind_ok]
    split_ifs <;> rfl

theorem errorOf_ok {c : Cfg Dbl} {s : St Dbl} (h : ∃ P, SvHolds (cq c) P (toQ s)) (i : Nat) :
    ∃ v, errorOf c s i = .ok v := by
  unfold errorOf
  split_ifs
  · exact ⟨_, rfl⟩
  · obtain ⟨v, hv⟩ := function_ok h i
    rw [hv, Res_bind_ok]; exact ⟨_, rfl⟩

theorem saveSv_pos {K : Type} [Field K] [LinearOrder K] {s : St K} {i : Nat} {na : K} (h : 0 < na ∧ s.sv i = none) :
    Smo.saveSv s i na = (do
      let r ← append s.heap s.head
      let h' ← modify r.2 r.1 (fun m => { m with index := (i : Int) })
      .ok { s with heap := h', sv := upd s.sv i r.1 }) := by
  unfold Smo.saveSv
  rw [if_pos h]

theorem saveSv_zero {K : Type} [Field K] [LinearOrder K] {s : St K} {i : Nat} {na : K} (h1 : ¬ (0 < na ∧ s.sv i = none))
    (h2 : na = 0 ∧ s.sv i ≠ none) :
    Smo.saveSv s i na = (do
      let r ← remove s.heap (s.sv i)
      .ok { s with heap := r.2, sv := upd s.sv i none }) := by
  unfold Smo.saveSv
  rw [if_neg h1, if_pos h2]

theorem saveSv_same {K : Type} [Field K] [LinearOrder K] {s : St K} {i : Nat} {na : K} (h1 : ¬ (0 < na ∧ s.sv i = none))
    (h2 : ¬ (na = 0 ∧ s.sv i ≠ none)) : Smo.saveSv s i na = .ok s := by
  unfold Smo.saveSv
  rw [if_neg h1, if_neg h2]

theorem saveSv_ok {c : Cfg Dbl} {s : St Dbl} (h : ∃ P, SvHolds (cq c) P (toQ s)) {i : Nat} (hi : i < c.n) {na : Dbl}
    (hna : InBox na) : ∃ s', saveSv s i na = .ok s' ∧ (∃ P, SvHolds (cq c) P (toQ s')) ∧ s'.alpha = s.alpha := by
  rcases hna with rfl | ⟨q, rfl, hq⟩
  · refine ⟨s, ?_, h, rfl⟩
    simp [saveSv, Dbl.lt, Dbl.eq]
  · obtain ⟨P, h⟩ := h
    obtain ⟨s', he, hsv, _⟩ := Smo.saveSv_spec (c := cq c) h i hi q hq.nn
    have key : saveSv s i (.fin q) = .ok { s with heap := s'.heap, sv := s'.sv } ∧ s'.head = s.head := by
      unfold saveSv
      simp only [Dbl.lt, Dbl.eq, decide_eq_true_eq]
      by_cases c1 : 0 < q ∧ s.sv i = none
      · rw [saveSv_pos (s := toQ s) c1] at he
        rw [if_pos c1]
        change (append s.heap s.head >>= _) = _ at he
        cases ha : append s.heap s.head with
        | error e => rw [ha, Res_bind_error] at he; simp at he
        | ok r =>
          rw [ha, Res_bind_ok] at he
          rw [Res_bind_ok]
          generalize hm : Dll.modify r.2 r.1 _ = m at he ⊢
          cases m with
          | error e => simp at he
          | ok m =>
            rw [Res_bind_ok] at he ⊢
            cases he
            exact ⟨rfl, rfl⟩
      · rw [if_neg c1]
        by_cases c2 : q = 0 ∧ s.sv i ≠ none
        · rw [saveSv_zero (s := toQ s) c1 c2] at he
          rw [if_pos c2]
          change (remove s.heap (s.sv i) >>= _) = _ at he
          cases ha : remove s.heap (s.sv i) with
          | error e => rw [ha, Res_bind_error] at he; simp at he
          | ok r =>
            rw [ha, Res_bind_ok] at he
            rw [Res_bind_ok]
            cases he
            exact ⟨rfl, rfl⟩
        · rw [saveSv_same (s := toQ s) c1 c2] at he
          rw [if_neg c2]
          cases he
          exact ⟨rfl, rfl⟩
    exact ⟨_, key.1, ⟨_, hsv.congr (fun _ _ => Iff.rfl) rfl key.2.symm rfl⟩, rfl⟩

theorem refresh_ok {c : Cfg Dbl} {s : St Dbl} (h : ∃ P, SvHolds (cq c) P (toQ s)) (i1 i2 : Nat) :
    ∃ s', refresh c i1 i2 s = .ok s' ∧ s'.alpha = s.alpha ∧ s'.heap = s.heap ∧ s'.head = s.head ∧ s'.sv = s.sv := by
  obtain ⟨hd, nx, ks, hde, hnx, hk, hw⟩ := dwalk (β := St Dbl) h
  unfold refresh
  rw [hde, Res_bind_ok, hnx, hw]
  obtain ⟨s', he, hp⟩ := foldlM_inv (fun t : St Dbl => t.alpha = s.alpha ∧ t.heap = s.heap ∧ t.head = s.head ∧ t.sv = s.sv)
    (fun (t : St Dbl) (k : Nat) => (do
      let i ← sampleIdx c.n (k : Int)
      if (i ≠ i1 ∧ i ≠ i2) ∧ (t.alpha i).lt boxC then do
        let f ← function c t i
        .ok { t with err := upd t.err i (f.sub (ofInt (c.y i))) }
      else .ok t : Res (St Dbl))) ks s ⟨rfl, rfl, rfl, rfl⟩ (by
      intro k hk' t ht
      rw [sampleIdx_nat _ _ (hk k hk'), Res_bind_ok]
      split_ifs
      · obtain ⟨P, hP⟩ := h
        obtain ⟨v, hv⟩ := function_ok (c := c) (s := t) ⟨P, hP.congr (fun _ _ => Iff.rfl) ht.2.1 ht.2.2.1 ht.2.2.2⟩ k
        rw [hv, Res_bind_ok]
        exact ⟨_, rfl, ht⟩
      · exact ⟨t, rfl, ht⟩)
  rw [he, Res_bind_ok]
  exact ⟨_, rfl, hp⟩

theorem sg_cases {c : Cfg Dbl} (hy : ∀ i < c.n, c.y i = 1 ∨ c.y i = -1) {i1 i2 : Nat} (h1 : i1 < c.n) (h2 : i2 < c.n) :
    c.y i1 * c.y i2 = 1 ∨ c.y i1 * c.y i2 = -1 := by
  rcases hy i1 h1 with h | h <;> rcases hy i2 h2 with h' | h' <;> rw [h, h'] <;> simp

/-- The state left by a search: the invariant, and on failure the list as it was. -/
def Tried (c : Cfg Dbl) (s : St Dbl) (res : Res (Bool × St Dbl)) : Prop :=
  ∃ r s', res = .ok (r, s') ∧ DInv c s' ∧ (r = false → s'.heap = s.heap ∧ s'.head = s.head ∧ s'.sv = s.sv)

theorem takeStep_tried {c : Cfg Dbl} (hy : ∀ i < c.n, c.y i = 1 ∨ c.y i = -1) {s : St Dbl} (hs : DInv c s) {i1 i2 : Nat}
    (h1 : i1 < c.n) (h2 : i2 < c.n) : Tried c s (takeStep c s i1 i2) := by
  have hs' : DInv c { s with done := upd s.done i2 true } := hs.of_list hs.box rfl rfl rfl
  unfold takeStep
  simp only []
  obtain ⟨e1, he1⟩ := errorOf_ok hs'.list i1
  obtain ⟨e2, he2⟩ := errorOf_ok hs'.list i2
  rw [he1, Res_bind_ok, he2, Res_bind_ok]
  split_ifs with c1 c2
  · exact ⟨false, _, rfl, hs', fun _ => ⟨rfl, rfl, rfl⟩⟩
  · exact ⟨false, _, rfl, hs', fun _ => ⟨rfl, rfl, rfl⟩⟩
  · have hb := newPair_box (sg_cases hy h1 h2) (hs.box i1 h1) (hs.box i2 h2) c.eps
      (((Dbl.fin 2).mul (c.M i1 i2)).sub (c.M i1 i1) |>.sub (c.M i2 i2)) (c.y i2) e1 e2
    generalize newAlpha2 _ _ _ _ _ _ _ _ = na2 at hb ⊢
    have hc : ∃ s', commit c { s with done := upd s.done i2 true } i1 i2 e1 e2 na2 = .ok s' ∧ DInv c s' := by
      unfold commit
      simp only []
      generalize newPair _ _ _ _ = na at hb ⊢
      obtain ⟨P, hP⟩ := hs.list
      obtain ⟨s1, hs1, hl1, ha1⟩ := saveSv_ok (c := c)
        (s := { s with done := upd s.done i2 true, alpha := upd (upd s.alpha i1 na.1) i2 na.2 })
        ⟨P, hP.congr (fun _ _ => Iff.rfl) rfl rfl rfl⟩ h1 hb.1
      obtain ⟨s2, hs2, hl2, ha2⟩ := saveSv_ok hl1 h2 hb.2
      rw [hs1, Res_bind_ok, hs2, Res_bind_ok]
      obtain ⟨P2, hP2⟩ := hl2
      generalize Dbl.neg _ = nb
      obtain ⟨s3, hs3, ha3, hh3, hd3, hv3⟩ := refresh_ok (c := c) (s := { s2 with bias := nb })
        ⟨P2, hP2.congr (fun _ _ => Iff.rfl) rfl rfl rfl⟩ i1 i2
      refine ⟨s3, hs3, ?_, P2, hP2.congr (fun _ _ => Iff.rfl) hh3 hd3 hv3⟩
      intro k hk
      rw [ha3]
      simp only [ha2, ha1]
      by_cases k2 : k = i2
      · rw [k2, upd_same]; exact hb.2
      · rw [upd_other _ _ _ _ k2]
        by_cases k1 : k = i1
        · rw [k1, upd_same]; exact hb.1
        · rw [upd_other _ _ _ _ k1]; exact hs.box k hk
    obtain ⟨s', he, hi⟩ := hc
    rw [he, Res_bind_ok]
    exact ⟨true, s', rfl, hi, fun h => by simp at h⟩

theorem pickMax_ok {c : Cfg Dbl} {s : St Dbl} (h : ∃ P, SvHolds (cq c) P (toQ s)) (e1 : Dbl) :
    ∃ r, pickMax c s e1 = .ok r ∧ ∀ k, r.2 = some k → k < c.n := by
  obtain ⟨hd, nx, ks, hde, hnx, hk, hw⟩ := dwalk (β := Dbl × Option Nat) h
  unfold pickMax
  rw [hde, Res_bind_ok, hnx, hw]
  apply foldlM_inv (fun r : Dbl × Option Nat => ∀ k, r.2 = some k → k < c.n)
  · simp
  · intro k hk' b hb
    rw [sampleIdx_nat _ _ (hk k hk'), Res_bind_ok]
    split_ifs
    · simp only []
      split_ifs
      · refine ⟨_, rfl, ?_⟩
        intro j hj
        simp only [Option.some.injEq] at hj
        subst hj
        exact hk k hk'
      · exact ⟨b, rfl, hb⟩
    · exact ⟨b, rfl, hb⟩

theorem maxErrors_tried {c : Cfg Dbl} (hy : ∀ i < c.n, c.y i = 1 ∨ c.y i = -1) {s : St Dbl} (hs : DInv c s) {i1 : Nat}
    (h1 : i1 < c.n) (e1 : Dbl) : Tried c s (maxErrors c s i1 e1) := by
  obtain ⟨r, hr, hk⟩ := pickMax_ok hs.list e1
  unfold maxErrors
  rw [hr, Res_bind_ok]
  cases h : r.2 with
  | none => exact ⟨false, s, rfl, hs, fun _ => ⟨rfl, rfl, rfl⟩⟩
  | some i2 => exact takeStep_tried hy hs h1 (hk i2 h)

theorem nonBoundLoop_tried {c : Cfg Dbl} (hy : ∀ i < c.n, c.y i = 1 ∨ c.y i = -1) {i1 : Nat} (h1 : i1 < c.n)
    (l : List (Nat × Int)) : ∀ (f : Nat) (prev cur : Option Nat) (s : St Dbl), DInv c s → Linked s.heap prev cur l →
      l.length ≤ f → (∀ i ∈ l.map Prod.snd, ∃ k : Nat, k < c.n ∧ i = k) →
      Tried c s (nonBoundLoop c i1 f cur s) := by
  induction l with
  | nil =>
    intro f prev cur s hs hl _ _
    cases hl
    refine ⟨false, s, ?_, hs, fun _ => ⟨rfl, rfl, rfl⟩⟩
    cases f <;> rfl
  | cons a l ih =>
    obtain ⟨p, i⟩ := a
    intro f prev cur s hs hl hf hidx
    obtain ⟨rfl, nx, hc, hlk⟩ := hl
    obtain ⟨k, hk, rfl⟩ := hidx i (by simp)
    cases f with
    | zero => simp at hf
    | succ f =>
      have hcont : ∀ t : St Dbl, DInv c t → t.heap = s.heap → t.head = s.head → t.sv = s.sv →
          Tried c s (nonBoundLoop c i1 f nx t) := by
        intro t ht e1 e2 e3
        obtain ⟨r, s', he, hPs, hfail⟩ := ih f (some p) nx t ht (by rw [e1]; exact hlk)
          (by simpa using hf) (fun j hj => hidx j (by rw [List.map_cons, List.mem_cons]; right; exact hj))
        refine ⟨r, s', he, hPs, fun h => ?_⟩
        obtain ⟨a, b, d⟩ := hfail h
        exact ⟨a.trans e1, b.trans e2, d.trans e3⟩
      simp only [nonBoundLoop, Dll.deref, hc, Res_bind_ok, sampleIdx_nat _ _ hk]
      by_cases hcnd : s.done k = false ∧ (s.alpha k).lt boxC = true
      · rw [if_pos hcnd]
        obtain ⟨r, s', he, hPs, hfail⟩ := takeStep_tried hy hs h1 hk
        rw [he, Res_bind_ok]
        cases r with
        | true => exact ⟨true, s', rfl, hPs, fun h => by simp at h⟩
        | false =>
          obtain ⟨a, b, d⟩ := hfail rfl
          simp only [Bool.false_eq_true, if_false, a, hc, Res_bind_ok]
          exact hcont s' hPs a b d
      · rw [if_neg hcnd]
        simp only [Bool.false_eq_true, if_false]
        exact hcont s hs rfl rfl rfl

theorem iterateNonBound_tried {c : Cfg Dbl} (hy : ∀ i < c.n, c.y i = 1 ∨ c.y i = -1) {s : St Dbl} (hs : DInv c s)
    {i1 : Nat} (h1 : i1 < c.n) : Tried c s (iterateNonBound c s i1) := by
  obtain ⟨P, hP⟩ := hs.list
  obtain ⟨hd, nx, l, hhd, hc, hlk, hlen, ks, hks, _, hm⟩ := hP.nats
  unfold iterateNonBound
  change s.head = some hd at hhd
  change s.heap.cells hd = _ at hc
  rw [hhd, deref_some hc, Res_bind_ok]
  apply nonBoundLoop_tried hy h1 l _ _ _ s hs hlk hlen
  intro i hi
  rw [hks] at hi
  obtain ⟨k, hk, rfl⟩ := List.mem_map.1 hi
  exact ⟨k, ((hm k).1 hk).1, rfl⟩

theorem allSetLoop_ok {c : Cfg Dbl} (hy : ∀ i < c.n, c.y i = 1 ∨ c.y i = -1) {i1 : Nat} (h1 : i1 < c.n) (l : List Nat) :
    ∀ s : St Dbl, DInv c s → (∀ k ∈ l, k < c.n) → ∃ r s', allSetLoop c i1 l s = .ok (r, s') ∧ DInv c s' := by
  induction l with
  | nil => intro s hs _; exact ⟨false, s, rfl, hs⟩
  | cons k l ih =>
    intro s hs hl
    unfold allSetLoop
    by_cases hcnd : s.done k = false
    · simp only [if_pos hcnd]
      obtain ⟨r, s', he, hPs, _⟩ := takeStep_tried hy hs h1 (hl k (by simp))
      simp only [he, Res_bind_ok]
      cases r with
      | true => exact ⟨true, s', rfl, hPs⟩
      | false =>
        simp only [Bool.false_eq_true, if_false]
        exact ih _ hPs (fun j hj => hl j (by simp [hj]))
    · simp only [if_neg hcnd, Res_bind_ok, Bool.false_eq_true, if_false]
      exact ih s hs (fun j hj => hl j (by simp [hj]))

theorem examineExample_ok {c : Cfg Dbl} (hy : ∀ i < c.n, c.y i = 1 ∨ c.y i = -1) {s : St Dbl} (hs : DInv c s) {i1 : Nat}
    (h1 : i1 < c.n) : ∃ r s', examineExample c s i1 = .ok (r, s') ∧ DInv c s' := by
  unfold examineExample
  simp only []
  generalize (fun i => if i = i1 then true else if i < c.n then false else s.done i) = dn
  have hs1 : DInv c { s with done := dn } := hs.of_list hs.box rfl rfl rfl
  obtain ⟨e1, he1⟩ := errorOf_ok hs1.list i1
  rw [he1, Res_bind_ok]
  split_ifs
  · obtain ⟨r, s', he, hPs, _⟩ := maxErrors_tried hy hs1 h1 e1
    rw [he, Res_bind_ok]
    cases r with
    | true => exact ⟨true, s', rfl, hPs⟩
    | false =>
      simp only [Bool.false_eq_true, if_false]
      obtain ⟨r, s2, he, hPs, _⟩ := iterateNonBound_tried hy hPs h1
      rw [he, Res_bind_ok]
      cases r with
      | true => exact ⟨true, s2, rfl, hPs⟩
      | false =>
        simp only [Bool.false_eq_true, if_false]
        unfold iterateAllSet
        rw [if_neg (by omega)]
        apply allSetLoop_ok hy h1 _ _ hPs
        intro k hk
        obtain ⟨j, _, rfl⟩ := List.mem_map.1 hk
        exact Nat.mod_lt _ (by omega)
  · exact ⟨false, _, rfl, hs1⟩

theorem onePass_ok {c : Cfg Dbl} (hy : ∀ i < c.n, c.y i = 1 ∨ c.y i = -1) {s : St Dbl} (hs : DInv c s) (all : Bool) :
    ∃ r, onePass c all s = .ok r ∧ DInv c r.2 := by
  unfold onePass
  apply foldlM_inv (fun r : Nat × St Dbl => DInv c r.2)
  · exact hs
  · intro k hk b hb
    split_ifs
    · obtain ⟨r, s', he, hPs⟩ := examineExample_ok hy hb (List.mem_range.1 hk)
      rw [he, Res_bind_ok]
      exact ⟨_, rfl, hPs⟩
    · exact ⟨b, rfl, hb⟩

theorem routineLoop_ok {c : Cfg Dbl} (hy : ∀ i < c.n, c.y i = 1 ∨ c.y i = -1) (left : Nat) :
    ∀ (ch : Nat) (all : Bool) (s : St Dbl), DInv c s → ∃ r, routineLoop c left ch all s = .ok r ∧ DInv c r.2 := by
  induction left with
  | zero =>
    intro ch all s hs
    unfold routineLoop
    by_cases h : 0 < ch ∨ all = true
    · rw [if_pos h]; exact ⟨(false, s), rfl, hs⟩
    · rw [if_neg h]; exact ⟨(true, s), rfl, hs⟩
  | succ left ih =>
    intro ch all s hs
    unfold routineLoop
    by_cases h : 0 < ch ∨ all = true
    · rw [if_pos h]
      obtain ⟨r, he, hPr⟩ := onePass_ok hy hs all
      simp only [he, Res_bind_ok]
      exact ih _ _ _ hPr
    · rw [if_neg h]; exact ⟨(true, s), rfl, hs⟩

end MLTK.Fp
