import Verif.Model.DoubleBalanced
import Verif.Props.DoubleNorm
import Verif.Props.DoubleImaDual
/-!
# C246: the balanced perceptron in double arithmetic
-/
namespace MLTK.Props
open MLTK.Fp
open MLTK.Perc (Sample)
open MLTK.Bal (BState)
open MLTK.Data (Res_bind_ok Res_bind_error Res_pure)

private theorem near_half_least : near (two (-1074) / 2) = 0 := by decide +kernel

private theorem half_isDbl : IsDbl (2 ^ 1023) := by decide +kernel

section
attribute [local irreducible] Fp.rnd Fp.near Fp.huge Fp.two

/-- The error of rounding, however small the number. -/
private theorem near_any (q : ℚ) : |near q - q| ≤ |q| * two (-53) + two (-1074) / 2 := by
  refine (near_err q).trans ?_
  have hb : 0 ≤ |q| * two (-53) := mul_nonneg (abs_nonneg _) (two_pos _).le
  unfold ulpExp
  split_ifs with h
  · linarith
  · have hq : 0 < |q| := abs_pos.mpr h
    rcases max_cases (lg |q| - 52) (-1074) with ⟨h1, _⟩ | ⟨h1, _⟩
    · rw [h1]
      have h2 : two (lg |q| - 52) / 2 = two (lg |q|) * two (-53) := by
        simp only [two_eq]
        rw [show lg |q| - 52 = lg |q| + -53 + 1 by ring, zpow_add₀ (by norm_num), zpow_add₀ (by norm_num)]
        ring
      rw [h2]
      have := mul_le_mul_of_nonneg_right (lg_spec hq).1 (two_pos (-53)).le
      have := two_pos (-1074)
      linarith
    · rw [h1]; linarith

private theorem eps_le : two (-53) ≤ 1 / 1000 := by
  have : two (-53) ≤ two (-10) := two_le (by norm_num)
  refine this.trans ?_
  rw [two_eq]; norm_num

/-- Half the distance from the lesser to the greater of two numbers, as computed, is less than the greater. -/
private theorem shift_lt {a c s m t : ℚ} (ha : IsDbl a) (hc : IsDbl c) (h0 : 0 ≤ a) (h : a < c)
    (hs : s = near (a + c)) (hm : m = near (s / 2)) (ht : t = near (m - a)) : t < c := by
  by_contra hcon
  push Not at hcon
  have hmm : near m = m := by rw [hm, near_near]
  have ht1 : t ≤ m := by
    rw [ht]
    have := near_mono (show m - a ≤ m by linarith)
    rwa [hmm] at this
  have h1 := near_any (a + c)
  have h2 := near_any (s / 2)
  rw [← hs] at h1
  rw [← hm] at h2
  have he := eps_le
  have hep := two_pos (-53)
  have hT := two_pos (-1074)
  have hcp : 0 < c := lt_of_le_of_lt h0 h
  -- multiples of the least number
  obtain ⟨i, hi⟩ := dbl_multiple ha
  obtain ⟨j, hj⟩ := dbl_multiple hc
  -- `m - a` rounds to at least `c`
  have hs0 : 0 ≤ s := by rw [hs]; exact near_nonneg (by linarith)
  have hm0 : 0 ≤ m := by rw [hm]; exact near_nonneg (by linarith)
  rw [abs_of_pos (show (0 : ℚ) < a + c by linarith)] at h1
  rw [abs_of_nonneg (show (0 : ℚ) ≤ s / 2 by linarith)] at h2
  obtain ⟨_, h1b⟩ := abs_le.1 h1
  obtain ⟨_, h2b⟩ := abs_le.1 h2
  have h3 := near_any (m - a)
  rw [← ht] at h3
  have hma : 0 ≤ m - a := by
    by_contra hneg
    push Not at hneg
    have := near_mono hneg.le
    rw [near_zero, ← ht] at this
    linarith
  rw [abs_of_nonneg hma] at h3
  obtain ⟨_, h3b⟩ := abs_le.1 h3
  have e1 : (a + c) * two (-53) ≤ (a + c) * (1 / 1000) := mul_le_mul_of_nonneg_left he (by linarith)
  have e2 : s / 2 * two (-53) ≤ s / 2 * (1 / 1000) := mul_le_mul_of_nonneg_left he (by linarith)
  have e3 : (m - a) * two (-53) ≤ (m - a) * (1 / 1000) := mul_le_mul_of_nonneg_left he hma
  generalize two (-53) = ep at *
  by_cases hj3 : 4 ≤ j
  · have : 4 * two (-1074) ≤ c := by
      rw [hj]; exact mul_le_mul_of_nonneg_right (by exact_mod_cast hj3) hT.le
    linarith
  · -- the four least numbers
    have hgrid : ∀ z : ℤ, |z| ≤ 2 ^ 53 → near (z * two (-1074)) = z * two (-1074) :=
      fun z hz => near_of_grid ⟨z, -1074, hz, le_refl _, rfl⟩
    have hi0 : 0 ≤ i := by
      by_contra hneg
      have : (i : ℚ) * two (-1074) < 0 := mul_neg_of_neg_of_pos (by exact_mod_cast not_le.mp hneg) hT
      linarith
    have hij : i < j := by
      rw [hi, hj] at h
      exact_mod_cast lt_of_mul_lt_mul_right h hT.le
    have hss : s = ((i + j : ℤ) : ℚ) * two (-1074) := by
      rw [hs, hi, hj, ← add_mul, ← Int.cast_add, hgrid _ (by rw [abs_le]; constructor <;> omega)]
    by_cases h1j : i + j = 1
    · obtain ⟨rfl, rfl⟩ : i = 0 ∧ j = 1 := by omega
      have : m = 0 := by
        rw [hm, hss]
        simpa using near_half_least
      rw [this, hi] at ht
      simp [near_zero] at ht
      linarith
    · obtain ⟨u, hu1, hu2⟩ : ∃ u : ℤ, i + j ≤ 2 * u ∧ 2 * u ≤ i + j + 1 := ⟨(i + j + 1) / 2, by omega, by omega⟩
      have hmu : m ≤ u * two (-1074) := by
        rw [hm, ← hgrid u (by rw [abs_le]; constructor <;> omega)]
        refine near_mono ?_
        rw [hss]
        have : ((i + j : ℤ) : ℚ) * two (-1074) ≤ ((2 * u : ℤ) : ℚ) * two (-1074) :=
          mul_le_mul_of_nonneg_right (by exact_mod_cast hu1) hT.le
        push_cast at this ⊢
        linarith
      have htu : t ≤ ((u - i : ℤ) : ℚ) * two (-1074) := by
        rw [ht, ← hgrid (u - i) (by rw [abs_le]; constructor <;> omega)]
        refine near_mono ?_
        rw [hi]; push_cast; linarith
      have : ((u - i : ℤ) : ℚ) * two (-1074) < (j : ℚ) * two (-1074) :=
        mul_lt_mul_of_pos_right (by exact_mod_cast (show u - i < j by omega)) hT
      linarith

private theorem near_twice {q : ℚ} (h : IsDbl q) : near (q + q) = q + q := by
  obtain ⟨m, e, m1, m2, m3⟩ := (isDbl_iff.1 h).1 ▸ near_grid q
  refine near_of_grid ⟨m, e + 1, m1, by omega, ?_⟩
  rw [m3, two_add]
  have : two 1 = 2 := by rw [two_eq]; norm_num
  rw [this]; ring

private theorem zero_isDbl : IsDbl 0 := by
  unfold IsDbl; exact rnd_eq_zero.2 near_zero

/-- The shift: how far the bias is moved. -/
private theorem shift_spec {a c s : ℚ} (ha : IsDbl a) (hc : IsDbl c) (h0 : 0 ≤ a) (hc0 : 0 ≤ c) (hs : rnd (a + c) = .fin s) :
    ∃ b, balShift (.fin 0) (.fin a, .fin c) = .fin b ∧ IsDbl b ∧ (a < c → 0 ≤ b ∧ b < c) ∧ (c ≤ a → -a ≤ b ∧ b ≤ 0) ∧
      |b - (c - a) / 2| ≤ (a + c) * two (-51) + two (-1073) := by
  have hsn := (rnd_fin_inv hs).1
  have hsd := rnd_isDbl hs
  have hs0 : 0 ≤ s := by rw [hsn]; exact near_nonneg (by linarith)
  obtain ⟨m, hm, hm0, hms, hmn⟩ := rnd_between zero_isDbl hsd (show 0 ≤ s / 2 by linarith) (show s / 2 ≤ s by linarith)
  have hmd := rnd_isDbl hm
  have hdiv : ((Dbl.fin a).abs.add (Dbl.fin c).abs).div (.fin 2) = .fin m := by
    simp only [Dbl.abs, Dbl.add, abs_of_nonneg h0, abs_of_nonneg hc0, hs]
    rw [div_fin (by norm_num), hm]
  have hge : ∀ r, IsDbl r → r ≤ a → r ≤ c → r ≤ m := by
    intro r hr h1 h2
    have h3 : r + r ≤ s := by rw [hsn, ← near_twice hr]; exact near_mono (by linarith)
    rw [hmn, ← (isDbl_iff.1 hr).1]
    exact near_mono (by linarith)
  have hle : ∀ r, IsDbl r → a ≤ r → c ≤ r → m ≤ r := by
    intro r hr h1 h2
    have h3 : s ≤ r + r := by rw [hsn, ← near_twice hr]; exact near_mono (by linarith)
    rw [hmn, ← (isDbl_iff.1 hr).1]
    exact near_mono (by linarith)
  have hab : (Dbl.fin a).abs = .fin a := by simp [Dbl.abs, abs_of_nonneg h0]
  have hcb : (Dbl.fin c).abs = .fin c := by simp [Dbl.abs, abs_of_nonneg hc0]
  have hsub : ∀ r, IsDbl r → 0 ≤ r → r ≤ m → ∃ t, ((Dbl.fin m).sub (.fin r)).abs = .fin t ∧ 0 ≤ t ∧ t = near (m - r) ∧ IsDbl t := by
    intro r hr hr0 hrm
    obtain ⟨t, ht, ht0, _, htn⟩ := rnd_between zero_isDbl hmd (show 0 ≤ m - r by linarith) (show m - r ≤ m by linarith)
    refine ⟨t, ?_, ht0, htn, rnd_isDbl ht⟩
    simp only [Dbl.sub, Dbl.neg, Dbl.add, ← sub_eq_add_neg, ht, Dbl.abs, abs_of_nonneg ht0]
  have hmid : ∀ r t, 0 ≤ r → r ≤ m → t = near (m - r) → |t - ((a + c) / 2 - r)| ≤ (a + c) * two (-51) + two (-1073) := by
    intro r t hr0 hrm ht
    have h1 := near_any (a + c)
    have h2 := near_any (s / 2)
    have h3 := near_any (m - r)
    rw [← hsn, abs_of_nonneg (show (0 : ℚ) ≤ a + c by linarith)] at h1
    rw [← hmn, abs_of_nonneg (show (0 : ℚ) ≤ s / 2 by linarith)] at h2
    rw [← ht, abs_of_nonneg (show (0 : ℚ) ≤ m - r by linarith)] at h3
    have hmac : m ≤ a + c := by
      rcases le_total a c with hac | hac
      · have := hle c hc hac le_rfl; linarith
      · have := hle a ha le_rfl hac; linarith
    have hs2 : s ≤ 2 * (a + c) := by
      rw [hsn]
      rcases le_total a c with hac | hac
      · have := near_mono (show a + c ≤ c + c by linarith)
        rw [near_twice hc] at this; linarith
      · have := near_mono (show a + c ≤ a + a by linarith)
        rw [near_twice ha] at this; linarith
    have hep := two_pos (-53)
    have hT := two_pos (-1074)
    have e1 : two (-51) = 4 * two (-53) := by
      rw [show (-51 : ℤ) = 2 + -53 by norm_num, two_add, show two 2 = 4 by rw [two_eq]; norm_num]
    have e2 : two (-1073) = 2 * two (-1074) := by
      rw [show (-1073 : ℤ) = 1 + -1074 by norm_num, two_add, show two 1 = 2 by rw [two_eq]; norm_num]
    have f1 : s / 2 * two (-53) ≤ (a + c) * two (-53) := mul_le_mul_of_nonneg_right (by linarith) hep.le
    have f2 : (m - r) * two (-53) ≤ (a + c) * two (-53) := mul_le_mul_of_nonneg_right (by linarith) hep.le
    have f3 : 0 ≤ (a + c) * two (-53) := mul_nonneg (by linarith) hep.le
    rw [e1, e2]
    rw [abs_le] at h1 h2 h3 ⊢
    constructor <;> linarith [h1.1, h1.2, h2.1, h2.2, h3.1, h3.2]
  unfold balShift
  simp only [hdiv]
  rw [hab, hcb]
  by_cases h : a < c
  · have hn : ¬ c < a := not_lt.mpr h.le
    obtain ⟨t, ht, ht0, htn, htd⟩ := hsub a ha h0 (hge a ha le_rfl h.le)
    refine ⟨t, ?_, htd, fun _ => ⟨ht0, shift_lt ha hc h0 h hsn hmn htn⟩, fun h' => absurd h (not_lt.mpr h'), ?_⟩
    rotate_left
    · have := hmid a t h0 (hge a ha le_rfl h.le) htn
      rwa [show (a + c) / 2 - a = (c - a) / 2 by ring] at this
    rw [if_pos (by simpa [Dbl.lt] using h), if_neg (by simpa [Dbl.lt] using hn), ht]
    simp only [Dbl.add, zero_add]; exact htd
  · have hca := not_lt.mp h
    have hr : (if (Dbl.fin c).lt (.fin a) = true then Dbl.fin c else .fin a) = .fin c := by
      by_cases hlt : c < a
      · rw [if_pos (by simpa [Dbl.lt] using hlt)]
      · rw [if_neg (by simpa [Dbl.lt] using hlt), le_antisymm hca (not_lt.mp hlt)]
    obtain ⟨t, ht, ht0, htn, htd⟩ := hsub c hc hc0 (hge c hc hca le_rfl)
    have hta : t ≤ a := by
      rw [htn, ← (isDbl_iff.1 ha).1]
      refine near_mono ?_
      have := hle a ha le_rfl hca
      linarith
    refine ⟨-t, ?_, htd.neg, fun h' => absurd h' h, fun _ => ⟨by linarith, by linarith⟩, ?_⟩
    rotate_left
    · have := hmid c t hc0 (hge c hc hca le_rfl) htn
      rwa [← abs_neg, show -(t - ((a + c) / 2 - c)) = -t - (c - a) / 2 by ring] at this
    rw [if_neg (by simpa [Dbl.lt] using hca), hr, ht]
    simp only [Dbl.sub, Dbl.neg, Dbl.add, zero_add]; exact htd.neg

/-- Without a finite sum there is no finite bias. -/
private theorem shift_inf {a c b : ℚ} (h0 : 0 ≤ a) (hc0 : 0 ≤ c)
    (h : balShift (.fin 0) (.fin a, .fin c) = .fin b) : ∃ s, rnd (a + c) = .fin s := by
  have hab : (Dbl.fin a).abs = .fin a := by simp [Dbl.abs, abs_of_nonneg h0]
  have hcb : (Dbl.fin c).abs = .fin c := by simp [Dbl.abs, abs_of_nonneg hc0]
  cases hs : rnd (a + c) with
  | fin s => exact ⟨s, rfl⟩
  | inf t =>
    unfold balShift at h
    simp only [hab, hcb] at h
    have hadd : (Dbl.fin a).add (.fin c) = .inf t := hs
    rw [hadd] at h
    split_ifs at h <;> simp [Dbl.div, Dbl.sub, Dbl.neg, Dbl.add, Dbl.abs] at h
  | nan =>
    unfold balShift at h
    simp only [hab, hcb] at h
    have hadd : (Dbl.fin a).add (.fin c) = .nan := hs
    rw [hadd] at h
    split_ifs at h <;> simp [Dbl.div, Dbl.sub, Dbl.neg, Dbl.add, Dbl.abs] at h

private theorem balDot_isDbl {w x : List Dbl} {q : ℚ} (h : balDot w x = .ok (.fin q)) : IsDbl q := by
  unfold balDot at h
  split_ifs at h
  simp only [Except.ok.injEq] at h
  have : ∀ (l : List (Dbl × Dbl)) (r : Dbl), (∀ q, r = .fin q → IsDbl q) → ∀ q,
      l.foldl (fun r p => r.add (p.1.mul p.2)) r = .fin q → IsDbl q := by
    intro l
    induction l with
    | nil => intro r hr q hq; exact hr q hq
    | cons p l ih => intro r _ q hq; exact ih _ (fun q' hq' => add_isDbl hq') q hq
  exact this _ _ (fun q hq => by rw [← Dbl.fin.inj hq]; exact zero_isDbl) q h

private theorem balDot_add {w x : List Dbl} {d : Dbl} (h : balDot w x = .ok d) : d.add (.fin 0) = d := by
  cases d with
  | fin q => simp only [Dbl.add, add_zero]; exact balDot_isDbl h
  | inf s => rfl
  | nan => rfl

private def BalRight (w : List Dbl) (bias : Dbl) (samples : List (Sample Dbl)) : Prop :=
  ∀ p ∈ samples, ∃ d, balDot w p.x = .ok d ∧ p.y.eq (balPred (d.add bias)) = true

private theorem balUpdate_bias {rate : Dbl} {p : Sample Dbl} {s s' : BState Dbl} (h : Fp.balUpdate rate p s = .ok s') :
    (s.bias = .nan → s'.bias = .nan) ∧ (s.bias = .fin 0 → s'.bias = .nan ∨ s'.bias = .fin 0) ∧
      (∀ r, rate = .fin r → s.bias = .fin 0 → s'.bias = .fin 0) := by
  unfold Fp.balUpdate at h
  split_ifs at h
  simp only [Except.ok.injEq] at h
  have h00 : rnd 0 = .fin 0 := zero_isDbl
  subst h
  refine ⟨fun hb => ?_, fun hb => ?_, fun r hr hb => ?_⟩
  · simp only [hb]; rw [nan_add]
  · simp only [hb]
    cases rate <;> simp [Dbl.mul, Dbl.add, h00]
  · subst hr
    simp only [hb]; simp [Dbl.mul, Dbl.add, h00]

private theorem balScan_spec {rate : Dbl} {maxUp : Nat} : ∀ (samples : List (Sample Dbl)) (s : BState Dbl) (e : Nat)
    (r : BState Dbl × Nat × Bool), Fp.balScan rate maxUp samples s e = .ok r → s.ite ≤ maxUp →
    e ≤ r.2.1 ∧ (r.2.2 = false → r.1.ite ≤ maxUp) ∧ (s.bias = .nan → r.1.bias = .nan) ∧
    (s.bias = .fin 0 → r.1.bias = .nan ∨ r.1.bias = .fin 0) ∧ (∀ q, rate = .fin q → s.bias = .fin 0 → r.1.bias = .fin 0) ∧
    (r.2.1 = e → r.1 = s ∧ BalRight s.w s.bias samples) := by
  intro samples
  induction samples with
  | nil =>
    intro s e r h hs
    simp only [Fp.balScan, Except.ok.injEq] at h
    subst h
    exact ⟨le_rfl, fun _ => hs, id, fun h => .inr h, fun _ _ h => h, fun _ => ⟨rfl, fun p hp => by simp at hp⟩⟩
  | cons p rest ih =>
    intro s e r h hs
    rw [Fp.balScan] at h
    cases hd : balDot s.w p.x with
    | error f => rw [hd, Res_bind_error] at h; simp at h
    | ok d =>
      rw [hd, Res_bind_ok] at h
      by_cases hp : p.y.eq (balPred (d.add s.bias)) = false
      · rw [if_pos hp] at h
        cases hu : Fp.balUpdate rate p s with
        | error f => rw [hu, Res_bind_error] at h; simp at h
        | ok s' =>
          rw [hu, Res_bind_ok] at h
          obtain ⟨b1, b2, b3⟩ := balUpdate_bias hu
          by_cases hm : s'.ite > maxUp
          · rw [if_pos hm] at h
            simp only [Except.ok.injEq] at h
            subst h
            exact ⟨Nat.le_succ e, fun h => by simp at h, b1, b2, b3, fun h => by simp at h⟩
          · rw [if_neg hm] at h
            obtain ⟨c1, c2, c3, c4, c5, _⟩ := ih s' (e + 1) r h (not_lt.mp hm)
            refine ⟨by omega, c2, fun h => c3 (b1 h), fun h => ?_, fun q hq h => c5 q hq (b3 q hq h), fun h => by omega⟩
            rcases b2 h with h | h
            · exact .inl (c3 h)
            · exact c4 h
      · rw [if_neg hp, if_neg (by omega)] at h
        obtain ⟨c1, c2, c3, c4, c5, c6⟩ := ih s e r h hs
        refine ⟨c1, c2, c3, c4, c5, fun h => ⟨(c6 h).1, ?_⟩⟩
        intro q hq
        rcases List.mem_cons.1 hq with rfl | hq
        · exact ⟨d, hd, by simpa using hp⟩
        · exact (c6 h).2 q hq

private theorem balLoop_spec {rate : Dbl} {maxUp : Nat} {late : Nat → Bool} {samples : List (Sample Dbl)} : ∀ (n epoch : Nat)
    (s : BState Dbl) (e : Nat) (r : BState Dbl × Nat), Fp.balLoop rate maxUp late samples n epoch s e = .ok r →
    s.ite ≤ maxUp → (s.bias = .nan → r.1.bias = .nan) ∧ (s.bias = .fin 0 → r.1.bias = .nan ∨ r.1.bias = .fin 0) ∧
    (∀ q, rate = .fin q → s.bias = .fin 0 → r.1.bias = .fin 0) ∧
    (0 < n → r.2 = 0 → BalRight r.1.w r.1.bias samples) := by
  intro n
  induction n with
  | zero =>
    intro epoch s e r h _
    simp only [Fp.balLoop, Except.ok.injEq] at h
    subst h
    exact ⟨id, fun h => .inr h, fun _ _ h => h, fun h => absurd h (lt_irrefl _)⟩
  | succ n ih =>
    intro epoch s e r h hs
    rw [Fp.balLoop] at h
    cases hsc : Fp.balScan rate maxUp samples s 0 with
    | error f => rw [hsc, Res_bind_error] at h; simp at h
    | ok q =>
      rw [hsc, Res_bind_ok] at h
      obtain ⟨_, c2, c3, c4, c5, c6⟩ := balScan_spec samples s 0 q hsc hs
      by_cases hst : q.2.2 = true ∨ late (epoch + 1) = true ∨ q.2.1 = 0
      · rw [if_pos hst] at h
        simp only [Except.ok.injEq] at h
        subst h
        refine ⟨c3, c4, c5, fun _ h0 => ?_⟩
        have := c6 h0
        simp only
        rw [this.1]; exact this.2
      · rw [if_neg hst] at h
        push Not at hst
        obtain ⟨d1, d2, d3, d4⟩ := ih (epoch + 1) q.1 q.2.1 r h (c2 (by simpa using hst.1))
        refine ⟨fun h => d1 (c3 h), fun h => ?_, fun x hx h => d3 x hx (c5 x hx h), fun _ h0 => ?_⟩
        · rcases c4 h with h | h
          · exact .inl (d1 h)
          · exact d2 h
        · rcases Nat.eq_zero_or_pos n with rfl | hn
          · simp only [Fp.balLoop, Except.ok.injEq] at h
            subst h
            exact absurd h0 hst.2.2
          · exact d4 hn h0

/-- What being answered right means. -/
private theorem right_cases {y d : Dbl} (h : y.eq (balPred d) = true) :
    (y = .fin 1 ∧ ((∃ q, 0 ≤ q ∧ d = .fin q) ∨ d = .inf false)) ∨
    (y = .fin (-1) ∧ ((∃ q, q < 0 ∧ d = .fin q) ∨ d = .inf true ∨ d = .nan)) := by
  unfold balPred at h
  by_cases h0 : (Dbl.fin 0).le d = true
  · rw [if_pos h0] at h
    left
    cases y <;> simp [Dbl.eq] at h
    refine ⟨by rw [h], ?_⟩
    cases d with
    | fin q => exact .inl ⟨q, by simpa [Dbl.le] using h0, rfl⟩
    | inf s => right; simp [Dbl.le] at h0; rw [h0]
    | nan => simp [Dbl.le] at h0
  · rw [if_neg h0] at h
    right
    cases y <;> simp [Dbl.eq] at h
    refine ⟨by rw [h], ?_⟩
    cases d with
    | fin q => exact .inl ⟨q, by simpa [Dbl.le] using h0, rfl⟩
    | inf s => right; left; simp [Dbl.le] at h0; rw [h0]
    | nan => exact .inr (.inr rfl)

private theorem balGammas_spec {w : List Dbl} : ∀ (samples : List (Sample Dbl)) (a c : ℚ) (g : Dbl × Dbl),
    Fp.balGammas w (.fin 0) samples (.fin a, .fin c) = .ok g → IsDbl a → IsDbl c → 0 ≤ a → 0 ≤ c →
    BalRight w (.fin 0) samples →
    ∃ a' c', g = (.fin a', .fin c') ∧ IsDbl a' ∧ IsDbl c' ∧ 0 ≤ a' ∧ 0 ≤ c' ∧ a' ≤ a ∧ c' ≤ c ∧
      (∀ p ∈ samples, ∀ q, balDot w p.x = .ok (.fin q) → (p.y = .fin 1 → a' ≤ q) ∧ (p.y = .fin (-1) → q ≤ -c')) ∧
      (a' = a ∨ ∃ p ∈ samples, p.y = .fin 1 ∧ balDot w p.x = .ok (.fin a')) ∧
      (c' = c ∨ ∃ p ∈ samples, p.y = .fin (-1) ∧ balDot w p.x = .ok (.fin (-c'))) := by
  intro samples
  induction samples with
  | nil =>
    intro a c g h ha hc h0 hc0 _
    simp only [Fp.balGammas, Except.ok.injEq] at h
    exact ⟨a, c, h.symm, ha, hc, h0, hc0, le_rfl, le_rfl, fun p hp => by simp at hp, .inl rfl, .inl rfl⟩
  | cons p rest ih =>
    intro a c g h ha hc h0 hc0 hr
    obtain ⟨d, hd, hy⟩ := hr p (by simp)
    rw [Fp.balGammas, hd, Res_bind_ok] at h
    rw [balDot_add hd] at h hy
    have hrest : BalRight w (.fin 0) rest := fun q hq => hr q (by simp [hq])
    have key : ∀ a1 c1, IsDbl a1 → IsDbl c1 → 0 ≤ a1 → 0 ≤ c1 → a1 ≤ a → c1 ≤ c →
        (∀ q, d = .fin q → (p.y = .fin 1 → a1 ≤ q) ∧ (p.y = .fin (-1) → q ≤ -c1)) →
        (a1 = a ∨ (p.y = .fin 1 ∧ d = .fin a1)) → (c1 = c ∨ (p.y = .fin (-1) ∧ d = .fin (-c1))) →
        Fp.balGammas w (.fin 0) rest (.fin a1, .fin c1) = .ok g →
        ∃ a' c', g = (.fin a', .fin c') ∧ IsDbl a' ∧ IsDbl c' ∧ 0 ≤ a' ∧ 0 ≤ c' ∧ a' ≤ a ∧ c' ≤ c ∧
          (∀ p' ∈ p :: rest, ∀ q, balDot w p'.x = .ok (.fin q) → (p'.y = .fin 1 → a' ≤ q) ∧ (p'.y = .fin (-1) → q ≤ -c')) ∧
          (a' = a ∨ ∃ p' ∈ p :: rest, p'.y = .fin 1 ∧ balDot w p'.x = .ok (.fin a')) ∧
          (c' = c ∨ ∃ p' ∈ p :: rest, p'.y = .fin (-1) ∧ balDot w p'.x = .ok (.fin (-c'))) := by
      intro a1 c1 k1 k2 k3 k4 k5 k6 k7 k9 k10 k8
      obtain ⟨a', c', e1, e2, e3, e4, e5, e6, e7, e8, e9, e10⟩ := ih a1 c1 g k8 k1 k2 k3 k4 hrest
      refine ⟨a', c', e1, e2, e3, e4, e5, e6.trans k5, e7.trans k6, fun p' hp' q hq => ?_, ?_, ?_⟩
      rotate_left
      · rcases e9 with rfl | ⟨q, hq, e⟩
        · rcases k9 with h | ⟨h1, h2⟩
          · exact .inl h
          · exact .inr ⟨p, by simp, h1, by rw [hd, h2]⟩
        · exact .inr ⟨q, by simp [hq], e⟩
      · rcases e10 with rfl | ⟨q, hq, e⟩
        · rcases k10 with h | ⟨h1, h2⟩
          · exact .inl h
          · exact .inr ⟨p, by simp, h1, by rw [hd, h2]⟩
        · exact .inr ⟨q, by simp [hq], e⟩
      rcases List.mem_cons.1 hp' with rfl | hp'
      · rw [hd] at hq
        have := k7 q (by injection hq)
        exact ⟨fun h => e6.trans (this.1 h), fun h => (this.2 h).trans (by linarith)⟩
      · exact e8 p' hp' q hq
    have n1 : (Dbl.fin 1).eq (.fin (-1)) = false := by decide +kernel
    have n2 : (Dbl.fin (-1)).eq (.fin 1) = false := by decide +kernel
    have n3 : (Dbl.fin 1).eq (.fin 1) = true := by decide +kernel
    have n4 : (Dbl.fin (-1)).eq (.fin (-1)) = true := by decide +kernel
    have m1 : (Dbl.fin 1) ≠ .fin (-1) := by decide +kernel
    rcases right_cases hy with ⟨hy1, ⟨q, hq0, rfl⟩ | rfl⟩ | ⟨hy1, ⟨q, hq0, rfl⟩ | rfl | rfl⟩
    · have hqd := balDot_isDbl hd
      simp only [hy1, (mul_signs hqd).1, n1, n3] at h
      by_cases hlt : q < a
      · simp only [Dbl.lt, hlt, decide_true, and_self, if_true, Bool.false_eq_true, false_and, if_false] at h
        exact key q c hqd hc hq0 hc0 hlt.le le_rfl (fun q' hq' => ⟨fun _ => by rw [Dbl.fin.inj hq'],
          fun h => absurd (hy1.symm.trans h) m1⟩) (.inr ⟨hy1, rfl⟩) (.inl rfl) h
      · simp only [Dbl.lt, hlt, decide_false, Bool.false_eq_true, and_false, false_and, if_false] at h
        exact key a c ha hc h0 hc0 le_rfl le_rfl (fun q' hq' => ⟨fun _ => by rw [← Dbl.fin.inj hq']; exact not_lt.mp hlt,
          fun h => absurd (hy1.symm.trans h) m1⟩) (.inl rfl) (.inl rfl) h
    · have hm : (Dbl.fin 1).mul (.inf false) = .inf false := by decide +kernel
      simp only [hy1, hm, n1, n3] at h
      simp only [Dbl.lt, Bool.false_eq_true, and_false, if_false] at h
      exact key a c ha hc h0 hc0 le_rfl le_rfl (fun q' hq' => by simp at hq') (.inl rfl) (.inl rfl) h
    · have hqd := balDot_isDbl hd
      simp only [hy1, (mul_signs hqd).2, n2, n4] at h
      by_cases hlt : -q < c
      · simp only [Dbl.lt, hlt, decide_true, and_self, if_true, Bool.false_eq_true, false_and, if_false] at h
        exact key a (-q) ha hqd.neg h0 (by linarith) le_rfl hlt.le (fun q' hq' =>
          ⟨fun h => absurd (h.symm.trans hy1) m1, fun _ => by rw [← Dbl.fin.inj hq']; linarith⟩) (.inl rfl) (.inr ⟨hy1, by rw [neg_neg]⟩) h
      · simp only [Dbl.lt, hlt, decide_false, Bool.false_eq_true, and_false, false_and, if_false] at h
        exact key a c ha hc h0 hc0 le_rfl le_rfl (fun q' hq' =>
          ⟨fun h => absurd (h.symm.trans hy1) m1, fun _ => by rw [← Dbl.fin.inj hq']; linarith [not_lt.mp hlt]⟩) (.inl rfl) (.inl rfl) h
    · have hm : (Dbl.fin (-1)).mul (.inf true) = .inf false := by decide +kernel
      simp only [hy1, hm, n2, n4] at h
      simp only [Dbl.lt, Bool.false_eq_true, and_false, if_false] at h
      exact key a c ha hc h0 hc0 le_rfl le_rfl (fun q' hq' => by simp at hq') (.inl rfl) (.inl rfl) h
    · have hm : (Dbl.fin (-1)).mul .nan = .nan := rfl
      simp only [hy1, hm, n2, n4] at h
      simp only [Dbl.lt, Bool.false_eq_true, and_false, if_false] at h
      exact key a c ha hc h0 hc0 le_rfl le_rfl (fun q' hq' => by simp at hq') (.inl rfl) (.inl rfl) h

/-- What a successful training has done before it moved the bias, and how far it moved it. -/
private theorem balTrain_spec {rate : Dbl} {maxEpoch maxUp : Nat} {late : Nat → Bool} {samples : List (Sample Dbl)}
    {w0 w : List Dbl} {b : Dbl} (hep : 0 < maxEpoch) (h : Fp.balTrain rate maxEpoch maxUp late samples w0 = .ok (true, w, b)) :
    ((∀ r, rate ≠ .fin r) ∧ b = .nan) ∨ (BalRight w (.fin 0) samples ∧ ∃ a c, b = Fp.balShift (.fin 0) (.fin a, .fin c) ∧
      IsDbl a ∧ IsDbl c ∧ 0 ≤ a ∧ 0 ≤ c ∧
      (∀ p ∈ samples, ∀ q, balDot w p.x = .ok (.fin q) → (p.y = .fin 1 → a ≤ q) ∧ (p.y = .fin (-1) → q ≤ -c)) ∧
      (a = dblMax ∨ ∃ p ∈ samples, p.y = .fin 1 ∧ balDot w p.x = .ok (.fin a)) ∧
      (c = dblMax ∨ ∃ p ∈ samples, p.y = .fin (-1) ∧ balDot w p.x = .ok (.fin (-c)))) := by
  unfold Fp.balTrain at h
  cases hl : Fp.balLoop rate maxUp late samples maxEpoch 0 ⟨w0, .fin 0, 0⟩ 0 with
  | error f => rw [hl, Res_bind_error] at h; simp at h
  | ok r =>
    rw [hl, Res_bind_ok] at h
    obtain ⟨_, b2, b3, b4⟩ := balLoop_spec maxEpoch 0 _ 0 r hl (Nat.zero_le _)
    cases hg : Fp.balGammas r.1.w r.1.bias samples (.fin dblMax, .fin dblMax) with
    | error f => rw [hg, Res_bind_error] at h; simp at h
    | ok g =>
      rw [hg, Res_bind_ok, Res_pure] at h
      simp only [Except.ok.injEq, Prod.mk.injEq, decide_eq_true_eq] at h
      obtain ⟨he, rfl, rfl⟩ := h
      have hr := b4 hep he
      by_cases hb : r.1.bias = .fin 0
      · right
        rw [hb] at hg hr ⊢
        have hm0 : 0 ≤ dblMax := by
          have := dblMax_top zero_isDbl
          exact this
        obtain ⟨a, c, e1, e2, e3, e4, e5, _, _, e8, e9⟩ := balGammas_spec samples _ _ g hg dblMax_isDbl dblMax_isDbl hm0 hm0 hr
        exact ⟨hr, a, c, by rw [e1], e2, e3, e4, e5, e8, e9⟩
      · left
        refine ⟨fun q hq => hb (b3 q hq rfl), ?_⟩
        rcases b2 rfl with hn | hn
        · rw [hn]
          unfold Fp.balShift
          split_ifs <;> simp [Dbl.add, Dbl.sub]
        · exact absurd hn hb

/-- **C246 (partial).**  In double arithmetic, whatever the samples, the start weights, the rate and the limits (at least one
epoch): if training answers `true` and leaves a finite bias, `evaluate` answers every training sample with its label, although
the bias was moved after the last pass. -/
theorem C246_answers_partial (rate : Dbl) (maxEpoch maxUp : Nat) (late : Nat → Bool) (samples : List (Sample Dbl))
    (w0 w : List Dbl) (b : ℚ) (hep : 0 < maxEpoch)
    (h : Fp.balTrain rate maxEpoch maxUp late samples w0 = .ok (true, w, .fin b)) :
    ∀ p ∈ samples, Fp.balEvaluate w (.fin b) p.x false = .ok p.y := by
  rcases balTrain_spec hep h with ⟨_, hn⟩ | ⟨hr, a, c, hb, ha, hc, h0, hc0, hv, _⟩
  · simp at hn
  obtain ⟨s, hs⟩ := shift_inf h0 hc0 hb.symm
  obtain ⟨b', hb', hbd, hlt, hge, _⟩ := shift_spec ha hc h0 hc0 hs
  have hbb : b = b' := Dbl.fin.inj (hb.trans hb')
  subst hbb
  intro p hp
  obtain ⟨d, hd, hy⟩ := hr p hp
  rw [balDot_add hd] at hy
  unfold Fp.balEvaluate
  rw [hd, Res_bind_ok, Res_pure]
  simp only [Bool.false_eq_true, if_false, Except.ok.injEq]
  unfold balPred
  rcases right_cases hy with ⟨hy1, ⟨q, hq0, rfl⟩ | rfl⟩ | ⟨hy1, ⟨q, hq0, rfl⟩ | rfl | rfl⟩
  · have hq := (hv p hp q hd).1 hy1
    rw [hy1, if_pos]
    refine le_rnd zero_isDbl le_rfl ?_
    by_cases hac : a < c
    · have := (hlt hac).1; linarith
    · have := (hge (not_lt.mp hac)).1; linarith
  · rw [hy1]; rfl
  · have hq := (hv p hp q hd).2 hy1
    have hneg : q + b < 0 := by
      by_cases hac : a < c
      · have := (hlt hac).2; linarith
      · have := (hge (not_lt.mp hac)).2; linarith
    obtain ⟨i, hi⟩ := dbl_multiple (balDot_isDbl hd)
    obtain ⟨j, hj⟩ := dbl_multiple hbd
    have hT := two_pos (-1074)
    have hij : i + j ≤ -1 := by
      by_contra hcon
      have : (0 : ℚ) ≤ ((i + j : ℤ) : ℚ) * two (-1074) := mul_nonneg (by exact_mod_cast (by omega : 0 ≤ i + j)) hT.le
      rw [hi, hj] at hneg
      push_cast at this
      linarith
    have hle : q + b ≤ -two (-1074) := by
      have : ((i + j : ℤ) : ℚ) * two (-1074) ≤ ((-1 : ℤ) : ℚ) * two (-1074) :=
        mul_le_mul_of_nonneg_right (by exact_mod_cast hij) hT.le
      rw [hi, hj]
      push_cast at this
      linarith
    have hgr : near (-two (-1074)) = -two (-1074) :=
      near_of_grid ⟨-1, -1074, by norm_num, le_rfl, by push_cast; ring⟩
    have hn : near (q + b) < 0 := by
      have := near_mono hle
      rw [hgr] at this
      linarith
    rw [hy1, if_neg]
    have hadd : (Dbl.fin q).add (.fin b) = rnd (q + b) := rfl
    rw [hadd]
    cases hx : rnd (q + b) with
    | fin x =>
      have := (rnd_fin_inv hx).1
      simp only [Dbl.le, decide_eq_true_eq, not_le]
      rw [this]; exact hn
    | inf s =>
      have : (rnd (q + b)).le (rnd 0) = true := rnd_mono hneg.le
      rw [hx, show rnd 0 = .fin 0 from zero_isDbl] at this
      simp only [Dbl.le] at this ⊢
      rw [this]; simp
    | nan => simp [Dbl.le]
  · rw [hy1]; rfl
  · rw [hy1]; rfl

/-- **C246 (partial, the balance).**  The bias left is, up to the given rounding error, the one that puts the hyperplane in the
middle between the closest samples `p` and `n` of the two classes, with the values `u` and `v` before the bias is added. -/
theorem C246_middle_partial (rate : Dbl) (maxEpoch maxUp : Nat) (late : Nat → Bool) (samples : List (Sample Dbl))
    (w0 w : List Dbl) (b : ℚ) (hep : 0 < maxEpoch)
    (h : Fp.balTrain rate maxEpoch maxUp late samples w0 = .ok (true, w, .fin b))
    (p n : Sample Dbl) (hp : p ∈ samples) (hn : n ∈ samples) (hpy : p.y = .fin 1) (hny : n.y = .fin (-1)) (u v : ℚ)
    (hu : Fp.balDot w p.x = .ok (.fin u)) (hv : Fp.balDot w n.x = .ok (.fin v))
    (hmin : ∀ q ∈ samples, q.y = .fin 1 → ∀ z, Fp.balDot w q.x = .ok (.fin z) → u ≤ z)
    (hmax : ∀ q ∈ samples, q.y = .fin (-1) → ∀ z, Fp.balDot w q.x = .ok (.fin z) → z ≤ v) :
    |b - -(u + v) / 2| ≤ (u - v) * two (-51) + two (-1073) := by
  rcases balTrain_spec hep h with ⟨_, hnn⟩ | ⟨_, a, c, hb, ha, hc, h0, hc0, hval, hat1, hat2⟩
  · simp at hnn
  obtain ⟨s, hs⟩ := shift_inf h0 hc0 hb.symm
  obtain ⟨b', hb', _, _, _, hmid⟩ := shift_spec ha hc h0 hc0 hs
  have hbb : b = b' := Dbl.fin.inj (hb.trans hb')
  subst hbb
  have h1 : a = u := by
    refine le_antisymm ((hval p hp u hu).1 hpy) ?_
    rcases hat1 with h | ⟨q, hq, hqy, hqv⟩
    · rw [h]; exact dblMax_top (balDot_isDbl hu)
    · exact hmin q hq hqy a hqv
  have h2 : c = -v := by
    have k1 := (hval n hn v hv).2 hny
    refine le_antisymm (by linarith) ?_
    rcases hat2 with h | ⟨q, hq, hqy, hqv⟩
    · rw [h]; exact dblMax_top (balDot_isDbl hv).neg
    · have := hmax q hq hqy _ hqv; linarith
  rw [h1, h2, show (-v - u) / 2 = -(u + v) / 2 by ring, show u + -v = u - v by ring] at hmid
  exact hmid

/-- **C246 (finite bias)** With a finite rate the bias is finite if some sample of each class is not farther from the hyperplane
found than `2 ^ 1022`: this is what `C246_answers_partial` asks for. -/
theorem C246_finite (rate : ℚ) (maxEpoch maxUp : Nat) (late : Nat → Bool) (samples : List (Sample Dbl))
    (w0 w : List Dbl) (b : Dbl) (hep : 0 < maxEpoch)
    (h : Fp.balTrain (.fin rate) maxEpoch maxUp late samples w0 = .ok (true, w, b))
    (p n : Sample Dbl) (hp : p ∈ samples) (hn : n ∈ samples) (hpy : p.y = .fin 1) (hny : n.y = .fin (-1)) (u v : ℚ)
    (hu : Fp.balDot w p.x = .ok (.fin u)) (hv : Fp.balDot w n.x = .ok (.fin v)) (hu1 : u ≤ 2 ^ 1022) (hv1 : -(2 ^ 1022) ≤ v) :
    ∃ q, b = .fin q := by
  rcases balTrain_spec hep h with ⟨hr, _⟩ | ⟨_, a, c, hb, ha, hc, h0, hc0, hval, _⟩
  · exact absurd rfl (hr rate)
  have h1 := (hval p hp u hu).1 hpy
  have h2 := (hval n hn v hv).2 hny
  obtain ⟨s, hs, _⟩ := rnd_between zero_isDbl half_isDbl (show 0 ≤ a + c by linarith) (show a + c ≤ 2 ^ 1023 by
    have : (2 : ℚ) ^ 1023 = 2 ^ 1022 + 2 ^ 1022 := by rw [pow_succ, mul_two]
    rw [this]
    exact add_le_add (h1.trans hu1) (by rw [← neg_le_neg_iff]; exact hv1.trans h2))
  obtain ⟨b', hb', _⟩ := shift_spec ha hc h0 hc0 hs
  exact ⟨b', hb.trans hb'⟩

end

example : Fp.balTrain (.fin 1) 10 10 (fun _ => false) [⟨[.fin 1, .fin 1], .fin 1⟩, ⟨[.fin (-1), .fin 1], .fin (-1)⟩,
    ⟨[.fin 3, .fin 0], .fin 1⟩] [.fin 0, .fin (1 / 2)] = .ok (true, [.fin 1, .fin (-1 / 2)], .fin (1 / 2)) := by decide +kernel

example : ∀ p ∈ ([⟨[.fin 1, .fin 1], .fin 1⟩, ⟨[.fin (-1), .fin 1], .fin (-1)⟩, ⟨[.fin 3, .fin 0], .fin 1⟩] : List (Sample Dbl)),
    Fp.balEvaluate [.fin 1, .fin (-1 / 2)] (.fin (1 / 2)) p.x false = .ok p.y :=
  C246_answers_partial (.fin 1) 10 10 (fun _ => false) _ [.fin 0, .fin (1 / 2)] _ _ (by norm_num) (by decide +kernel)

example : |(1 / 2 : ℚ) - -(1 / 2 + -(3 / 2)) / 2| ≤ (1 / 2 - -(3 / 2)) * two (-51) + two (-1073) :=
  C246_middle_partial (.fin 1) 10 10 (fun _ => false) [⟨[.fin 1, .fin 1], .fin 1⟩, ⟨[.fin (-1), .fin 1], .fin (-1)⟩,
    ⟨[.fin 3, .fin 0], .fin 1⟩] [.fin 0, .fin (1 / 2)] [.fin 1, .fin (-1 / 2)] (1 / 2) (by norm_num) (by decide +kernel)
    ⟨[.fin 1, .fin 1], .fin 1⟩ ⟨[.fin (-1), .fin 1], .fin (-1)⟩ (by simp) (by simp) rfl rfl (1 / 2) (-(3 / 2))
    (by decide +kernel) (by decide +kernel)
    (by
      have e1 : Fp.balDot [.fin 1, .fin (-1 / 2)] [.fin 1, .fin 1] = .ok (.fin (1 / 2)) := by decide +kernel
      have e2 : Fp.balDot [.fin 1, .fin (-1 / 2)] [.fin 3, .fin 0] = .ok (.fin 3) := by decide +kernel
      intro q hq hy z hz
      simp only [List.mem_cons, List.not_mem_nil, or_false] at hq
      rcases hq with rfl | rfl | rfl
      · rw [e1] at hz; injection hz with hz; injection hz with hz; exact hz.le
      · exact absurd hy (by decide +kernel)
      · rw [e2] at hz; injection hz with hz; injection hz with hz; rw [← hz]; norm_num)
    (by
      have e1 : Fp.balDot [.fin 1, .fin (-1 / 2)] [.fin (-1), .fin 1] = .ok (.fin (-(3 / 2))) := by decide +kernel
      intro q hq hy z hz
      simp only [List.mem_cons, List.not_mem_nil, or_false] at hq
      rcases hq with rfl | rfl | rfl
      · exact absurd hy (by decide +kernel)
      · rw [e1] at hz; injection hz with hz; injection hz with hz; exact hz.ge
      · exact absurd hy (by decide +kernel))

/-- **C246 refuted** for values beyond `2 ^ 1022`: the sum of the two margins overflows, the bias becomes infinite, and a training
sample is answered wrong although training answers `true`. -/
theorem C246_overflow_refuted :
    Fp.balTrain (.fin 1) 10 10 (fun _ => false) [⟨[.fin (2 ^ 1023)], .fin 1⟩, ⟨[.fin (-(2 ^ 1023))], .fin (-1)⟩] [.fin 1] =
      .ok (true, [.fin 1], .inf true) ∧
    Fp.balEvaluate [.fin 1] (.inf true) [.fin (2 ^ 1023)] false = .ok (.fin (-1)) := by decide +kernel

/-- **C246 refuted**, the balance: the closest samples of the two classes are not equally far from the hyperplane that training
leaves. -/
theorem C246_balance_refuted :
    Fp.balTrain (.fin 1) 10 10 (fun _ => false) [⟨[.fin 1], .fin 1⟩, ⟨[.fin (-(1 + 1 / 2 ^ 52))], .fin (-1)⟩] [.fin 1] =
      .ok (true, [.fin 1], .fin 0) ∧
    Fp.balEvaluate [.fin 1] (.fin 0) [.fin 1] true = .ok (.fin 1) ∧
    Fp.balEvaluate [.fin 1] (.fin 0) [.fin (-(1 + 1 / 2 ^ 52))] true = .ok (.fin (-(1 + 1 / 2 ^ 52))) := by decide +kernel

/-- **C246 refuted** when no epoch may run: training answers `true` on the random weights. -/
theorem C246_no_epoch_refuted :
    Fp.balTrain (.fin 1) 0 10 (fun _ => false) [⟨[.fin 1], .fin (-1)⟩, ⟨[.fin (-1)], .fin 1⟩] [.fin 1] =
      .ok (true, [.fin 1], .fin 0) ∧
    Fp.balEvaluate [.fin 1] (.fin 0) [.fin 1] false = .ok (.fin 1) := by decide +kernel

end MLTK.Props
