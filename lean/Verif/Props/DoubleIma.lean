import Verif.Model.DoubleIma
import Verif.Props.DoubleFixed
import Verif.Props.DoubleNorm
import Mathlib.Logic.Relation
/-!
# C243: the incremental margin algorithm in `double` arithmetic
-/
namespace MLTK.Spec
open MLTK.Fp MLTK.Perc MLTK.IMA

/-- A round of `IMAp::train`: a successful run of the fixed-margin perceptron with the margin asked for, ending in `s`, after which
the solution is stored and the next margin is chosen. -/
def DRound (sqrt : Dbl → Dbl) (pow : Dbl → Dbl → Dbl) (c : ICfg Dbl) (clock : Nat → Nat → Bool) (dim : Nat) (samples : List (Sample Dbl))
    (s : FState Dbl) (st st' : IState Dbl) : Prop :=
  Fp.imaFixed sqrt pow ⟨st.rate, st.gamma, c.flexible, c.eps, c.q, c.maxIt, c.maxUp⟩ (clock st.it) dim samples st.sub = (true, s) ∧
    st' = Fp.imaRound sqrt c dim samples s st

/-- A sequence of rounds from `st`: the state each fixed-margin run ended in and the state after the round. -/
def DRounds (sqrt : Dbl → Dbl) (pow : Dbl → Dbl → Dbl) (c : ICfg Dbl) (clock : Nat → Nat → Bool) (dim : Nat) (samples : List (Sample Dbl)) :
    IState Dbl → List (FState Dbl × IState Dbl) → Prop
  | _, [] => True
  | st, r :: rest => DRound sqrt pow c clock dim samples r.1 st r.2 ∧ DRounds sqrt pow c clock dim samples r.2 rest

/-- The numbers of a successful run are usable: the norm is a positive number, the multipliers are numbers and no value is NaN. -/
def Usable (dim : Nat) (samples : List (Sample Dbl)) (s : FState Dbl) : Prop :=
  (∃ n, s.norm = .fin n ∧ 0 < n) ∧ (∀ i < samples.length, ∃ a, s.alphas.getD i (.fin 0) = .fin a ∧ IsDbl a) ∧
    ∀ p ∈ samples, Fp.decision dim s.w p.x s.bias ≠ .nan

/-- The labels are 1 and -1. -/
def DSigns (samples : List (Sample Dbl)) : Prop := ∀ p ∈ samples, p.y = .fin 1 ∨ p.y = .fin (-1)

/-- The sample is strictly on the side of its label. -/
def DSide (dim : Nat) (w : List Dbl) (b : Dbl) (p : Sample Dbl) : Prop :=
  (p.y = .fin 1 → (Dbl.fin 0).lt (Fp.decision dim w p.x b) = true) ∧ (p.y = .fin (-1) → (Fp.decision dim w p.x b).lt (.fin 0) = true)

end MLTK.Spec

namespace MLTK.Props
open MLTK.Spec MLTK.Fp MLTK.Perc
open MLTK.IMA (ISol IState ICfg)

section
attribute [local irreducible] Fp.rnd Fp.near Fp.huge Fp.two

variable (sqrt : Dbl → Dbl) (pow : Dbl → Dbl → Dbl)

/-- A successful run ends with a pass without mistakes. -/
theorem imaFixed_success (c : FCfg Dbl) (clock : ℕ → Bool) (dim : ℕ) (samples : List (Sample Dbl)) (s0 s : FState Dbl)
    (hperm : s0.index.Perm (List.range samples.length)) (h : Fp.imaFixed sqrt pow c clock dim samples s0 = (true, s)) :
    s.index.Perm (List.range samples.length) ∧
    ∀ i (hi : i < samples.length), (samples[i].y.mul (Fp.decision dim s.w samples[i].x s.bias)).le
      ((c.gamma.mul s.norm).sub ((s.alphas.getD i (.fin 0)).mul c.flexible)) = false := by
  unfold Fp.imaFixed at h
  generalize (if s0.w = [] then List.replicate dim (Dbl.fin 0) else s0.w) = w at h
  dsimp only at h
  by_cases hc : clock 0 = true
  · have hpass : ∀ t : FState Dbl, t.index.Perm (List.range samples.length) →
        (Fp.fmPass sqrt pow c dim samples t).1.index.Perm (List.range samples.length) := by
      intro t ht
      have := fmScan_keeps sqrt pow c dim samples (fun _ => True) (fun _ _ _ _ _ _ => trivial) samples.length 0 t 0 trivial (le_refl _)
        (by rw [ht.length_eq]; simp)
      rw [← List.range_eq_range'] at this
      simp only [Fp.fmPass]
      exact this.2.trans ht
    obtain ⟨s1, hP1, hs1⟩ := Perc.epochs_last (Fp.fmPass sqrt pow c dim samples) (fun s => s.steps > c.maxIt ∨ s.ctot > c.maxUp) clock
      (fun t => t.index.Perm (List.range samples.length)) (fun t ht _ => hpass t ht) (c.maxIt + 1 - s0.steps) 0
      { s0 with w := w, s := 0 } 1 hperm hc
    rw [hs1] at h
    simp only [Prod.mk.injEq, decide_eq_true_eq] at h
    obtain ⟨he, hs⟩ := h
    refine ⟨by rw [← hs]; exact hpass s1 hP1, ?_⟩
    simp only [Fp.fmPass] at he hs
    obtain ⟨-, h2, h3⟩ := fmScan_clean sqrt pow c dim samples (List.range samples.length) s1
      (Fp.fmScan sqrt pow c dim samples (List.range samples.length) s1 0).1 0 (Prod.ext rfl he)
    rw [h2] at hs
    rw [← hs]
    intro i hi
    have hmem : i ∈ s1.index := hP1.mem_iff.mpr (by simpa using hi)
    obtain ⟨k, hk, hki⟩ := List.mem_iff_getElem.mp hmem
    have hk' : k < samples.length := by rw [hP1.length_eq] at hk; simpa using hk
    have := h3 k (by simpa using hk')
    rw [Perc.getD_lt _ _ _ hk, hki, Perc.getD_lt _ _ _ hi] at this
    exact this
  · rw [epochs] at h
    simp [hc] at h

/-- The result of an addition is a `double`. -/
theorem add_isDbl {a b : Dbl} {q : ℚ} (h : a.add b = .fin q) : IsDbl q := by
  cases a <;> cases b <;> simp only [Dbl.add] at h
  · exact rnd_isDbl h
  all_goals (try split_ifs at h) <;> simp at h

theorem decision_isDbl {dim : ℕ} (hd : 0 < dim) (w x : List Dbl) (b : Dbl) {q : ℚ} (h : Fp.decision dim w x b = .fin q) : IsDbl q := by
  obtain ⟨n, rfl⟩ : ∃ n, dim = n + 1 := ⟨dim - 1, by omega⟩
  unfold Fp.decision at h
  rw [List.range_succ, List.foldl_append, List.foldl_cons, List.foldl_nil] at h
  exact add_isDbl h

theorem mul_signs {q : ℚ} (h : IsDbl q) : (Dbl.fin 1).mul (.fin q) = .fin q ∧ (Dbl.fin (-1)).mul (.fin q) = .fin (-q) := by
  refine ⟨?_, ?_⟩
  · simp only [Dbl.mul, one_mul]; exact h
  · simp only [Dbl.mul, neg_one_mul]; exact h.neg

/-- The value of a sample and the value over the norm are on the side of its label, beyond the margin. -/
def Beyond (g0 n : ℚ) (y f : Dbl) : Prop :=
  (y = .fin 1 → (Dbl.fin 0).lt f = true ∧ f.lt (.fin 0) = false ∧ (f.div (.fin n) = .inf false ∨ ∃ r, f.div (.fin n) = .fin r ∧ IsDbl r ∧ g0 ≤ r)) ∧
  (y = .fin (-1) → f.lt (.fin 0) = true ∧ (Dbl.fin 0).le f = false ∧
    (f.div (.fin n) = .inf true ∨ ∃ r, f.div (.fin n) = .fin r ∧ IsDbl r ∧ r ≤ -g0))

/-- A sample beyond the margin: its value and the value over the norm. -/
theorem beyond {g : Dbl} (hg : D0 g) {n a : ℚ} (hn : 0 < n) {y f : Dbl} (hy : y = .fin 1 ∨ y = .fin (-1))
    (hf : ∀ q, f = .fin q → IsDbl q) (hnan : f ≠ .nan)
    (h : (y.mul f).le ((g.mul (.fin n)).sub ((Dbl.fin a).mul (.fin 0))) = false) :
    ∃ g0, g = .fin g0 ∧ 0 ≤ g0 ∧ IsDbl g0 ∧ Beyond g0 n y f := by
  have h0 : rnd 0 = .fin 0 := rnd_eq_zero.2 near_zero
  have e0 : (Dbl.fin a).mul (.fin 0) = .fin 0 := by simp only [Dbl.mul, mul_zero, h0]
  rw [e0] at h
  have hyf : y.mul f ≠ .nan := by
    cases f with
    | nan => exact absurd rfl hnan
    | fin q => rcases hy with rfl | rfl
               · rw [(mul_signs (hf q rfl)).1]; simp
               · rw [(mul_signs (hf q rfl)).2]; simp
    | inf s => rcases hy with rfl | rfl <;> simp [Dbl.mul]
  have hinf : ∀ v : Dbl, v ≠ .nan → v.le (.inf false) = true := by
    intro v hv
    cases v with
    | nan => exact absurd rfl hv
    | fin q => rfl
    | inf s => cases s <;> rfl
  rcases hg with ⟨g0, rfl, hgd, hg0⟩ | rfl
  swap
  · exfalso
    have : ((Dbl.inf false).mul (.fin n)).sub (.fin 0) = .inf false := by
      simp [Dbl.mul, hn.ne', not_lt.2 hn.le, Dbl.sub, Dbl.neg, Dbl.add]
    rw [this, hinf _ hyf] at h
    simp at h
  have hgn : (Dbl.fin g0).mul (.fin n) = rnd (g0 * n) := rfl
  rw [hgn] at h
  rcases rnd_D0 (q := g0 * n) (mul_nonneg hg0 hn.le) with ⟨t, ht, htd, ht0⟩ | ht
  swap
  · exfalso
    rw [ht] at h
    have : (Dbl.inf false).sub (.fin 0) = .inf false := rfl
    rw [this, hinf _ hyf] at h
    simp at h
  rw [ht] at h
  have hts : (Dbl.fin t).sub (.fin 0) = .fin t := by
    simp only [Dbl.sub, Dbl.neg, Dbl.add, neg_zero, add_zero]; exact htd
  rw [hts] at h
  obtain ⟨htn, -⟩ := rnd_fin_inv ht
  have hgn' : near g0 = g0 := (isDbl_iff.1 hgd).1
  -- a value above the rounded bound is above the bound
  have habove : ∀ z : ℚ, IsDbl z → t < z → g0 ≤ z / n := by
    intro z hz hlt
    rw [le_div_iff₀ hn]
    by_contra hcon
    push Not at hcon
    have := near_mono hcon.le
    rw [(isDbl_iff.1 hz).1, ← htn] at this
    linarith
  have hpos : ∀ z : ℚ, IsDbl z → t < z → rnd (z / n) = .inf false ∨ ∃ r, rnd (z / n) = .fin r ∧ IsDbl r ∧ g0 ≤ r := by
    intro z hz hlt
    have hzn := habove z hz hlt
    rcases rnd_D0 (q := z / n) (hg0.trans hzn) with ⟨r, hr, hrd, -⟩ | hr
    · right
      refine ⟨r, hr, hrd, ?_⟩
      obtain ⟨hr', -⟩ := rnd_fin_inv hr
      rw [hr', ← hgn']
      exact near_mono hzn
    · exact .inl hr
  refine ⟨g0, rfl, hg0, hgd, ?_, ?_⟩
  · rintro rfl
    cases f with
    | nan => exact absurd rfl hnan
    | fin q =>
      rw [(mul_signs (hf q rfl)).1] at h
      have hlt : t < q := by simpa [Dbl.le] using h
      have hq0 : 0 < q := ht0.trans_lt hlt
      refine ⟨by simpa [Dbl.lt] using hq0, by simpa [Dbl.lt] using hq0.le, ?_⟩
      rw [div_fin hn]
      exact hpos q (hf q rfl) hlt
    | inf s =>
      cases s with
      | false => exact ⟨rfl, rfl, .inl (by simp [Dbl.div, not_lt.2 hn.le])⟩
      | true => exfalso; have e : (Dbl.fin 1).mul (.inf true) = .inf true := by decide +kernel
                rw [e] at h; simp [Dbl.le] at h; 
  · rintro rfl
    cases f with
    | nan => exact absurd rfl hnan
    | fin q =>
      rw [(mul_signs (hf q rfl)).2] at h
      have hlt : t < -q := by simpa [Dbl.le] using h
      have hq0 : q < 0 := by linarith
      refine ⟨by simpa [Dbl.lt] using hq0, by simpa [Dbl.le] using hq0, ?_⟩
      rw [div_fin hn]
      have e : q / n = -((-q) / n) := by rw [neg_div, neg_neg]
      rw [e, rnd_neg]
      rcases hpos (-q) (hf q rfl).neg hlt with hr | ⟨r, hr, hrd, hr'⟩
      · left; rw [hr]; rfl
      · right; exact ⟨-r, by rw [hr]; rfl, hrd.neg, by linarith⟩
    | inf s =>
      cases s with
      | true => exact ⟨rfl, rfl, .inl (by simp [Dbl.div, not_lt.2 hn.le])⟩
      | false => exfalso; have e : (Dbl.fin (-1)).mul (.inf false) = .inf true := by decide +kernel
                 rw [e] at h; simp [Dbl.le] at h

/-- The scan keeps `min` above and `max` below the margin asked for. -/
theorem extremes_spec {norm : Dbl} {g : ℚ} : ∀ (vs : List Dbl) (a b : ℚ), IsDbl a → IsDbl b → g ≤ a → b ≤ -g →
    (∀ v ∈ vs, ((Dbl.fin 0).le v = true → v.div norm = .inf false ∨ ∃ r, v.div norm = .fin r ∧ IsDbl r ∧ g ≤ r) ∧
      (v.lt (.fin 0) = true → v.div norm = .inf true ∨ ∃ r, v.div norm = .fin r ∧ IsDbl r ∧ r ≤ -g)) →
    ∃ a' b', Fp.extremes norm vs (.fin a, .fin b) = (.fin a', .fin b') ∧ IsDbl a' ∧ IsDbl b' ∧ g ≤ a' ∧ b' ≤ -g := by
  intro vs
  induction vs with
  | nil => intro a b ha hb h1 h2 _; exact ⟨a, b, rfl, ha, hb, h1, h2⟩
  | cons v vs ih =>
    intro a b ha hb h1 h2 hv
    obtain ⟨v1, v2⟩ := hv v (by simp)
    have ih' := fun a b ha hb h1 h2 => ih a b ha hb h1 h2 (fun u hu => hv u (by simp [hu]))
    rw [Fp.extremes]
    split_ifs with c1 c2
    · rw [Bool.and_eq_true] at c1
      rcases v1 c1.1 with e | ⟨r, e, r1, r2⟩
      · rw [e] at c1; simp [Dbl.lt] at c1
      · rw [e]; exact ih' r b r1 hb r2 h2
    · rw [Bool.and_eq_true] at c2
      rcases v2 c2.1 with e | ⟨r, e, r1, r2⟩
      · rw [e] at c2; simp [Dbl.lt] at c2
      · rw [e]; exact ih' a r ha r1 h1 r2
    · exact ih' a b ha hb h1 h2

theorem dblMax_isDbl : IsDbl dblMax := by decide +kernel

theorem dblMax_top {q : ℚ} (h : IsDbl q) : q ≤ dblMax := by
  by_contra hcon
  push Not at hcon
  have hlt := (isDbl_iff.1 h).2
  have hq0 : 0 < q := lt_trans (by decide +kernel) hcon
  rw [abs_of_pos hq0] at hlt
  -- the grid point above `dblMax` is `2 ^ 1024`
  obtain ⟨m, e, m1, m2, m3⟩ := (isDbl_iff.1 h).1 ▸ near_grid q
  have hm0 : 0 < m := by
    by_contra hm0
    push Not at hm0
    have : (m : ℚ) * two e ≤ 0 := mul_nonpos_of_nonpos_of_nonneg (by exact_mod_cast hm0) (two_pos _).le
    linarith
  by_cases he : e ≤ 970
  · have h1 : (m : ℚ) ≤ 2 ^ 53 := by
      have := (abs_le.1 m1).2
      exact_mod_cast this
    have h2 : q ≤ 2 ^ 53 * two 970 := by rw [m3]; exact mul_le_mul h1 (two_le he) (two_pos _).le (by positivity)
    have h3 : (2 : ℚ) ^ 53 * two 970 ≤ dblMax := by decide +kernel
    linarith
  · push Not at he
    obtain ⟨k, k1, k2⟩ := two_div_int (a := e) (b := 971) (by omega)
    rw [k2] at m3
    have hp := two_pos 971
    have hmax : dblMax = (2 ^ 53 - 1) * two 971 := by decide +kernel
    have hhuge : huge = 2 ^ 53 * two 971 := by decide +kernel
    rw [m3, hmax, ← mul_assoc] at hcon
    rw [m3, hhuge, ← mul_assoc] at hlt
    have h1 := lt_of_mul_lt_mul_right hcon hp.le
    have h2 := lt_of_mul_lt_mul_right hlt hp.le
    have h1' : (2 : ℤ) ^ 53 - 1 < m * k := by exact_mod_cast h1
    have h2' : m * k < 2 ^ 53 := by exact_mod_cast h2
    omega

/-- What a round stores. -/
theorem round_facts (c : ICfg Dbl) (hflex : c.flexible = .fin 0) (clock : Nat → Nat → Bool) (dim : ℕ) (hd : 0 < dim)
    (samples : List (Sample Dbl)) (hne : samples ≠ []) (hl : DSigns samples) (s : FState Dbl) (st st' : IState Dbl)
    (hperm : st.sub.index.Perm (List.range samples.length)) (hg : D0 st.gamma) (hr : DRound sqrt pow c clock dim samples s st st')
    (hu : Usable dim samples s) :
    (∀ p ∈ samples, DSide dim s.w s.bias p) ∧
    st.gamma.le st'.sol.margin = true ∧ st'.sol.margin.le st'.gamma = true ∧ D0 st'.sol.margin ∧ D0 st'.gamma := by
  obtain ⟨⟨n, hn, hn0⟩, halpha, hnan⟩ := hu
  obtain ⟨hfix, rfl⟩ := hr
  obtain ⟨-, hclean⟩ := imaFixed_success sqrt pow _ _ dim samples st.sub s hperm hfix
  simp only at hclean
  rw [hflex, hn] at hclean
  have hb : ∀ i (hi : i < samples.length), ∃ g0, st.gamma = .fin g0 ∧ 0 ≤ g0 ∧ IsDbl g0 ∧
      Beyond g0 n samples[i].y (Fp.decision dim s.w samples[i].x s.bias) := fun i hi => by
    obtain ⟨a, ha, -⟩ := halpha i hi
    have h := hclean i hi
    rw [ha] at h
    exact beyond hg hn0 (hl _ (List.getElem_mem hi)) (fun q hq => decision_isDbl hd _ _ _ hq) (hnan _ (List.getElem_mem hi)) h
  obtain ⟨g0, hg0, hgn, hgd⟩ : ∃ g0, st.gamma = .fin g0 ∧ 0 ≤ g0 ∧ IsDbl g0 := by
    obtain ⟨g0, h1, h2, h3, -⟩ := hb 0 (List.length_pos_iff.2 hne)
    exact ⟨g0, h1, h2, h3⟩
  have hside : ∀ i (hi : i < samples.length), Beyond g0 n samples[i].y (Fp.decision dim s.w samples[i].x s.bias) := fun i hi => by
    obtain ⟨g1, h1, -, -, h4⟩ := hb i hi
    rw [hg0, Dbl.fin.injEq] at h1
    subst h1
    exact h4
  have h0 : rnd 0 = .fin 0 := rnd_eq_zero.2 near_zero
  obtain ⟨a, b, hext, had, hbd, ha, hbb⟩ := extremes_spec (norm := s.norm) (g := g0) (Fp.imaValues c.flexible dim samples s) dblMax (-dblMax)
    dblMax_isDbl dblMax_isDbl.neg (dblMax_top hgd) (by linarith [dblMax_top hgd]) (by
      intro v hv
      obtain ⟨i, hi, rfl⟩ := List.mem_iff_getElem.1 hv
      simp only [Fp.imaValues, List.length_mapIdx] at hi
      simp only [Fp.imaValues, List.getElem_mapIdx]
      obtain ⟨al, hal, hald⟩ := halpha i hi
      have hy := hl _ (List.getElem_mem hi)
      have e1 : (samples[i].y.mul (s.alphas.getD i (.fin 0))).mul c.flexible = .fin 0 := by
        rw [hal, hflex]
        rcases hy with hy | hy <;> rw [hy]
        · rw [(mul_signs hald).1]; simp only [Dbl.mul, mul_zero, h0]
        · rw [(mul_signs hald).2]; simp only [Dbl.mul, mul_zero, h0]
      have e2 : (Fp.decision dim s.w samples[i].x s.bias).add (.fin 0) = Fp.decision dim s.w samples[i].x s.bias := by
        have hfd : ∀ q, Fp.decision dim s.w samples[i].x s.bias = .fin q → IsDbl q := fun q hq => decision_isDbl hd _ _ _ hq
        generalize Fp.decision dim s.w samples[i].x s.bias = f at hfd
        cases f with
        | fin q => simp only [Dbl.add, add_zero]; exact hfd q rfl
        | inf t => rfl
        | nan => rfl
      rw [e1, e2, hn]
      obtain ⟨s1, s2⟩ := hside i hi
      rcases hy with hy | hy
      · obtain ⟨t1, t2, t3⟩ := s1 hy
        exact ⟨fun _ => t3, fun h => by rw [t2] at h; simp at h⟩
      · obtain ⟨t1, t2, t3⟩ := s2 hy
        exact ⟨fun h => by rw [t2] at h; simp at h, fun _ => t3⟩)
  have ha0 : 0 ≤ a := hgn.trans ha
  have hb0 : b ≤ 0 := by linarith
  -- the reported margin
  have hM : (Fp.imaRound sqrt c dim samples s st).sol.margin = (rnd (a - b)).div (.fin 2) := by
    simp only [Fp.imaRound, hext, Dbl.abs, Dbl.add]
    rw [abs_of_nonneg ha0, abs_of_nonpos hb0]
    congr 2; ring
  have hG : (((Dbl.fin a).sub (.fin b)).div (.fin 2)) = (rnd (a - b)).div (.fin 2) := by
    simp only [Dbl.sub, Dbl.neg, Dbl.add]; rw [sub_eq_add_neg]
  have hMD : D0 ((rnd (a - b)).div (.fin 2)) ∧ (Dbl.fin g0).le ((rnd (a - b)).div (.fin 2)) = true := by
    rcases rnd_D0 (q := a - b) (by linarith) with ⟨t, ht, htd, ht0⟩ | ht
    · rw [ht, div_fin (by norm_num)]
      obtain ⟨ht', htlt⟩ := rnd_fin_inv ht
      refine ⟨rnd_D0 (by linarith), le_rnd hgd hgn ?_⟩
      have h2g : near (2 * g0) = 2 * g0 := by
        obtain ⟨m, e, m1, m2, m3⟩ := (isDbl_iff.1 hgd).1 ▸ near_grid g0
        refine near_of_grid ⟨m, e + 1, m1, by omega, ?_⟩
        rw [two_add, m3]
        have : two 1 = 2 := by rw [two_eq]; norm_num
        rw [this]; ring
      have := near_mono (show 2 * g0 ≤ a - b by linarith)
      rw [h2g, ← ht'] at this
      linarith
    · rw [ht]
      have : (Dbl.inf false).div (.fin 2) = .inf false := by simp [Dbl.div]
      rw [this]
      exact ⟨.inr rfl, rfl⟩
  have hinc : D0 (Fp.imaRound sqrt c dim samples s st).gamma ∧
      ((rnd (a - b)).div (.fin 2)).le (Fp.imaRound sqrt c dim samples s st).gamma = true := by
    have e : (Fp.imaRound sqrt c dim samples s st).gamma = if ((rnd (a - b)).div (.fin 2)).lt (((Dbl.fin 1).add c.alphaAprox).mul
        (if (Dbl.fin b).abs.lt (Dbl.fin a).abs then (Dbl.fin b).abs else (Dbl.fin a).abs)) then (((Dbl.fin 1).add c.alphaAprox).mul
        (if (Dbl.fin b).abs.lt (Dbl.fin a).abs then (Dbl.fin b).abs else (Dbl.fin a).abs)) else (rnd (a - b)).div (.fin 2) := by
      simp only [Fp.imaRound, hext, hG]
    rw [e]
    generalize hX : ((Dbl.fin 1).add c.alphaAprox).mul
        (if (Dbl.fin b).abs.lt (Dbl.fin a).abs then (Dbl.fin b).abs else (Dbl.fin a).abs) = X
    split_ifs with h1
    swap
    · exact ⟨hMD.1, hMD.1.refl⟩
    · have hXd : ∀ q, X = .fin q → IsDbl q := by
        intro q hq
        rw [hq] at hX
        revert hX
        generalize (if (Dbl.fin b).abs.lt (Dbl.fin a).abs then (Dbl.fin b).abs else (Dbl.fin a).abs) = Y
        generalize (Dbl.fin 1).add c.alphaAprox = Z
        intro hX
        cases Z <;> cases Y <;> simp only [Dbl.mul] at hX
        · exact rnd_isDbl hX
        all_goals (try split_ifs at hX) <;> simp at hX
      rcases hMD.1 with ⟨m, hm, -, hm0⟩ | hm <;> rw [hm] at h1 ⊢
      · cases X with
        | nan => simp [Dbl.lt] at h1
        | inf t => cases t with
          | true => simp [Dbl.lt] at h1
          | false => exact ⟨.inr rfl, rfl⟩
        | fin q =>
          have hq : m < q := by simpa [Dbl.lt] using h1
          exact ⟨.inl ⟨q, rfl, hXd q rfl, hm0.trans hq.le⟩, by simpa [Dbl.le] using hq.le⟩
      · cases X with
        | nan => simp [Dbl.lt] at h1
        | inf t => cases t <;> simp [Dbl.lt] at h1
        | fin q => simp [Dbl.lt] at h1
  refine ⟨?_, by rw [hM, hg0]; exact hMD.2, by rw [hM]; exact hinc.2, by rw [hM]; exact hMD.1, hinc.1⟩
  intro p hp
  obtain ⟨i, hi, rfl⟩ := List.mem_iff_getElem.1 hp
  obtain ⟨s1, s2⟩ := hside i hi
  exact ⟨fun h => (s1 h).1, fun h => (s2 h).1⟩

theorem dle_trans {a b c : Dbl} (h1 : a.le b = true) (h2 : b.le c = true) : a.le c = true := by
  cases a with
  | nan => simp [Dbl.le] at h1
  | fin x => cases b with
    | nan => simp [Dbl.le] at h1
    | fin y => cases c with
      | nan => simp [Dbl.le] at h2
      | fin z => simp only [Dbl.le, decide_eq_true_eq] at *; exact h1.trans h2
      | inf t => cases t <;> simp_all [Dbl.le]
    | inf t => cases c <;> cases t <;> simp_all [Dbl.le]
  | inf s => cases b <;> cases s <;> cases c <;> simp_all [Dbl.le]

/-- Along the rounds: the samples are on their sides, the margins do not decrease and none is below the one asked for first. -/
theorem rounds_facts (c : ICfg Dbl) (hflex : c.flexible = .fin 0) (clock : Nat → Nat → Bool) (dim : ℕ) (hd : 0 < dim)
    (samples : List (Sample Dbl)) (hne : samples ≠ []) (hl : DSigns samples) :
    ∀ (run : List (FState Dbl × IState Dbl)) (st : IState Dbl), st.sub.index.Perm (List.range samples.length) → D0 st.gamma →
    DRounds sqrt pow c clock dim samples st run → (∀ r ∈ run, Usable dim samples r.1) →
    (∀ r ∈ run, ∀ p ∈ samples, DSide dim r.2.sol.w r.2.sol.bias p) ∧ (∀ r ∈ run, st.gamma.le r.2.sol.margin = true) ∧
      (run.map (·.2.sol.margin)).Pairwise (fun a b => a.le b = true) := by
  intro run
  induction run with
  | nil => intro st _ _ _ _; simp
  | cons r run ih =>
    intro st hperm hg hr hu
    obtain ⟨h1, h2, h3, h4, h5⟩ := round_facts sqrt pow c hflex clock dim hd samples hne hl r.1 st r.2 hperm hg hr.1 (hu r (by simp))
    have hperm' : r.2.sub.index.Perm (List.range samples.length) := by
      have := (imaFixed_success sqrt pow _ _ dim samples st.sub r.1 hperm hr.1.1).1
      rw [hr.1.2]; exact this
    have hsol : r.2.sol.w = r.1.w ∧ r.2.sol.bias = r.1.bias := by rw [hr.1.2]; exact ⟨rfl, rfl⟩
    obtain ⟨i1, i2, i3⟩ := ih r.2 hperm' h5 hr.2 (fun q hq => hu q (by simp [hq]))
    refine ⟨?_, ?_, ?_⟩
    · intro q hq
      rcases List.mem_cons.1 hq with rfl | hq
      · rw [hsol.1, hsol.2]; exact h1
      · exact i1 q hq
    · intro q hq
      rcases List.mem_cons.1 hq with rfl | hq
      · exact h2
      · exact dle_trans h2 (dle_trans h3 (i2 q hq))
    · rw [List.map_cons, List.pairwise_cons]
      refine ⟨?_, i3⟩
      intro m hm
      obtain ⟨q, hq, rfl⟩ := List.mem_map.1 hm
      exact dle_trans h3 (i2 q hq)

/-- The rounds of the loop. -/
theorem imaLoop_rounds (c : ICfg Dbl) (clock : Nat → Nat → Bool) (late : Nat → Bool) (dim : ℕ) (samples : List (Sample Dbl)) :
    ∀ (n : ℕ) (st : IState Dbl), ∃ run, DRounds sqrt pow c clock dim samples st run ∧
      (Fp.imaLoop sqrt pow c clock late dim samples n st).it = st.it + run.length ∧
      (Fp.imaLoop sqrt pow c clock late dim samples n st).sol = ((run.map (·.2.sol)).getLast?).getD st.sol := by
  intro n
  induction n with
  | zero =>
    intro st
    rw [Fp.imaLoop]
    split
    · exact ⟨[], trivial, rfl, rfl⟩
    · rename_i s hs
      refine ⟨[(s, Fp.imaRound sqrt c dim samples s st)], ⟨⟨hs, rfl⟩, trivial⟩, ?_⟩
      simp [Fp.imaRound]
  | succ n ih =>
    intro st
    rw [Fp.imaLoop]
    split
    · exact ⟨[], trivial, rfl, rfl⟩
    · rename_i s hs
      dsimp only
      split_ifs with h1
      · refine ⟨[(s, Fp.imaRound sqrt c dim samples s st)], ⟨⟨hs, rfl⟩, trivial⟩, ?_⟩
        simp [Fp.imaRound]
      · obtain ⟨run, r1, r2, r3⟩ := ih (Fp.imaRound sqrt c dim samples s st)
        refine ⟨(s, Fp.imaRound sqrt c dim samples s st) :: run, ⟨⟨hs, rfl⟩, r1⟩, ?_, ?_⟩
        · rw [r2]; simp [Fp.imaRound]; omega
        · rw [r3, List.map_cons, List.getLast?_cons]; rfl

/-- **C243 (margins)** (partial: see the refutations)  Along every sequence of rounds of `IMAp::train` without flexibility whose
numbers stay usable, every stored solution has each training sample strictly on the side of its label, in `double` arithmetic, and the
reported margins never decrease. -/
theorem C243_margins_partial (c : ICfg Dbl) (hflex : c.flexible = .fin 0) (clock : Nat → Nat → Bool) (dim : ℕ) (hd : 0 < dim)
    (samples : List (Sample Dbl)) (hne : samples ≠ []) (hl : DSigns samples) (index : List ℕ)
    (hperm : index.Perm (List.range samples.length)) (margin : Dbl) (run : List (FState Dbl × IState Dbl))
    (hr : DRounds sqrt pow c clock dim samples (Fp.imaStart dim samples index margin) run) (hu : ∀ r ∈ run, Usable dim samples r.1) :
    (∀ r ∈ run, ∀ p ∈ samples, DSide dim r.2.sol.w r.2.sol.bias p) ∧ (∀ r ∈ run, (Dbl.fin 0).le r.2.sol.margin = true) ∧
      (run.map (·.2.sol.margin)).Pairwise (fun a b => a.le b = true) :=
  rounds_facts sqrt pow c hflex clock dim hd samples hne hl run _ hperm zero_D0 hr hu

theorem rounds_sol (c : ICfg Dbl) (clock : Nat → Nat → Bool) (dim : ℕ) (samples : List (Sample Dbl)) :
    ∀ (run : List (FState Dbl × IState Dbl)) (st : IState Dbl), DRounds sqrt pow c clock dim samples st run → ∀ r ∈ run,
      r.2.sol.w = r.1.w ∧ r.2.sol.bias = r.1.bias ∧ r.2.sol.norm = r.1.norm := by
  intro run
  induction run with
  | nil => intro st _ r hr; simp at hr
  | cons q run ih =>
    intro st h r hr
    rcases List.mem_cons.1 hr with rfl | hr
    · rw [h.1.2]; exact ⟨rfl, rfl, rfl⟩
    · exact ih q.2 h.2 r hr

/-- **C243 (provenance)**  `IMAp::train` returns true exactly when a round succeeded, the number of iterations is the number of rounds, and
the weights, bias and norm are those the last run of the fixed-margin perceptron ended with. -/
theorem C243_reports_last (c : ICfg Dbl) (clock : Nat → Nat → Bool) (late : Nat → Bool) (dim : ℕ) (samples : List (Sample Dbl))
    (hne : samples ≠ []) (index : List ℕ) (hperm : index.Perm (List.range samples.length)) (margin : Dbl) (ok : Bool) (st : IState Dbl)
    (h : Fp.imaTrain sqrt pow c clock late dim samples index margin = .ok (ok, st)) :
    ∃ run, DRounds sqrt pow c clock dim samples (Fp.imaStart dim samples index margin) run ∧ st.it = run.length ∧
      (ok = true ↔ run ≠ []) ∧ ∀ r, run.getLast? = some r →
        st.sol.w = r.1.w ∧ st.sol.bias = r.1.bias ∧ st.sol.norm = r.1.norm ∧ st.sol.margin = r.2.sol.margin := by
  have hi : index ≠ [] := by
    rintro rfl
    have := hperm.length_eq
    simp only [List.length_nil, List.length_range] at this
    exact hne (List.length_eq_zero_iff.1 this.symm)
  unfold Fp.imaTrain at h
  simp only [if_neg hi] at h
  split_ifs at h with h1
  obtain ⟨run, r1, r2, r3⟩ := imaLoop_rounds sqrt pow c clock late dim samples c.maxIt (Fp.imaStart dim samples index margin)
  simp only [Except.ok.injEq, Prod.mk.injEq] at h
  obtain ⟨hok, hst⟩ := h
  rw [hst] at r2 r3 hok
  have r2' : st.it = run.length := by rw [r2]; simp [Fp.imaStart]
  refine ⟨run, r1, r2', ?_, ?_⟩
  · rw [← hok, r2']; simp [List.length_eq_zero_iff]
  · intro r hr
    have hsol : st.sol = r.2.sol := by rw [r3, List.getLast?_map, hr]; rfl
    obtain ⟨h1, h2, h3⟩ := rounds_sol sqrt pow c clock dim samples run _ r1 r (List.mem_of_getLast? hr)
    rw [hsol]
    exact ⟨h1, h2, h3, rfl⟩

end

/-- Every `IMAp` training with the 1-norm that stops after a first round needs no library function. -/
theorem imaFixed_one (sqrt : Dbl → Dbl) (pow : Dbl → Dbl → Dbl) (c : FCfg Dbl) (hq : c.q = .one) :
    Fp.imaFixed sqrt pow c = Fp.imaFixed id (fun a _ => a) c := by
  have hu : ∀ dim p i idx e s, Fp.fmUpdate sqrt pow c dim p i idx e s = Fp.fmUpdate id (fun a _ => a) c dim p i idx e s := by
    intro dim p i idx e s
    simp only [Fp.fmUpdate, Fp.fmWeights, hq]
  have hs : ∀ dim samples l s e, Fp.fmScan sqrt pow c dim samples l s e = Fp.fmScan id (fun a _ => a) c dim samples l s e := by
    intro dim samples l
    induction l with
    | nil => intro s e; rfl
    | cons i l ih => intro s e; simp only [Fp.fmScan, ih, hu]
  have hp : ∀ dim samples, Fp.fmPass sqrt pow c dim samples = Fp.fmPass id (fun a _ => a) c dim samples := by
    intro dim samples
    funext s
    simp only [Fp.fmPass, hs]
  funext clock dim samples s0
  simp only [Fp.imaFixed, hp]

/-- A training that stops after its first round. -/
def imaFirst (sqrt : Dbl → Dbl) (pow : Dbl → Dbl → Dbl) (samples : List (Sample Dbl)) (index : List ℕ) : Option (Bool × ISol Dbl) :=
  (Fp.imaTrain sqrt pow ⟨.fin 0, .fin 0, .fin (1 / 1024), .one, 20, 20, .fin 0⟩ (fun _ _ => true) (fun _ => true) 1 samples index
    (.fin 0)).toOption.map (fun r => (r.1, r.2.sol))

theorem imaFirst_eq (sqrt : Dbl → Dbl) (pow : Dbl → Dbl → Dbl) : imaFirst sqrt pow = imaFirst id (fun a _ => a) := by
  have hL : ∀ (c : ICfg Dbl), c.q = .one → ∀ clock dim samples n (st : IState Dbl), st.it = 0 →
      Fp.imaLoop sqrt pow c clock (fun _ => true) dim samples n st = Fp.imaLoop id (fun a _ => a) c clock (fun _ => true) dim samples n st := by
    intro c hq clock dim samples n st hit
    have hR : ∀ s, Fp.imaRound sqrt c dim samples s st = Fp.imaRound id c dim samples s st := by
      intro s; simp [Fp.imaRound, hit]
    rw [Fp.imaLoop, Fp.imaLoop, imaFixed_one sqrt pow _ (by exact hq)]
    simp only [hR, or_true, if_true]
  funext samples index
  simp only [imaFirst, Fp.imaTrain]
  rw [hL _ rfl _ _ _ _ _ rfl]

/-- **C243 (refuted)** On the samples 1 (label 1) and -5 (label -1) with the 1-norm, training returns true with the weight 1, the bias 1 and the
reported margin 3, but the first sample is at distance 2, and `evaluate` gives it the wrong label. -/
theorem C243_reported_margin_refuted (sqrt : Dbl → Dbl) (pow : Dbl → Dbl → Dbl) :
    imaFirst sqrt pow [⟨[.fin 1], .fin 1⟩, ⟨[.fin (-5)], .fin (-1)⟩] [0, 1] = some (true, ⟨[.fin 1], .fin 1, .fin 1, .fin 3⟩) ∧
    Fp.decision 1 [.fin 1] [.fin 1] (.fin 1) = .fin 2 ∧ Fp.imaEvaluate ⟨[.fin 1], .fin 1, .fin 1, .fin 3⟩ [.fin 1] = -1 := by
  refine ⟨?_, by decide +kernel, by decide +kernel⟩
  rw [imaFirst_eq]
  decide +kernel

/-- **C243 (refuted)** With samples of one class the reported margin is half of `DBL_MAX`. -/
theorem C243_single_class_refuted (sqrt : Dbl → Dbl) (pow : Dbl → Dbl → Dbl) :
    (imaFirst sqrt pow [⟨[.fin 1], .fin 1⟩] [0]).map (fun r => (r.1, r.2.w, r.2.margin)) = some (true, [.fin 1], .fin (dblMax / 2)) := by
  rw [imaFirst_eq]
  decide +kernel

/-- Three samples. -/
def imaThree : List (Sample Dbl) :=
  [⟨[.fin 2, .fin 1], .fin 1⟩, ⟨[.fin (-1), .fin 1], .fin (-1)⟩, ⟨[.fin 1, .fin (-3)], .fin (-1)⟩]

/-- Settings with the 1-norm. -/
def imaCfg : ICfg Dbl := ⟨.fin 0, .fin 0, .fin (1 / 1024), .one, 40, 60, .fin 0⟩

/-- The state after a round from `st`. -/
def imaNext (st : IState Dbl) : Bool × FState Dbl × IState Dbl :=
  let r := Fp.imaFixed id (fun a _ => a) ⟨st.rate, st.gamma, .fin 0, .fin (1 / 1024), .one, 40, 60⟩ (fun _ => true) 2 imaThree st.sub
  (r.1, r.2, Fp.imaRound id imaCfg 2 imaThree r.2 st)

theorem usable_of {dim : ℕ} {samples : List (Sample Dbl)} {s : FState Dbl} (h1 : ∃ n, s.norm = .fin n ∧ 0 < n)
    (h2 : s.alphas.length = samples.length ∧ ∀ v ∈ s.alphas, ∃ a, v = .fin a ∧ IsDbl a)
    (h3 : ∀ p ∈ samples, Fp.decision dim s.w p.x s.bias ≠ .nan) : Usable dim samples s :=
  ⟨h1, fun i hi => by
    rw [Perc.getD_lt _ _ _ (h2.1 ▸ hi)]
    exact h2.2 _ (List.getElem_mem _), h3⟩

/-- Whether a `double` is a positive number, and whether it is a number. -/
def isPos : Dbl → Bool
  | .fin n => decide (0 < n)
  | _ => false

/-- Whether it is a number that is a `double`. -/
def isNum : Dbl → Bool
  | .fin n => decide (IsDbl n)
  | _ => false

theorem isPos_spec {v : Dbl} (h : isPos v = true) : ∃ n, v = .fin n ∧ 0 < n := by
  cases v with
  | fin n => exact ⟨n, rfl, by simpa [isPos] using h⟩
  | inf t => simp [isPos] at h
  | nan => simp [isPos] at h

theorem isNum_spec {v : Dbl} (h : isNum v = true) : ∃ n, v = .fin n ∧ IsDbl n := by
  cases v with
  | fin n => exact ⟨n, rfl, by simpa [isNum] using h⟩
  | inf t => simp [isNum] at h
  | nan => simp [isNum] at h

theorem imaNext_round (st : IState Dbl) (h : (imaNext st).1 = true) :
    DRound id (fun a _ => a) imaCfg (fun _ _ => true) 2 imaThree (imaNext st).2.1 st (imaNext st).2.2 :=
  ⟨Prod.ext h rfl, rfl⟩

/-- The first and the second round of a training. -/
def imaRound1 : Bool × FState Dbl × IState Dbl := imaNext (Fp.imaStart 2 imaThree [0, 1, 2] (.fin 0))
def imaRound2 : Bool × FState Dbl × IState Dbl := imaNext imaRound1.2.2

/-- The hypotheses are met by a training with two rounds. -/
example : DSigns imaThree ∧ DRounds id (fun a _ => a) imaCfg (fun _ _ => true) 2 imaThree (Fp.imaStart 2 imaThree [0, 1, 2] (.fin 0))
      [imaRound1.2, imaRound2.2] ∧ ∀ r ∈ [imaRound1.2, imaRound2.2], Usable 2 imaThree r.1 := by
  refine ⟨by unfold DSigns; decide +kernel, ⟨imaNext_round _ (show imaRound1.1 = true by decide +kernel),
    imaNext_round _ (show imaRound2.1 = true by decide +kernel), trivial⟩, ?_⟩
  intro r hr
  refine usable_of (isPos_spec ?_) ⟨?_, fun v hv => isNum_spec ?_⟩ ?_
  · revert r; decide +kernel
  · revert r; decide +kernel
  · revert r v; decide +kernel
  · revert r; decide +kernel

/-- The second margin is the larger one. -/
example : (imaRound1.2.2.sol.margin, imaRound2.2.2.sol.margin) =
    (.fin (2026619832316723 / 2251799813685248), .fin (4503599627370495 / 4503599627370496)) := by decide +kernel

end MLTK.Props
