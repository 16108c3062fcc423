import Verif.Model.DoubleImaDual
import Verif.Props.DoubleIma
import Verif.Props.DoubleFixedDual
/-!
# C245: the dual incremental margin algorithm in `double` arithmetic
-/
namespace MLTK.Spec
open MLTK.Fp
open MLTK.Perc (Sample GState)
open MLTK.IMA (DCfg DIState)

/-- A round of `IMADual::train`: a successful run of the dual fixed-margin perceptron with the margin asked for, ending in `s`, after which
the margin is computed and the next one to ask for is chosen. -/
def DDRound (sqrt : Dbl → Dbl) (c : DCfg Dbl) (clock : Nat → Nat → Bool) (k : List Dbl → List Dbl → Dbl) (dim : Nat)
    (samples : List (Sample Dbl)) (s : GState Dbl) (st st' : DIState Dbl) : Prop :=
  Fp.gTrainD sqrt ⟨c.rate, st.gamma, .fin 0, c.eps, .two, c.maxIt, c.maxUp⟩ (clock st.it) k dim samples st.sub = .ok (true, s) ∧
    st' = { Fp.dualRoundD c samples.length s st with old := (Fp.dualRoundD c samples.length s st).rmargin }

/-- A sequence of rounds from `st`. -/
def DDRounds (sqrt : Dbl → Dbl) (c : DCfg Dbl) (clock : Nat → Nat → Bool) (k : List Dbl → List Dbl → Dbl) (dim : Nat)
    (samples : List (Sample Dbl)) : DIState Dbl → List (GState Dbl × DIState Dbl) → Prop
  | _, [] => True
  | st, r :: rest => DDRound sqrt c clock k dim samples r.1 st r.2 ∧ DDRounds sqrt c clock k dim samples r.2 rest

/-- The numbers of a successful run are usable: the norm is a positive number and the kept values are numbers. -/
def UsableDual (samples : List (Sample Dbl)) (s : GState Dbl) : Prop :=
  (∃ n, s.norm = .fin n ∧ 0 < n) ∧ s.func.length = samples.length ∧ ∀ v ∈ s.func, ∃ q, v = .fin q ∧ IsDbl q

/-- The kept value `v` of a sample with label `y` is strictly on its side, and divided by the norm at least `m` away from zero. -/
def OutBy (m norm y v : Dbl) : Prop :=
  (y = .fin 1 → (Dbl.fin 0).lt v = true ∧ m.le (v.div norm) = true) ∧ (y = .fin (-1) → v.lt (.fin 0) = true ∧ (v.div norm).le m.neg = true)

end MLTK.Spec

namespace MLTK.Props
open MLTK.Spec MLTK.Fp
open MLTK.Perc (Sample GState FCfg)
open MLTK.IMA (DCfg DIState DISol)

section
attribute [local irreducible] Fp.rnd Fp.near Fp.huge Fp.two

variable (sqrt : Dbl → Dbl)

/-- A difference that is not at most zero. -/
theorem sub_not_le {v t : ℚ} (h : ((Dbl.fin v).sub (.fin t)).le (.fin 0) = false) : t < v := by
  by_contra hcon
  push Not at hcon
  have e : (Dbl.fin v).sub (.fin t) = (rnd (t - v)).neg := by
    rw [← rnd_neg]
    simp only [Dbl.sub, Dbl.neg, Dbl.add]
    congr 1; ring
  rw [e] at h
  rcases rnd_D0 (q := t - v) (by linarith) with ⟨x, hx, -, hx0⟩ | hx <;> rw [hx] at h
  · simp [Dbl.neg, Dbl.le] at h; linarith
  · simp [Dbl.neg, Dbl.le] at h

/-- The mistake test of the dual trainer, in the form of the primal one. -/
theorem dual_clean {g : Dbl} (hg : D0 g) {n : ℚ} (hn : 0 < n) {v : ℚ}
    (h : ((Dbl.fin v).sub (g.mul (.fin n))).le (.fin 0) = false) :
    (Dbl.fin v).le ((g.mul (.fin n)).sub ((Dbl.fin 0).mul (.fin 0))) = false := by
  have h0 : rnd 0 = .fin 0 := rnd_eq_zero.2 near_zero
  have e0 : (Dbl.fin 0).mul (.fin 0) = .fin 0 := by simp only [Dbl.mul, mul_zero, h0]
  have hw : D0 (g.mul (.fin n)) := by
    rcases hg with ⟨g0, rfl, -, hg0⟩ | rfl
    · exact rnd_D0 (mul_nonneg hg0 hn.le)
    · right; simp [Dbl.mul, hn.ne', not_lt.2 hn.le]
  rw [e0]
  rcases hw with ⟨t, ht, htd, -⟩ | ht <;> rw [ht] at h ⊢
  · have := sub_not_le h
    have hts : (Dbl.fin t).sub (.fin 0) = .fin t := by
      simp only [Dbl.sub, Dbl.neg, Dbl.add, neg_zero, add_zero]; exact htd
    rw [hts]
    simpa [Dbl.le] using this
  · simp [Dbl.sub, Dbl.neg, Dbl.add, Dbl.le] at h

/-- The scan also bounds every value. -/
theorem extremes_bound {norm : Dbl} {g : ℚ} : ∀ (vs : List Dbl) (a b : ℚ), IsDbl a → IsDbl b → g ≤ a → b ≤ -g →
    (∀ v ∈ vs, ((Dbl.fin 0).le v = true → v.div norm = .inf false ∨ ∃ r, v.div norm = .fin r ∧ IsDbl r ∧ g ≤ r) ∧
      (v.lt (.fin 0) = true → v.div norm = .inf true ∨ ∃ r, v.div norm = .fin r ∧ IsDbl r ∧ r ≤ -g)) →
    ∃ a' b', Fp.extremes norm vs (.fin a, .fin b) = (.fin a', .fin b') ∧ IsDbl a' ∧ IsDbl b' ∧ g ≤ a' ∧ b' ≤ -g ∧ a' ≤ a ∧ b ≤ b' ∧
      ∀ v ∈ vs, ((Dbl.fin 0).le v = true → (Dbl.fin a').le (v.div norm) = true) ∧
        (v.lt (.fin 0) = true → (v.div norm).le (.fin b') = true) := by
  intro vs
  induction vs with
  | nil => intro a b ha hb h1 h2 _; exact ⟨a, b, rfl, ha, hb, h1, h2, le_refl _, le_refl _, by simp⟩
  | cons v vs ih =>
    intro a b ha hb h1 h2 hv
    obtain ⟨v1, v2⟩ := hv v (by simp)
    have ih' := fun a b ha hb h1 h2 => ih a b ha hb h1 h2 (fun u hu => hv u (by simp [hu]))
    have hexcl : (Dbl.fin 0).le v = true → v.lt (.fin 0) = true → False := by
      intro p q
      cases v with
      | nan => simp [Dbl.le] at p
      | fin x => simp only [Dbl.le, Dbl.lt, decide_eq_true_eq] at p q; linarith
      | inf t => cases t <;> simp [Dbl.le, Dbl.lt] at p q
    rw [Fp.extremes]
    split_ifs with c1 c2
    · rw [Bool.and_eq_true] at c1
      rcases v1 c1.1 with e | ⟨r, e, r1, r2⟩
      · rw [e] at c1; simp [Dbl.lt] at c1
      · have hra : r < a := by have := c1.2; rw [e] at this; simpa [Dbl.lt] using this
        rw [e]
        obtain ⟨a', b', k1, k2, k3, k4, k5, k6, k7, k8⟩ := ih' r b r1 hb r2 h2
        refine ⟨a', b', k1, k2, k3, k4, k5, k6.trans hra.le, k7, ?_⟩
        intro u hu
        rcases List.mem_cons.1 hu with rfl | hu
        · exact ⟨fun _ => by rw [e]; simpa [Dbl.le] using k6, fun q => (hexcl c1.1 q).elim⟩
        · exact k8 u hu
    · rw [Bool.and_eq_true] at c2
      rcases v2 c2.1 with e | ⟨r, e, r1, r2⟩
      · rw [e] at c2; simp [Dbl.lt] at c2
      · have hrb : b < r := by have := c2.2; rw [e] at this; simpa [Dbl.lt] using this
        rw [e]
        obtain ⟨a', b', k1, k2, k3, k4, k5, k6, k7, k8⟩ := ih' a r ha r1 h1 r2
        refine ⟨a', b', k1, k2, k3, k4, k5, k6, hrb.le.trans k7, ?_⟩
        intro u hu
        rcases List.mem_cons.1 hu with rfl | hu
        · exact ⟨fun q => (hexcl q c2.1).elim, fun _ => by rw [e]; simpa [Dbl.le] using k7⟩
        · exact k8 u hu
    · obtain ⟨a', b', k1, k2, k3, k4, k5, k6, k7, k8⟩ := ih' a b ha hb h1 h2
      refine ⟨a', b', k1, k2, k3, k4, k5, k6, k7, ?_⟩
      intro u hu
      rcases List.mem_cons.1 hu with rfl | hu
      · refine ⟨fun q => ?_, fun q => ?_⟩
        · rcases v1 q with e | ⟨r, e, r1, r2⟩
          · rw [e]; rfl
          · rw [q, e] at c1
            have : a ≤ r := by simpa [Dbl.lt] using c1
            rw [e]; simpa [Dbl.le] using k6.trans this
        · rcases v2 q with e | ⟨r, e, r1, r2⟩
          · rw [e]; rfl
          · rw [q, e] at c2
            have : r ≤ b := by simpa [Dbl.lt] using c2
            rw [e]; simpa [Dbl.le] using this.trans k7
      · exact k8 u hu

/-- What a round leaves. -/
theorem dual_round_facts (c : DCfg Dbl) (clock : Nat → Nat → Bool) (k : List Dbl → List Dbl → Dbl) (dim : ℕ)
    (samples : List (Sample Dbl)) (hne : samples ≠ []) (hl : DSigns samples) (s : GState Dbl) (st st' : DIState Dbl)
    (hperm : st.sub.index.Perm (List.range samples.length)) (hg : D0 st.gamma) (hr : DDRound sqrt c clock k dim samples s st st')
    (hu : UsableDual samples s) :
    (∀ i (hi : i < samples.length), OutBy st'.rmargin s.norm samples[i].y (s.func.getD i (.fin 0))) ∧
    st.gamma.le st'.rmargin = true ∧ st'.rmargin.le st'.gamma = true ∧ D0 st'.gamma := by
  obtain ⟨⟨n, hn, hn0⟩, hlen, hfunc⟩ := hu
  obtain ⟨hfix, rfl⟩ := hr
  obtain ⟨-, -, hclean⟩ := g_success sqrt _ _ k dim samples st.sub s (fun _ => True) (fun _ _ _ _ _ _ => trivial) (fun _ _ _ => trivial)
    trivial hperm hfix
  simp only at hclean
  rw [hn] at hclean
  have hget : ∀ i (hi : i < samples.length), ∃ q, s.func.getD i (.fin 0) = .fin q ∧ IsDbl q := fun i hi => by
    rw [Perc.getD_lt _ _ _ (by omega)]
    exact hfunc _ (List.getElem_mem _)
  have hb : ∀ i (hi : i < samples.length), ∃ g0, st.gamma = .fin g0 ∧ 0 ≤ g0 ∧ IsDbl g0 ∧
      Beyond g0 n samples[i].y (s.func.getD i (.fin 0)) := fun i hi => by
    obtain ⟨q, hq, hqd⟩ := hget i hi
    have h := hclean i hi
    rw [hq] at h ⊢
    refine beyond (a := 0) hg hn0 (hl _ (List.getElem_mem hi)) (fun q' hq' => by cases hq'; exact hqd) (by simp) ?_
    rcases hl _ (List.getElem_mem hi) with hy | hy <;> rw [hy] at h ⊢
    · rw [(mul_signs hqd).1] at h ⊢; exact dual_clean hg hn0 h
    · rw [(mul_signs hqd).2] at h ⊢; exact dual_clean hg hn0 h
  obtain ⟨g0, hg0, hgn, hgd⟩ : ∃ g0, st.gamma = .fin g0 ∧ 0 ≤ g0 ∧ IsDbl g0 := by
    obtain ⟨g0, h1, h2, h3, -⟩ := hb 0 (List.length_pos_iff.2 hne)
    exact ⟨g0, h1, h2, h3⟩
  have hside : ∀ i (hi : i < samples.length), Beyond g0 n samples[i].y (s.func.getD i (.fin 0)) := fun i hi => by
    obtain ⟨g1, h1, -, -, h4⟩ := hb i hi
    rw [hg0, Dbl.fin.injEq] at h1
    subst h1
    exact h4
  obtain ⟨a, b, hext, had, hbd, ha, hbb, -, -, hbnd⟩ := extremes_bound (norm := s.norm) (g := g0) s.func dblMax (-dblMax)
    dblMax_isDbl dblMax_isDbl.neg (dblMax_top hgd) (by linarith [dblMax_top hgd]) (by
      intro v hv
      obtain ⟨i, hi, rfl⟩ := List.mem_iff_getElem.1 hv
      obtain ⟨s1, s2⟩ := hside i (by omega)
      rw [Perc.getD_lt _ _ _ hi] at s1 s2
      rw [hn]
      rcases hl _ (List.getElem_mem (by omega : i < samples.length)) with hy | hy
      · obtain ⟨t1, t2, t3⟩ := s1 hy
        exact ⟨fun _ => t3, fun h => by rw [t2] at h; simp at h⟩
      · obtain ⟨t1, t2, t3⟩ := s2 hy
        exact ⟨fun h => by rw [t2] at h; simp at h, fun _ => t3⟩)
  have ha0 : 0 ≤ a := hgn.trans ha
  have hb0 : b ≤ 0 := by linarith
  have htake : s.func.take samples.length = s.func := List.take_of_length_le hlen.le
  -- the margin
  obtain ⟨m, hm, hmd, hma, hmb, hmg⟩ : ∃ m, (if (Dbl.fin b).abs.lt (Dbl.fin a).abs then (Dbl.fin b).abs else (Dbl.fin a).abs) = .fin m ∧
      IsDbl m ∧ m ≤ a ∧ m ≤ -b ∧ g0 ≤ m := by
    have e1 : (Dbl.fin a).abs = .fin a := by simp only [Dbl.abs, abs_of_nonneg ha0]
    have e2 : (Dbl.fin b).abs = .fin (-b) := by simp only [Dbl.abs, abs_of_nonpos hb0]
    rw [e1, e2]
    by_cases h1 : -b < a
    · exact ⟨-b, if_pos (by simpa [Dbl.lt] using h1), hbd.neg, h1.le, le_refl _, by linarith⟩
    · exact ⟨a, if_neg (by simpa [Dbl.lt] using h1), had, le_refl _, not_lt.1 h1, ha⟩
  have hM : (Fp.dualRoundD c samples.length s st).rmargin = .fin m := by
    simp only [Fp.dualRoundD, htake, hext, hm]
  have hm0 : 0 ≤ m := hgn.trans hmg
  have hG : (((Dbl.fin a).sub (.fin b)).div (.fin 2)) = (rnd (a - b)).div (.fin 2) := by
    simp only [Dbl.sub, Dbl.neg, Dbl.add]; rw [sub_eq_add_neg]
  have hMD : D0 ((rnd (a - b)).div (.fin 2)) ∧ (Dbl.fin m).le ((rnd (a - b)).div (.fin 2)) = true := by
    rcases rnd_D0 (q := a - b) (by linarith) with ⟨t, ht, htd, ht0⟩ | ht
    · rw [ht, div_fin (by norm_num)]
      obtain ⟨ht', htlt⟩ := rnd_fin_inv ht
      refine ⟨rnd_D0 (by linarith), le_rnd hmd hm0 ?_⟩
      have h2g : near (2 * m) = 2 * m := by
        obtain ⟨m', e, m1, m2, m3⟩ := (isDbl_iff.1 hmd).1 ▸ near_grid m
        refine near_of_grid ⟨m', e + 1, m1, by omega, ?_⟩
        rw [two_add, m3]
        have : two 1 = 2 := by rw [two_eq]; norm_num
        rw [this]; ring
      have := near_mono (show 2 * m ≤ a - b by linarith)
      rw [h2g, ← ht'] at this
      linarith
    · rw [ht]
      have : (Dbl.inf false).div (.fin 2) = .inf false := by simp [Dbl.div]
      rw [this]
      exact ⟨.inr rfl, rfl⟩
  have hinc : D0 (Fp.dualRoundD c samples.length s st).gamma ∧
      (Dbl.fin m).le (Fp.dualRoundD c samples.length s st).gamma = true := by
    have e : (Fp.dualRoundD c samples.length s st).gamma = if ((rnd (a - b)).div (.fin 2)).lt (c.minInc.mul (.fin m)) then
        c.minInc.mul (.fin m) else (rnd (a - b)).div (.fin 2) := by
      simp only [Fp.dualRoundD, htake, hext, hG, hm]
    rw [e]
    generalize hX : c.minInc.mul (.fin m) = X
    split_ifs with h1
    swap
    · exact hMD
    · have hXd : ∀ q, X = .fin q → IsDbl q := by
        intro q hq
        rw [hq] at hX
        revert hX
        generalize c.minInc = Z
        intro hX
        cases Z <;> simp only [Dbl.mul] at hX
        · exact rnd_isDbl hX
        all_goals (try split_ifs at hX) <;> simp at hX
      have hle : ((rnd (a - b)).div (.fin 2)).le X = true := by
        revert h1
        generalize (rnd (a - b)).div (.fin 2) = Y
        intro h1
        cases Y with
        | nan => simp [Dbl.lt] at h1
        | fin y => cases X with
          | nan => simp [Dbl.lt] at h1
          | fin x => simp only [Dbl.lt, Dbl.le, decide_eq_true_eq] at *; exact h1.le
          | inf t => cases t <;> simp_all [Dbl.lt, Dbl.le]
        | inf u => cases X <;> cases u <;> simp_all [Dbl.lt, Dbl.le]
      have hmX := dle_trans hMD.2 hle
      refine ⟨?_, hmX⟩
      cases X with
      | nan => simp [Dbl.le] at hmX
      | fin x => exact .inl ⟨x, rfl, hXd x rfl, hm0.trans (by simpa [Dbl.le] using hmX)⟩
      | inf t => cases t with
        | false => exact .inr rfl
        | true => simp [Dbl.le] at hmX
  refine ⟨?_, by rw [hM, hg0]; simpa [Dbl.le] using hmg, by rw [hM]; exact hinc.2, hinc.1⟩
  intro i hi
  obtain ⟨s1, s2⟩ := hside i hi
  have hmem : s.func.getD i (.fin 0) ∈ s.func := by
    rw [Perc.getD_lt _ _ _ (by omega)]; exact List.getElem_mem _
  obtain ⟨b1, b2⟩ := hbnd _ hmem
  rw [show ({ Fp.dualRoundD c samples.length s st with old := (Fp.dualRoundD c samples.length s st).rmargin } : DIState Dbl).rmargin =
    .fin m from hM]
  refine ⟨fun hy => ⟨(s1 hy).1, ?_⟩, fun hy => ⟨(s2 hy).1, ?_⟩⟩
  · have hle : (Dbl.fin 0).le (s.func.getD i (.fin 0)) = true := by
      obtain ⟨q, hq, -⟩ := hget i hi
      have := (s1 hy).1
      rw [hq] at this ⊢
      simp only [Dbl.lt, Dbl.le, decide_eq_true_eq] at *; exact this.le
    exact dle_trans (by simpa [Dbl.le] using hma) (b1 hle)
  · exact dle_trans (b2 (s2 hy).1) (by simp only [Dbl.neg, Dbl.le, decide_eq_true_eq]; linarith)

/-- Along the rounds. -/
theorem dual_rounds_facts (c : DCfg Dbl) (clock : Nat → Nat → Bool) (k : List Dbl → List Dbl → Dbl) (dim : ℕ)
    (samples : List (Sample Dbl)) (hne : samples ≠ []) (hl : DSigns samples) :
    ∀ (run : List (GState Dbl × DIState Dbl)) (st : DIState Dbl), st.sub.index.Perm (List.range samples.length) → D0 st.gamma →
    DDRounds sqrt c clock k dim samples st run → (∀ r ∈ run, UsableDual samples r.1) →
    (∀ r ∈ run, ∀ i (hi : i < samples.length), OutBy r.2.rmargin r.1.norm samples[i].y (r.1.func.getD i (.fin 0))) ∧
      (∀ r ∈ run, st.gamma.le r.2.rmargin = true) ∧ (run.map (·.2.rmargin)).Pairwise (fun a b => a.le b = true) := by
  intro run
  induction run with
  | nil => intro st _ _ _ _; simp
  | cons r run ih =>
    intro st hperm hg hr hu
    obtain ⟨h1, h2, h3, h5⟩ := dual_round_facts sqrt c clock k dim samples hne hl r.1 st r.2 hperm hg hr.1 (hu r (by simp))
    have hperm' : r.2.sub.index.Perm (List.range samples.length) := by
      have := (g_success sqrt _ _ k dim samples st.sub r.1 (fun _ => True) (fun _ _ _ _ _ _ => trivial) (fun _ _ _ => trivial)
        trivial hperm hr.1.1).2.1
      rw [hr.1.2]; exact this
    obtain ⟨i1, i2, i3⟩ := ih r.2 hperm' h5 hr.2 (fun q hq => hu q (by simp [hq]))
    refine ⟨?_, ?_, ?_⟩
    · intro q hq
      rcases List.mem_cons.1 hq with rfl | hq
      · exact h1
      · exact i1 q hq
    · intro q hq
      rcases List.mem_cons.1 hq with rfl | hq
      · exact h2
      · exact dle_trans h2 (dle_trans h3 (i2 q hq))
    · rw [List.map_cons, List.pairwise_cons]
      refine ⟨?_, i3⟩
      intro m hm
      obtain ⟨q, hq, rfl⟩ := List.mem_map.1 hm
      exact dle_trans h3 (i2 q hq)

/-- **C245 (margins)** (partial: see the refutations)  Along every sequence of rounds of `IMADual::train` whose numbers stay usable: in each round the
value kept for every training sample is strictly on the side of its label and, divided by the norm, at least the reported margin away from zero, and
the reported margins never decrease. -/
theorem C245_margins_partial (c : DCfg Dbl) (clock : Nat → Nat → Bool) (k : List Dbl → List Dbl → Dbl) (dim : ℕ)
    (samples : List (Sample Dbl)) (hne : samples ≠ []) (hl : DSigns samples) (alphas : List Dbl) (index : List ℕ)
    (hperm : index.Perm (List.range samples.length)) (run : List (GState Dbl × DIState Dbl))
    (hr : DDRounds sqrt c clock k dim samples (Fp.dualStart samples alphas index) run) (hu : ∀ r ∈ run, UsableDual samples r.1) :
    (∀ r ∈ run, ∀ i (hi : i < samples.length), OutBy r.2.rmargin r.1.norm samples[i].y (r.1.func.getD i (.fin 0))) ∧
      (∀ r ∈ run, (Dbl.fin 0).le r.2.rmargin = true) ∧ (run.map (·.2.rmargin)).Pairwise (fun a b => a.le b = true) :=
  dual_rounds_facts sqrt c clock k dim samples hne hl run _ hperm zero_D0 hr hu

/-- The rounds of the loop. -/
theorem dualLoop_rounds (c : DCfg Dbl) (clock : Nat → Nat → Bool) (k : List Dbl → List Dbl → Dbl) (dim : ℕ) (samples : List (Sample Dbl)) :
    ∀ (n : ℕ) (st : DIState Dbl) (out : DIState Dbl × Bool), Fp.dualLoopD sqrt c clock k dim samples n st = .ok out →
      ∃ run, DDRounds sqrt c clock k dim samples st run ∧ out.1.it = st.it + run.length ∧
        out.1.rmargin = ((run.map (·.2.rmargin)).getLast?).getD st.rmargin ∧
        out.1.saved = ((run.map (fun r => Fp.keepAlphasD c (r.1.alphas.take samples.length))).getLast?).getD st.saved ∧
        (out.2 = true → ((run.map (·.1.bias)).getLast?).getD st.sub.bias = out.1.sub.bias) := by
  intro n
  induction n with
  | zero => intro st out h; simp [Fp.dualLoopD] at h
  | succ n ih =>
    intro st out h
    rw [Fp.dualLoopD] at h
    cases hf : Fp.gTrainD sqrt ⟨c.rate, st.gamma, .fin 0, c.eps, .two, c.maxIt, c.maxUp⟩ (clock st.it) k dim samples st.sub with
    | error e => rw [hf] at h; cases h
    | ok r =>
      obtain ⟨b, s⟩ := r
      rw [hf] at h
      simp only [bind, Except.bind] at h
      cases b with
      | false =>
        simp only [if_true] at h
        cases h
        exact ⟨[], trivial, rfl, rfl, rfl, by simp⟩
      | true =>
        rw [if_neg (by simp)] at h
        split_ifs at h with h1
        · cases h
          refine ⟨[(s, { Fp.dualRoundD c samples.length s st with old := (Fp.dualRoundD c samples.length s st).rmargin })],
            ⟨⟨hf, rfl⟩, trivial⟩, rfl, rfl, rfl, fun _ => rfl⟩
        · obtain ⟨run, r1, r2, r3, r4, r5⟩ := ih _ _ h
          refine ⟨(s, _) :: run, ⟨⟨hf, rfl⟩, r1⟩, ?_, ?_, ?_, ?_⟩
          · rw [r2]; simp [Fp.dualRoundD]; omega
          · rw [r3, List.map_cons, List.getLast?_cons]; rfl
          · rw [r4, List.map_cons, List.getLast?_cons]; rfl
          · intro ho; rw [← r5 ho, List.map_cons, List.getLast?_cons]; rfl

/-- **C245 (provenance)**  When `IMADual::train` ends, it returns true exactly when a round succeeded; then the reported margin is that of the last
round, and the reported multiplier of each sample is the one it had there, or 0 when that was not above `EPS * rate`. -/
theorem C245_reports_last (c : DCfg Dbl) (clock : Nat → Nat → Bool) (k : List Dbl → List Dbl → Dbl) (dim : ℕ)
    (samples : List (Sample Dbl)) (alphas : List Dbl) (index : List ℕ) (n : ℕ) (ok : Bool) (sol : DISol Dbl)
    (h : Fp.imaDualTrainD sqrt c clock k dim samples alphas index n = .ok (ok, sol)) :
    ∃ run, DDRounds sqrt c clock k dim samples (Fp.dualStart samples alphas index) run ∧ (ok = true ↔ run ≠ []) ∧
      ∀ r, run.getLast? = some r → sol.margin = r.2.rmargin ∧
        sol.alpha = (r.1.alphas.take samples.length).map (fun a => if (c.eps.mul c.rate).lt a then a else .fin 0) := by
  unfold Fp.imaDualTrainD at h
  cases hf : Fp.dualLoopD sqrt c clock k dim samples n (Fp.dualStart samples alphas index) with
  | error e => rw [hf] at h; cases h
  | ok out =>
    obtain ⟨run, r1, r2, r3, r4, -⟩ := dualLoop_rounds sqrt c clock k dim samples n _ out hf
    rw [hf] at h
    simp only [bind, Except.bind, pure, Except.pure, Except.ok.injEq, Prod.mk.injEq] at h
    obtain ⟨hok, hsol⟩ := h
    have r2' : out.1.it = run.length := by rw [r2]; simp [Fp.dualStart]
    refine ⟨run, r1, ?_, ?_⟩
    · rw [← hok, r2']; simp [List.length_eq_zero_iff]
    · intro r hr
      rw [← hsol]
      refine ⟨by rw [r3, List.getLast?_map, hr]; rfl, by rw [r4, List.getLast?_map, hr]; rfl⟩

/-- Every `double` is a multiple of the smallest one. -/
theorem dbl_multiple {q : ℚ} (h : IsDbl q) : ∃ z : ℤ, q = z * two (-1074) := by
  obtain ⟨m, e, m1, m2, m3⟩ := (isDbl_iff.1 h).1 ▸ near_grid q
  obtain ⟨j, j1, j2⟩ := two_div_int (a := e) (b := -1074) (by omega)
  exact ⟨m * j, by rw [m3, j2]; push_cast; ring⟩

/-- `DBL_MAX` in multiples of the smallest `double`. -/
def topMultiple : ℤ := (2 ^ 1024 - 2 ^ 971) * 2 ^ 1074

theorem topMultiple_eq : dblMax = topMultiple * two (-1074) := by decide +kernel

/-- A norm that is NaN or not negative. -/
def NormOk (a : Dbl) : Prop := a = .nan ∨ D0 a

/-- With such a norm the scan yields numbers. -/
theorem extremes_finite {norm : Dbl} (hn : NormOk norm) : ∀ (vs : List Dbl) (a b : ℚ), IsDbl a → IsDbl b →
    ∃ a' b', Fp.extremes norm vs (.fin a, .fin b) = (.fin a', .fin b') ∧ IsDbl a' ∧ IsDbl b' := by
  have hpos : ∀ v : Dbl, (Dbl.fin 0).le v = true → ∀ a : ℚ, (v.div norm).lt (.fin a) = true → ∃ r, v.div norm = .fin r ∧ IsDbl r := by
    intro v hv a hlt
    have hdb : ∀ q, v.div norm = .fin q → IsDbl q := by
      intro q hq
      cases v <;> cases norm <;> simp only [Dbl.div] at hq
      case fin.fin => split_ifs at hq; exact rnd_isDbl hq
      case fin.inf => cases hq; exact rnd_eq_zero.2 near_zero
      all_goals simp at hq
    cases hd : v.div norm with
    | fin q => exact ⟨q, rfl, hdb q hd⟩
    | nan => rw [hd] at hlt; simp [Dbl.lt] at hlt
    | inf t =>
      cases t with
      | false => rw [hd] at hlt; simp [Dbl.lt] at hlt
      | true =>
        exfalso
        rcases hn with rfl | ⟨x, rfl, -, hx⟩ | rfl
        · cases v <;> simp [Dbl.div] at hd
        · cases v with
          | nan => simp [Dbl.div] at hd
          | fin y =>
            have hy : 0 ≤ y := by simpa [Dbl.le] using hv
            rcases hx.eq_or_lt with rfl | hx
            · simp only [Dbl.div] at hd
              split_ifs at hd <;> simp_all [not_lt.2 hy]
            · rw [div_fin hx] at hd
              rcases rnd_D0 (q := y / x) (by positivity) with ⟨z, hz, -⟩ | hz <;> rw [hz] at hd <;> simp at hd
          | inf t => cases t <;> simp_all [Dbl.le, Dbl.div, not_lt.2 hx]
        · cases v with
          | nan => simp [Dbl.div] at hd
          | fin y => simp [Dbl.div] at hd
          | inf t => simp [Dbl.div] at hd
  have hneg : ∀ v : Dbl, v.lt (.fin 0) = true → ∀ a : ℚ, (Dbl.fin a).lt (v.div norm) = true → ∃ r, v.div norm = .fin r ∧ IsDbl r := by
    intro v hv a hlt
    have hdb : ∀ q, v.div norm = .fin q → IsDbl q := by
      intro q hq
      cases v <;> cases norm <;> simp only [Dbl.div] at hq
      case fin.fin => split_ifs at hq; exact rnd_isDbl hq
      case fin.inf => cases hq; exact rnd_eq_zero.2 near_zero
      all_goals simp at hq
    cases hd : v.div norm with
    | fin q => exact ⟨q, rfl, hdb q hd⟩
    | nan => rw [hd] at hlt; simp [Dbl.lt] at hlt
    | inf t =>
      cases t with
      | true => rw [hd] at hlt; simp [Dbl.lt] at hlt
      | false =>
        exfalso
        rcases hn with rfl | ⟨x, rfl, -, hx⟩ | rfl
        · cases v <;> simp [Dbl.div] at hd
        · cases v with
          | nan => simp [Dbl.div] at hd
          | fin y =>
            have hy : y < 0 := by simpa [Dbl.lt] using hv
            rcases hx.eq_or_lt with rfl | hx
            · simp [Dbl.div, hy, hy.ne] at hd
            · rw [div_fin hx, show y / x = -((-y) / x) by rw [neg_div, neg_neg], rnd_neg] at hd
              rcases rnd_D0 (q := (-y) / x) (div_nonneg (by linarith) hx.le) with ⟨z, hz, -⟩ | hz <;> rw [hz] at hd <;> simp [Dbl.neg] at hd
          | inf t => cases t <;> simp_all [Dbl.lt, Dbl.div, not_lt.2 hx]
        · cases v with
          | nan => simp [Dbl.div] at hd
          | fin y => simp [Dbl.div] at hd
          | inf t => simp [Dbl.div] at hd
  intro vs
  induction vs with
  | nil => intro a b ha hb; exact ⟨a, b, rfl, ha, hb⟩
  | cons v vs ih =>
    intro a b ha hb
    rw [Fp.extremes]
    split_ifs with c1 c2
    · rw [Bool.and_eq_true] at c1
      obtain ⟨r, e, hr⟩ := hpos v c1.1 a c1.2
      rw [e]; exact ih r b hr hb
    · rw [Bool.and_eq_true] at c2
      obtain ⟨r, e, hr⟩ := hneg v c2.1 b c2.2
      rw [e]; exact ih a r ha hr
    · exact ih a b ha hb

/-- The loop ends: each further round raises the margin by at least the smallest `double`. -/
theorem dualLoop_ends (hs : ∀ x, NormOk (sqrt x)) (c : DCfg Dbl) {e : ℚ} (he : c.eps = .fin e) (he0 : 0 < e) (clock : Nat → Nat → Bool)
    (k : List Dbl → List Dbl → Dbl) (dim : ℕ) (samples : List (Sample Dbl)) :
    ∀ (n : ℕ) (st : DIState Dbl) (o : ℚ) (z : ℤ), st.sub.index.Perm (List.range samples.length) → NormOk st.sub.norm → st.old = .fin o →
      IsDbl o → o = z * two (-1074) → topMultiple - z < n → Fp.dualLoopD sqrt c clock k dim samples n st ≠ .error .diverges := by
  have hu := two_pos (-1074)
  have htop : ∀ (q : ℚ) (z : ℤ), IsDbl q → q = z * two (-1074) → z ≤ topMultiple := by
    intro q z hq hz
    have := dblMax_top hq
    rw [hz, topMultiple_eq] at this
    exact_mod_cast le_of_mul_le_mul_right this hu
  intro n
  induction n with
  | zero =>
    intro st o z _ _ _ hod hoz hlt
    have := htop o z hod hoz
    push_cast at hlt
    omega
  | succ n ih =>
    intro st o z hperm hnorm hold hod hoz hlt
    rw [Fp.dualLoopD]
    cases hf : Fp.gTrainD sqrt ⟨c.rate, st.gamma, .fin 0, c.eps, .two, c.maxIt, c.maxUp⟩ (clock st.it) k dim samples st.sub with
    | error e =>
      unfold Fp.gTrainD at hf
      dsimp only at hf
      generalize (if st.sub.func = [] then List.replicate samples.length (Dbl.fin 0) else st.sub.func) = fn at hf
      split_ifs at hf
      cases hf
      simp [bind, Except.bind]
    | ok r =>
      obtain ⟨b, s⟩ := r
      simp only [bind, Except.bind]
      cases b with
      | false => simp
      | true =>
        rw [if_neg (by simp)]
        split_ifs with h1
        · simp
        · obtain ⟨hn, hp, -⟩ := g_success sqrt _ _ k dim samples st.sub s (fun t => NormOk t.norm) (fun _ _ _ _ _ _ => hs _)
            (fun _ _ h => h) hnorm hperm hf
          obtain ⟨a, b, hext, had, hbd⟩ := extremes_finite hn (s.func.take samples.length) dblMax (-dblMax) dblMax_isDbl dblMax_isDbl.neg
          obtain ⟨r, hr, hrd⟩ : ∃ r, (Fp.dualRoundD c samples.length s st).rmargin = .fin r ∧ IsDbl r := by
            have habs : ∀ q : ℚ, IsDbl q → IsDbl |q| := by
              intro q hq
              rcases abs_choice q with h | h <;> rw [h]
              · exact hq
              · exact hq.neg
            simp only [Fp.dualRoundD, hext, Dbl.abs]
            split_ifs
            · exact ⟨|b|, rfl, habs b hbd⟩
            · exact ⟨|a|, rfl, habs a had⟩
          have hold' : (Fp.dualRoundD c samples.length s st).old = .fin o := hold
          rw [hr, hold', he] at h1
          have hro : o < r := by
            by_contra hcon
            push Not at hcon
            apply h1
            have e1 : (Dbl.fin r).sub (.fin o) = (rnd (o - r)).neg := by
              rw [← rnd_neg]
              simp only [Dbl.sub, Dbl.neg, Dbl.add]
              congr 1; ring
            rw [e1]
            rcases rnd_D0 (q := o - r) (by linarith) with ⟨x, hx, -, hx0⟩ | hx <;> rw [hx]
            · simp only [Dbl.neg, Dbl.lt, decide_eq_true_eq]; linarith
            · rfl
          obtain ⟨zr, hzr⟩ := dbl_multiple hrd
          have hz : z < zr := by
            rw [hoz, hzr] at hro
            exact_mod_cast lt_of_mul_lt_mul_right hro hu.le
          exact ih _ r zr hp hn hr hrd hzr (by push_cast at hlt; omega)

/-- **C245 (ending)**  For every data set, kernel, clock, settings with `EPS > 0` and every square root that answers NaN or something not negative,
`IMADual::train` ends: after `topMultiple` rounds at the latest the loop has stopped. -/
theorem C245_ends (hs : ∀ x, sqrt x = .nan ∨ D0 (sqrt x)) (c : DCfg Dbl) {e : ℚ} (he : c.eps = .fin e) (he0 : 0 < e) (clock : Nat → Nat → Bool)
    (k : List Dbl → List Dbl → Dbl) (dim : ℕ) (samples : List (Sample Dbl)) (alphas : List Dbl) (index : List ℕ)
    (hperm : index.Perm (List.range samples.length)) (n : ℕ) (hn : topMultiple < n) :
    Fp.imaDualTrainD sqrt c clock k dim samples alphas index n ≠ .error .diverges := by
  have h := dualLoop_ends sqrt hs c he he0 clock k dim samples n (Fp.dualStart samples alphas index) 0 0 hperm (.inr zero_D0) rfl
    (isDbl_iff.2 ⟨near_zero, by rw [abs_zero]; exact huge_pos⟩) (by simp) (by omega)
  unfold Fp.imaDualTrainD
  cases hf : Fp.dualLoopD sqrt c clock k dim samples n (Fp.dualStart samples alphas index) with
  | error e => rw [hf] at h; simpa [bind, Except.bind] using h
  | ok r => simp [bind, Except.bind, pure, Except.pure]

end

/-- Four samples. -/
def dualFour : List (Sample Dbl) :=
  [⟨[.fin (1 / 2)], .fin 1⟩, ⟨[.fin (-1 / 4)], .fin (-1)⟩, ⟨[.fin (-1 / 4)], .fin (-1)⟩, ⟨[.fin (-1 / 4)], .fin (-1)⟩]

/-- **C245 (refuted)** The samples 1/2 (label 1) and -1/4 (label -1, three times): training with at most one further pass returns true with the
multipliers of the first round and the bias of the failed second run, and `evaluate` answers -1 for the first sample. -/
theorem C245_bias_refuted :
    (Fp.imaDualTrainD rootD ⟨.fin 1, .fin (1 / 1024), .fin (1025 / 1024), 1, 40, .fin 0⟩ (fun _ _ => true) (Fp.dot 1) 1 dualFour
      (List.replicate 4 (.fin 0)) [0, 1, 2, 3] 4).toOption.map
      (fun r => (r.1, r.2.alpha, r.2.bias, Fp.dualEvaluate (Fp.dot 1) 1 r.2.alpha dualFour r.2.bias [.fin (1 / 2)])) =
    some (true, [.fin 1, .fin 1, .fin 0, .fin 0], .fin (-1), .ok (-1)) := by decide +kernel

/-- **C245 (refuted)** The sample 1 (label 1) alone: training returns true with multiplier 1, and lists no support vector. -/
theorem C245_support_refuted :
    (Fp.imaDualTrainD rootD ⟨.fin 1, .fin (1 / 1024), .fin (1025 / 1024), 40, 40, .fin 0⟩ (fun _ _ => true) (Fp.dot 1) 1
      [⟨[.fin 1], .fin 1⟩] [.fin 0] [0] 4).toOption.map (fun r => (r.1, r.2.alpha, r.2.svs)) = some (true, [.fin 1], []) := by decide +kernel

/-- The square root of the witnesses meets the hypothesis of `C245_ends`. -/
example (x : Dbl) : rootD x = .nan ∨ D0 (rootD x) := by
  cases x with
  | nan => exact .inl rfl
  | inf s => cases s; exacts [.inr (.inr rfl), .inl rfl]
  | fin q =>
    simp only [rootD]
    split_ifs
    · exact .inl rfl
    · exact .inr (rnd_D0 (by positivity))

/-- The hypotheses of `C245_margins_partial` are met: the first round from a fresh classifier succeeds with usable numbers. -/
example : (Fp.gTrainD rootD ⟨.fin 1, .fin 0, .fin 0, .fin (1 / 1024), .two, 40, 40⟩ (fun _ => true) (Fp.dot 1) 1 dualFour
      (Fp.dualStart dualFour (List.replicate 4 (.fin 0)) [0, 1, 2, 3]).sub).toOption.map (fun r => (r.1, r.2.func, match r.2.norm with
        | .fin n => decide (0 < n) | _ => false)) =
    some (true, [.fin (3 / 8), .fin (-3 / 16), .fin (-3 / 16), .fin (-3 / 16)], true) := by decide +kernel

end MLTK.Props
