import Mathlib.Logic.Relation
import Verif.Lemmas.IMA
import Verif.Props.Perceptron
/-!
# The incremental margin algorithm: C67
-/
namespace MLTK.Props
open MLTK.Perc MLTK.Spec MLTK.IMA

/-- The hyperplane `(w, b)` with norm `N` keeps every sample at margin at least `M` on its side. -/
def Spec.Achieves {K : Type} [Field K] [LinearOrder K] (dim : Nat) (samples : List (Sample K))
    (w : List K) (b N M : K) : Prop :=
  ∀ p ∈ samples, M * N ≤ p.y * affine dim w b p.x

theorem infStep_nonneg (c : FCfg ℝ) (p : Sample ℝ) (norm largw : ℝ) (n : Nat) (a : InfAcc ℝ) (j : Nat)
    (h : 0 ≤ a.temp) : 0 ≤ (infStep c p norm largw n a j).temp := by
  unfold infStep
  simp only
  generalize (if largw = 0 ∨ abs (largw - |a.w.getD j 0|) / largw < c.eps then _ else _) = wj
  split
  · split
    · exact h
    · split
      · exact abs_nonneg _
      · exact h
  · exact h

theorem fmUpdate_norm_nonneg (c : FCfg ℝ) (dim : Nat) (p : Sample ℝ) (i idx e : Nat) (s : FState ℝ) :
    0 ≤ (fmUpdate realLibm c dim p i idx e s).norm := by
  simp only [fmUpdate, fmWeights]
  cases c.q with
  | one => simp only [sumTo_eq]; exact Finset.sum_nonneg (fun _ _ => abs_nonneg _)
  | two => exact Real.sqrt_nonneg _
  | inf =>
    simp only
    exact foldl_inv (fun a : InfAcc ℝ => 0 ≤ a.temp) _ _ _ (abs_nonneg _) (fun j _ b hb => infStep_nonneg _ _ _ _ _ _ _ hb)
  | other q =>
    simp only [sumTo_eq, realLibm]
    exact Real.rpow_nonneg (Finset.sum_nonneg (fun _ _ => Real.rpow_nonneg (abs_nonneg _) _)) _

/-- The contract of a successful fixed-margin run. -/
theorem imaFixed_spec (c : FCfg ℝ) (clock : Nat → Bool) (dim : Nat) (samples : List (Sample ℝ))
    (s0 : FState ℝ) (hperm : s0.index.Perm (List.range samples.length)) (hn : 0 ≤ s0.norm) :
    0 ≤ (imaFixed realLibm c clock dim samples s0).2.norm ∧
    (imaFixed realLibm c clock dim samples s0).2.index.Perm (List.range samples.length) ∧
    ((imaFixed realLibm c clock dim samples s0).1 = true →
      ∀ i (hi : i < samples.length),
        c.gamma * (imaFixed realLibm c clock dim samples s0).2.norm -
          (imaFixed realLibm c clock dim samples s0).2.alphas.getD i 0 * c.flexible <
        samples[i].y * affine dim (imaFixed realLibm c clock dim samples s0).2.w
          (imaFixed realLibm c clock dim samples s0).2.bias samples[i].x) := by
  have hpass : ∀ s : FState ℝ, (s.index.Perm (List.range samples.length) ∧ 0 ≤ s.norm) →
      ((fmPass realLibm c dim samples s).1.index.Perm (List.range samples.length) ∧
        0 ≤ (fmPass realLibm c dim samples s).1.norm) := by
    intro s hs
    have := fmScan_inv realLibm c dim samples (fun s => 0 ≤ s.norm)
      (fun s p i idx e _ => fmUpdate_norm_nonneg c dim p i idx e s) samples.length 0 s 0
      hs.2 (le_refl _) (by rw [hs.1.length_eq]; simp)
    simp only [fmPass, List.range_eq_range'] at this ⊢
    exact ⟨this.2.trans (by rw [← List.range_eq_range']; exact hs.1), this.1⟩
  by_cases hc : clock 0 = true
  · obtain ⟨s1, hP, hs1⟩ := epochs_last (fmPass realLibm c dim samples)
      (fun s => s.steps > c.maxIt ∨ s.ctot > c.maxUp) clock
      (fun s => s.index.Perm (List.range samples.length) ∧ 0 ≤ s.norm) (fun s hs _ => hpass s hs)
      (c.maxIt + 1 - s0.steps) 0
      { s0 with w := if s0.w = [] then List.replicate dim 0 else s0.w, s := 0 } 1 ⟨hperm, hn⟩ hc
    simp only [imaFixed]
    rw [hs1]
    refine ⟨(hpass s1 hP).2, (hpass s1 hP).1, ?_⟩
    intro he
    have he : (fmPass realLibm c dim samples s1).2 = 0 := by simpa using he
    simp only [fmPass] at he ⊢
    obtain ⟨-, h2, h3⟩ := fmScan_zero realLibm c dim samples (List.range samples.length) s1
      (fmScan realLibm c dim samples (List.range samples.length) s1 0).1 0 (Prod.ext rfl he)
    rw [h2]
    intro i hi
    have hmem : i ∈ s1.index := hP.1.mem_iff.mpr (by simpa using hi)
    obtain ⟨k, hk, hki⟩ := List.mem_iff_getElem.mp hmem
    have hk' : k < samples.length := by rw [hP.1.length_eq] at hk; simpa using hk
    have := h3 k (by simpa using hk')
    rw [getD_lt s1.index 0 k hk, hki, getD_lt samples default i hi, decision_eq] at this
    exact this
  · have : ∀ n s, epochs (fmPass realLibm c dim samples)
        (fun s => s.steps > c.maxIt ∨ s.ctot > c.maxUp) clock n 0 s 1 = (s, 1) := by
      intro n s; cases n <;> (rw [epochs]; simp [hc])
    simp only [imaFixed, this]
    exact ⟨hn, hperm, by simp⟩

/-- One successful round of `IMAp::train`: the fixed-margin run succeeded and the loop body was executed. -/
def Spec.Round (c : ICfg ℝ) (clock : Nat → Nat → Bool) (dim : Nat) (samples : List (Sample ℝ))
    (st st' : IState ℝ) : Prop :=
  ∃ s, imaFixed realLibm ⟨st.rate, st.gamma, c.flexible, c.eps, c.q, c.maxIt, c.maxUp⟩ (clock st.it) dim samples
      st.sub = (true, s) ∧ ¬ (s.norm = 0 ∧ samples ≠ []) ∧ st' = IMA.round realLibm c dim samples s st

/-- The state in which the loop starts. -/
noncomputable def Spec.imaStart (dim : Nat) (samples : List (Sample ℝ)) (index : List Nat) (margin : ℝ) : IState ℝ :=
  { sub := ⟨[], 0, 0, List.replicate samples.length 0, index, 0, 0, 0, 0, 0⟩, gamma := 0, rate := 1,
    it := 0, t1 := 1, sol := ⟨List.replicate dim 0, 0, 1, margin⟩ }

/-- What is known about the state between rounds, flexibility 0 and both classes present. -/
structure IGood (dim : Nat) (samples : List (Sample ℝ)) (st : IState ℝ) : Prop where
  perm : st.sub.index.Perm (List.range samples.length)
  norm : 0 ≤ st.sub.norm
  gamma : 0 ≤ st.gamma
  sol : 0 < st.it → ∃ lo hi : ℝ, 0 < lo ∧ hi < 0 ∧ st.sol.margin = (lo - hi) / 2 ∧ 0 < st.sol.norm ∧
    st.sol.margin ≤ st.gamma ∧
    (∀ p ∈ samples, p.y = 1 → lo * st.sol.norm ≤ affine dim st.sol.w st.sol.bias p.x) ∧
    (∀ p ∈ samples, p.y = -1 → affine dim st.sol.w st.sol.bias p.x ≤ hi * st.sol.norm) ∧
    (∃ p ∈ samples, p.y = 1 ∧ affine dim st.sol.w st.sol.bias p.x = lo * st.sol.norm) ∧
    (∃ p ∈ samples, p.y = -1 ∧ affine dim st.sol.w st.sol.bias p.x = hi * st.sol.norm)

theorem round_good (c : ICfg ℝ) (clock : Nat → Nat → Bool) (dim : Nat) (samples : List (Sample ℝ))
    (hflex : c.flexible = 0) (hl : PlusMinus samples) (hpos : ∃ p ∈ samples, p.y = 1)
    (hneg : ∃ p ∈ samples, p.y = -1) (st st' : IState ℝ) (hg : IGood dim samples st)
    (hr : Spec.Round c clock dim samples st st') :
    IGood dim samples st' ∧ 0 < st'.it ∧ st.gamma < st'.sol.margin ∧
      (∀ p ∈ samples, st.gamma * st'.sol.norm < p.y * affine dim st'.sol.w st'.sol.bias p.x) := by
  obtain ⟨s, hs, hn0, rfl⟩ := hr
  obtain ⟨k1, k2, k3⟩ := imaFixed_spec ⟨st.rate, st.gamma, c.flexible, c.eps, c.q, c.maxIt, c.maxUp⟩
    (clock st.it) dim samples st.sub hg.perm hg.norm
  rw [hs] at k1 k2 k3
  simp only at k1 k2
  have k3 := k3 rfl
  simp only [hflex, mul_zero, sub_zero] at k3
  have hne : samples ≠ [] := by obtain ⟨p, hp, _⟩ := hpos; exact List.ne_nil_of_mem hp
  have hN : 0 < s.norm := lt_of_le_of_ne k1 (fun h => hn0 ⟨h.symm, hne⟩)
  have hval : ∀ p ∈ samples, st.gamma * s.norm < p.y * affine dim s.w s.bias p.x := by
    intro p hp
    obtain ⟨i, hi, rfl⟩ := List.mem_iff_getElem.mp hp
    exact k3 i hi
  have hvs : values c dim samples s = samples.map (fun p => affine dim s.w s.bias p.x) := by
    simp only [values, hflex, mul_zero, add_zero, decision_eq]
    exact List.ext_getElem (by simp) (by intro i h1 h2; simp)
  have hgN : 0 ≤ st.gamma * s.norm := mul_nonneg hg.gamma k1
  have hp1 : ∀ p ∈ samples, p.y = 1 → st.gamma * s.norm < affine dim s.w s.bias p.x := by
    intro p hp hy; have := hval p hp; rwa [hy, one_mul] at this
  have hp2 : ∀ p ∈ samples, p.y = -1 → affine dim s.w s.bias p.x < -(st.gamma * s.norm) := by
    intro p hp hy; have := hval p hp; rw [hy] at this; linarith
  obtain ⟨e1, e2, -, e4, e5, -⟩ := extremes_spec s.norm (values c dim samples s) none none
  have hmemv : ∀ p ∈ samples, affine dim s.w s.bias p.x ∈ values c dim samples s := by
    intro p hp; rw [hvs]; exact List.mem_map.mpr ⟨p, hp, rfl⟩
  obtain ⟨pp, hpp, hpy⟩ := hpos
  obtain ⟨pn, hpn, hny⟩ := hneg
  obtain ⟨lo, hlo, -⟩ := e2 _ (hmemv pp hpp) (le_of_lt (lt_of_le_of_lt hgN (hp1 pp hpp hpy)))
  obtain ⟨hi, hhi, -⟩ := e5 _ (hmemv pn hpn) (lt_of_lt_of_le (hp2 pn hpn hny) (by linarith))
  have hloA : ∃ p ∈ samples, p.y = 1 ∧ affine dim s.w s.bias p.x = lo * s.norm := by
    rcases e1 lo hlo with h | ⟨v, hv, hv0, hve⟩
    · cases h
    · rw [hvs] at hv
      obtain ⟨p, hp, rfl⟩ := List.mem_map.mp hv
      refine ⟨p, hp, ?_, by rw [hve, div_mul_cancel₀ _ hN.ne']⟩
      rcases hl p hp with h | h
      · exact h
      · have := hp2 p hp h; linarith
  have hhiA : ∃ p ∈ samples, p.y = -1 ∧ affine dim s.w s.bias p.x = hi * s.norm := by
    rcases e4 hi hhi with h | ⟨v, hv, hv0, hve⟩
    · cases h
    · rw [hvs] at hv
      obtain ⟨p, hp, rfl⟩ := List.mem_map.mp hv
      refine ⟨p, hp, ?_, by rw [hve, div_mul_cancel₀ _ hN.ne']⟩
      rcases hl p hp with h | h
      · have := hp1 p hp h; linarith
      · exact h
  have hloLe : ∀ p ∈ samples, p.y = 1 → lo * s.norm ≤ affine dim s.w s.bias p.x := by
    intro p hp hy
    obtain ⟨a, ha, hle⟩ := e2 _ (hmemv p hp) (le_of_lt (lt_of_le_of_lt hgN (hp1 p hp hy)))
    rw [hlo] at ha; cases ha
    rwa [le_div_iff₀ hN] at hle
  have hhiLe : ∀ p ∈ samples, p.y = -1 → affine dim s.w s.bias p.x ≤ hi * s.norm := by
    intro p hp hy
    obtain ⟨a, ha, hle⟩ := e5 _ (hmemv p hp) (lt_of_lt_of_le (hp2 p hp hy) (by linarith))
    rw [hhi] at ha; cases ha
    rwa [div_le_iff₀ hN] at hle
  have hlo0 : st.gamma < lo := by
    obtain ⟨p, hp, hy, he⟩ := hloA
    have := hp1 p hp hy
    rw [he] at this
    exact lt_of_mul_lt_mul_right this hN.le
  have hhi0 : hi < -st.gamma := by
    obtain ⟨p, hp, hy, he⟩ := hhiA
    have := hp2 p hp hy
    rw [he, ← neg_mul] at this
    exact lt_of_mul_lt_mul_right this hN.le
  have hlop : 0 < lo := lt_of_le_of_lt hg.gamma hlo0
  have hhin : hi < 0 := by have := hg.gamma; linarith
  have hm : (IMA.round realLibm c dim samples s st).sol.margin = (lo - hi) / 2 := by
    simp only [IMA.round, hlo, hhi, Option.getD_some, abs_of_pos hlop, abs_of_neg hhin]
    ring
  have hgam : (lo - hi) / 2 ≤ (IMA.round realLibm c dim samples s st).gamma := by
    simp only [IMA.round, hlo, hhi, Option.getD_some]
    generalize (1 + c.alphaAprox) * _ = inc
    split
    · exact le_of_lt (by assumption)
    · exact le_refl _
  refine ⟨⟨k2, k1, le_trans (by linarith) hgam, fun _ => ⟨lo, hi, hlop, hhin, hm, hN, by rw [hm]; exact hgam,
    hloLe, hhiLe, hloA, hhiA⟩⟩, Nat.succ_pos _, by rw [hm]; linarith, hval⟩

theorem start_good (dim : Nat) (samples : List (Sample ℝ)) (index : List Nat) (margin : ℝ)
    (hperm : index.Perm (List.range samples.length)) : IGood dim samples (Spec.imaStart dim samples index margin) :=
  ⟨hperm, le_refl _, le_refl _, fun h => absurd h (by simp [Spec.imaStart])⟩

theorem reach_good (c : ICfg ℝ) (clock : Nat → Nat → Bool) (dim : Nat) (samples : List (Sample ℝ))
    (hflex : c.flexible = 0) (hl : PlusMinus samples) (hpos : ∃ p ∈ samples, p.y = 1)
    (hneg : ∃ p ∈ samples, p.y = -1) (st st' : IState ℝ) (hg : IGood dim samples st)
    (hr : Relation.ReflTransGen (Spec.Round c clock dim samples) st st') : IGood dim samples st' := by
  induction hr with
  | refl => exact hg
  | tail _ h ih => exact (round_good c clock dim samples hflex hl hpos hneg _ _ ih h).1

/-- Every run of the loop is a sequence of successful rounds, and what is reported is what the last successful
round stored. -/
theorem loop_trace (c : ICfg ℝ) (clock : Nat → Nat → Bool) (late : Nat → Bool) (dim : Nat)
    (samples : List (Sample ℝ)) : ∀ (n : Nat) (st r : IState ℝ),
      loop realLibm c clock late dim samples n st = .ok r →
      ∃ st', Relation.ReflTransGen (Spec.Round c clock dim samples) st st' ∧ st'.sol = r.sol ∧ st'.it = r.it := by
  intro n
  induction n with
  | zero =>
    intro st r h
    rw [loop] at h
    split at h
    · cases h; exact ⟨st, .refl, rfl, rfl⟩
    · rename_i s hs
      split at h
      · cases h
      · rename_i hn
        refine ⟨_, .tail .refl ⟨s, hs, hn, rfl⟩, ?_⟩
        simp only at h
        split at h <;> (cases h; exact ⟨rfl, rfl⟩)
  | succ n ih =>
    intro st r h
    rw [loop] at h
    split at h
    · cases h; exact ⟨st, .refl, rfl, rfl⟩
    · rename_i s hs
      split at h
      · cases h
      · rename_i hn
        simp only at h
        split at h
        · cases h; exact ⟨_, .tail .refl ⟨s, hs, hn, rfl⟩, rfl, rfl⟩
        · obtain ⟨st', h1, h2, h3⟩ := ih _ _ h
          exact ⟨st', .head ⟨s, hs, hn, rfl⟩ h1, h2, h3⟩

theorem imaTrain_loop {c : ICfg ℝ} {clock : Nat → Nat → Bool} {late : Nat → Bool} {dim : Nat}
    {samples : List (Sample ℝ)} {index : List Nat} {hasInit : Bool} {margin : ℝ} {ok : Bool} {st : IState ℝ}
    (hne : samples ≠ []) (hperm : index.Perm (List.range samples.length))
    (h : imaTrain realLibm c clock late dim samples index hasInit margin = .ok (ok, st)) :
    loop realLibm c clock late dim samples c.maxIt (Spec.imaStart dim samples index margin) = .ok st ∧
      ok = decide (st.it ≠ 0) := by
  have hi : index ≠ [] := by
    rintro rfl
    have := hperm.length_eq
    simp at this
    exact hne (List.length_eq_zero_iff.mp this.symm)
  unfold imaTrain at h
  simp only [if_neg hi] at h
  split at h
  · cases h
  split at h
  · cases h
  cases hL : loop realLibm c clock late dim samples c.maxIt (Spec.imaStart dim samples index margin) with
  | error x => unfold Spec.imaStart at hL; rw [hL] at h; cases h
  | ok r =>
    unfold Spec.imaStart at hL; rw [hL] at h
    have := Prod.mk.inj (Except.ok.inj h)
    exact ⟨by rw [this.2], by rw [← this.1, this.2]⟩

/-- **C67, success.**  If `IMAp::train` returns true (flexibility 0, both classes present), the reported
hyperplane comes from a successful fixed-margin run: it separates the training set strictly, and the reported
margin is exactly the margin that its direction attains on the training set with the best bias.
Missing with respect to C67: the reported bias is not that best bias, see `C67_reported_margin_refuted`. -/
theorem C67_direction_margin_partial (c : ICfg ℝ) (clock : Nat → Nat → Bool) (late : Nat → Bool) (dim : Nat)
    (samples : List (Sample ℝ)) (index : List Nat) (hasInit : Bool) (margin : ℝ) (st : IState ℝ)
    (hflex : c.flexible = 0) (hl : PlusMinus samples) (hpos : ∃ p ∈ samples, p.y = 1)
    (hneg : ∃ p ∈ samples, p.y = -1) (hperm : index.Perm (List.range samples.length))
    (h : imaTrain realLibm c clock late dim samples index hasInit margin = .ok (true, st)) :
    SeparatesAll dim st.sol.w st.sol.bias samples ∧ 0 < st.sol.margin ∧
    (∃ b, Spec.Achieves dim samples st.sol.w b st.sol.norm st.sol.margin) ∧
    (∀ b M, Spec.Achieves dim samples st.sol.w b st.sol.norm M → M ≤ st.sol.margin) := by
  have hne : samples ≠ [] := by obtain ⟨p, hp, _⟩ := hpos; exact List.ne_nil_of_mem hp
  obtain ⟨hL, hok⟩ := imaTrain_loop hne hperm h
  obtain ⟨st', hr, h2, h3⟩ := loop_trace c clock late dim samples _ _ _ hL
  have hg := reach_good c clock dim samples hflex hl hpos hneg _ _ (start_good dim samples index margin hperm) hr
  have hit : 0 < st'.it := by
    rw [h3]; have : st.it ≠ 0 := by simpa using hok.symm
    omega
  obtain ⟨lo, hi, a1, a2, a3, a4, -, a6, a7, ⟨p1, hp1, hy1, he1⟩, ⟨p2, hp2, hy2, he2⟩⟩ := hg.sol hit
  rw [h2] at a3 a4 a6 a7 he1 he2
  refine ⟨?_, ?_, ⟨st.sol.bias - (lo + hi) / 2 * st.sol.norm, ?_⟩, ?_⟩
  · intro p hp
    rcases hl p hp with hy | hy
    · have := a6 p hp hy
      rw [hy, one_mul]
      exact lt_of_lt_of_le (mul_pos a1 a4) this
    · have := a7 p hp hy
      rw [hy]
      have h0 : hi * st.sol.norm < 0 := mul_neg_of_neg_of_pos a2 a4
      linarith
  · rw [a3]; linarith
  · intro p hp
    have e : affine dim st.sol.w (st.sol.bias - (lo + hi) / 2 * st.sol.norm) p.x
        = affine dim st.sol.w st.sol.bias p.x - (lo + hi) / 2 * st.sol.norm := by
      simp only [affine]; ring
    rw [e, a3]
    rcases hl p hp with hy | hy
    · have := a6 p hp hy
      rw [hy, one_mul]
      linarith
    · have := a7 p hp hy
      rw [hy]
      linarith
  · intro b M hM
    have m1 := hM p1 hp1
    have m2 := hM p2 hp2
    rw [hy1, one_mul] at m1
    rw [hy2] at m2
    simp only [affine] at m1 m2 he1 he2
    have : M * st.sol.norm ≤ (lo - hi) / 2 * st.sol.norm := by linarith
    rw [a3]
    exact le_of_mul_le_mul_right this a4

/-- **C67, increasing.**  Along every execution the reported margins strictly increase, and each new solution
achieves, with its own bias, more than the margin reported before it on every training sample. -/
theorem C67_margins_increase (c : ICfg ℝ) (clock : Nat → Nat → Bool) (dim : Nat)
    (samples : List (Sample ℝ)) (index : List Nat) (margin : ℝ)
    (hflex : c.flexible = 0) (hl : PlusMinus samples) (hpos : ∃ p ∈ samples, p.y = 1)
    (hneg : ∃ p ∈ samples, p.y = -1) (hperm : index.Perm (List.range samples.length))
    (st st' : IState ℝ)
    (hreach : Relation.ReflTransGen (Spec.Round c clock dim samples) (Spec.imaStart dim samples index margin) st)
    (hit : 0 < st.it) (hr : Spec.Round c clock dim samples st st') :
    st.sol.margin < st'.sol.margin ∧
    Spec.Achieves dim samples st'.sol.w st'.sol.bias st'.sol.norm st.sol.margin := by
  have hg := reach_good c clock dim samples hflex hl hpos hneg _ _ (start_good dim samples index margin hperm) hreach
  obtain ⟨hg', hit', hlt, hval⟩ := round_good c clock dim samples hflex hl hpos hneg st st' hg hr
  obtain ⟨-, -, -, -, -, -, hle, -⟩ := hg.sol hit
  obtain ⟨-, -, -, -, -, hN, -⟩ := hg'.sol hit'
  refine ⟨lt_of_le_of_lt hle hlt, fun p hp => ?_⟩
  exact (mul_le_mul_of_nonneg_right hle hN.le).trans (hval p hp).le

/-- **C67, provenance.**  What `IMAp::train` reports is what the last successful round of its execution stored,
and it returns true exactly when there was one. -/
theorem C67_reports_last_success (c : ICfg ℝ) (clock : Nat → Nat → Bool) (late : Nat → Bool) (dim : Nat)
    (samples : List (Sample ℝ)) (index : List Nat) (hasInit : Bool) (margin : ℝ) (ok : Bool) (st : IState ℝ)
    (hne : samples ≠ []) (hperm : index.Perm (List.range samples.length))
    (h : imaTrain realLibm c clock late dim samples index hasInit margin = .ok (ok, st)) :
    (ok = true ↔ 0 < st.it) ∧
    ∃ st', Relation.ReflTransGen (Spec.Round c clock dim samples) (Spec.imaStart dim samples index margin) st' ∧
      st'.it = st.it ∧ st'.sol = st.sol := by
  obtain ⟨hL, hok⟩ := imaTrain_loop hne hperm h
  obtain ⟨st', hr, h2, h3⟩ := loop_trace c clock late dim samples _ _ _ hL
  refine ⟨?_, st', hr, h3, h2⟩
  rw [hok]; simp [Nat.pos_iff_ne_zero]

/-- **C67 refuted.**  On the two samples 1 (label +1) and -5 (label -1) with the 1-norm, training returns true
with `w = 1`, bias 1 and reported margin 3, but the first sample is only at distance 2; and `evaluate`, which
compares with the reported margin, gives that training sample the wrong label. -/
theorem C67_reported_margin_refuted :
    ∃ st : IState ℚ, imaTrain dummyLibm ⟨0, 0, 1/1000, .one, 20, 20, 10^6⟩ (fun _ _ => true) (fun _ => false) 1
        [⟨[1], 1⟩, ⟨[-5], -1⟩] [0, 1] false 0 = .ok (true, st) ∧
      st.sol = ⟨[1], 1, 1, 3⟩ ∧
      1 * (affine 1 st.sol.w st.sol.bias [1]) < st.sol.margin * st.sol.norm ∧
      imaEvaluate st.sol [1] = -1 := by
  simp only [← decision_eq]
  exact ok_of_check _ (by decide +kernel)

/-- **C67 refuted for single-class data**: the reported margin is about half of `DBL_MAX`. -/
theorem C67_single_class_refuted :
    ∃ st : IState ℚ, imaTrain dummyLibm ⟨0, 0, 1/1000, .one, 20, 20, 10^6⟩ (fun _ _ => true) (fun _ => false) 1
        [⟨[1], 1⟩] [0] false 0 = .ok (true, st) ∧ st.sol.w = [1] ∧ st.sol.margin = (10^6 + 2) / 2 := by
  exact ok_of_check _ (by decide +kernel)

/-- **C67, initial solution.**  Every `train` of an `IMAp` constructed with an initial solution reads its empty
weight vector. -/
theorem C67_initial_solution_refuted (c : ICfg ℝ) (clock : Nat → Nat → Bool) (late : Nat → Bool) (dim : Nat)
    (samples : List (Sample ℝ)) (index : List Nat) (margin : ℝ) (hne : samples ≠ []) (hd : 0 < dim) :
    imaTrain realLibm c clock late dim samples index true margin = .error .outOfBounds := by
  simp [imaTrain, hne, hd]

/-- A run with two successful rounds exists (so `C67_margins_increase` is about something). -/
example : ∃ st : IState ℚ, imaTrain dummyLibm ⟨0, 0, 1/1000, .one, 40, 60, 10^6⟩ (fun _ _ => true) (fun _ => false) 2
        exSamples [0, 1, 2] false 0 = .ok (true, st) ∧ 1 < st.it := by
  exact ok_of_check _ (by decide +kernel)

end MLTK.Props
