import Verif.Model.DoubleFixed
import Verif.Props.DoublePerc
import Verif.Lemmas.DoubleSum
/-!
# C238: the fixed-margin perceptron in `double` arithmetic
-/
namespace MLTK.Spec
open MLTK.Fp

/-- Not below zero: a nonnegative number, infinity or NaN. -/
def NotNeg (a : Dbl) : Prop := a.lt (.fin 0) = false

end MLTK.Spec

namespace MLTK.Props
open MLTK.Fp
open MLTK.Perc (Sample FState FCfg QNorm InfAcc epochs)
open MLTK.Spec (NotNeg)

attribute [local irreducible] Fp.rnd Fp.near Fp.huge Fp.two

variable (sqrt : Dbl → Dbl) (pow : Dbl → Dbl → Dbl)

theorem fmScan_clean (c : FCfg Dbl) (dim : ℕ) (samples : List (Sample Dbl)) (l : List ℕ)
    (s s' : FState Dbl) (e : ℕ) (h : Fp.fmScan sqrt pow c dim samples l s e = (s', 0)) :
    e = 0 ∧ s' = s ∧ ∀ i ∈ l, ((samples.getD (s.index.getD i 0) ⟨[], .fin 0⟩).y.mul
      (Fp.decision dim s.w (samples.getD (s.index.getD i 0) ⟨[], .fin 0⟩).x s.bias)).le
      ((c.gamma.mul s.norm).sub ((s.alphas.getD (s.index.getD i 0) (.fin 0)).mul c.flexible)) = false := by
  have hmono : ∀ (l : List ℕ) (s : FState Dbl) (e : ℕ), e ≤ (Fp.fmScan sqrt pow c dim samples l s e).2 := by
    intro l
    induction l with
    | nil => intro s e; simp [Fp.fmScan]
    | cons i l ih =>
      intro s e
      simp only [Fp.fmScan]
      split
      · exact le_trans (Nat.le_succ e) (ih _ _)
      · split
        · exact le_refl _
        · exact ih _ _
  induction l generalizing s e with
  | nil => simp [Fp.fmScan] at h; exact ⟨h.2, h.1.symm, by simp⟩
  | cons i l ih =>
    simp only [Fp.fmScan] at h
    split at h
    · have := hmono l (Fp.fmUpdate sqrt pow c dim (samples.getD (s.index.getD i 0) ⟨[], .fin 0⟩) i (s.index.getD i 0) e s) (e+1)
      rw [h] at this
      simp at this
    · rename_i hm
      split at h
      · rename_i hb; simp at h; omega
      · obtain ⟨h1, h2, h3⟩ := ih _ _ h
        refine ⟨h1, h2, ?_⟩
        intro j hj
        rcases List.mem_cons.mp hj with rfl | hj
        · simpa using hm
        · exact h3 j hj

/-- Invariants of a pass: `P` is kept by every update; the order stays a permutation. -/
theorem fmScan_keeps (c : FCfg Dbl) (dim : ℕ) (samples : List (Sample Dbl)) (P : FState Dbl → Prop)
    (hP : ∀ (s : FState Dbl) (p : Sample Dbl) (i idx e : ℕ), P s → P (Fp.fmUpdate sqrt pow c dim p i idx e s)) :
    ∀ (n i : ℕ) (s : FState Dbl) (e : ℕ), P s → e ≤ i → i + n ≤ s.index.length →
      P (Fp.fmScan sqrt pow c dim samples (List.range' i n) s e).1 ∧
      (Fp.fmScan sqrt pow c dim samples (List.range' i n) s e).1.index.Perm s.index := by
  intro n
  induction n with
  | zero => intro i s e h _ _; simp [Fp.fmScan, h]
  | succ n ih =>
    intro i s e h he hi
    rw [List.range'_succ]
    simp only [Fp.fmScan]
    split
    · have hperm : (Fp.fmUpdate sqrt pow c dim (samples.getD (s.index.getD i 0) ⟨[], .fin 0⟩) i (s.index.getD i 0) e s).index.Perm s.index := by
        simp only [Fp.fmUpdate]
        exact Perc.swap_perm _ _ _ (by split <;> omega) (by omega)
      obtain ⟨h1, h2⟩ := ih (i+1) _ (e+1) (hP s (samples.getD (s.index.getD i 0) ⟨[], .fin 0⟩) i (s.index.getD i 0) e h) (by omega)
        (by rw [hperm.length_eq]; omega)
      exact ⟨h1, h2.trans hperm⟩
    · split
      · exact ⟨h, List.Perm.refl _⟩
      · exact ih (i+1) s e h (by omega) (by omega)

/-- A successful training ends with a pass without mistakes, in a state with every kept property. -/
theorem fm_success (c : FCfg Dbl) (clock : ℕ → Bool) (dim : ℕ) (samples : List (Sample Dbl)) (s0 s : FState Dbl) (P : FState Dbl → Prop)
    (hP : ∀ (s : FState Dbl) (p : Sample Dbl) (i idx e : ℕ), P s → P (Fp.fmUpdate sqrt pow c dim p i idx e s))
    (hsteps : ∀ (s : FState Dbl) (n : ℕ), P s → P { s with steps := n })
    (h0 : P { s0 with w := if s0.w = [] then List.replicate dim (.fin 0) else s0.w, s := 0, largw := .fin 0, n := dim })
    (hperm : s0.index.Perm (List.range samples.length)) (hc : clock 0 = true)
    (h : Fp.fmTrain sqrt pow c clock dim samples s0 = .ok (true, s)) :
    P s ∧ s.index.Perm (List.range samples.length) ∧
    ∀ i (hi : i < samples.length), (samples[i].y.mul (Fp.decision dim s.w samples[i].x s.bias)).le
      ((c.gamma.mul s.norm).sub ((s.alphas.getD i (.fin 0)).mul c.flexible)) = false := by
  unfold Fp.fmTrain at h
  generalize (if s0.w = [] then List.replicate dim (.fin 0) else s0.w) = w at h h0
  dsimp only at h
  split at h
  · simp at h
  · have hpass : ∀ t : FState Dbl, P t ∧ t.index.Perm (List.range samples.length) →
        P (Fp.fmPass sqrt pow c dim samples t).1 ∧ (Fp.fmPass sqrt pow c dim samples t).1.index.Perm (List.range samples.length) := by
      intro t ht
      have := fmScan_keeps sqrt pow c dim samples P hP samples.length 0 t 0 ht.1 (le_refl _) (by rw [ht.2.length_eq]; simp)
      rw [← List.range_eq_range'] at this
      simp only [Fp.fmPass]
      exact ⟨hsteps _ _ this.1, this.2.trans ht.2⟩
    obtain ⟨s1, hP1, hs1⟩ := Perc.epochs_last (Fp.fmPass sqrt pow c dim samples) (fun s => s.steps > c.maxIt ∨ s.ctot > c.maxUp) clock
      (fun t => P t ∧ t.index.Perm (List.range samples.length)) (fun t ht _ => hpass t ht) (c.maxIt + 1 - s0.steps) 0
      { s0 with w := w, s := 0, largw := .fin 0, n := dim } 0 ⟨h0, hperm⟩ hc
    rw [hs1] at h
    simp only [Except.ok.injEq, Prod.mk.injEq, decide_eq_true_eq] at h
    obtain ⟨he, hs⟩ := h
    refine ⟨by rw [← hs]; exact (hpass s1 hP1).1, by rw [← hs]; exact (hpass s1 hP1).2, ?_⟩
    simp only [Fp.fmPass] at he hs
    obtain ⟨-, h2, h3⟩ := fmScan_clean sqrt pow c dim samples (List.range samples.length) s1
      (Fp.fmScan sqrt pow c dim samples (List.range samples.length) s1 0).1 0 (Prod.ext rfl he)
    rw [h2] at hs
    rw [← hs]
    intro i hi
    have hmem : i ∈ s1.index := hP1.2.mem_iff.mpr (by simpa using hi)
    obtain ⟨k, hk, hki⟩ := List.mem_iff_getElem.mp hmem
    have hk' : k < samples.length := by rw [hP1.2.length_eq] at hk; simpa using hk
    have := h3 k (by simpa using hk')
    rw [Perc.getD_lt _ _ _ hk, hki, Perc.getD_lt _ _ _ hi] at this
    exact this

theorem above_of_not_le {a b : Dbl} (ha : a ≠ .nan) (hb : b ≠ .nan) (h : a.le b = false) : b.lt a = true := by
  cases a with
  | nan => exact absurd rfl ha
  | fin p => cases b with
    | nan => exact absurd rfl hb
    | fin q => simpa [Dbl.le, Dbl.lt] using h
    | inf t => simp_all [Dbl.le, Dbl.lt]
  | inf u => cases b with
    | nan => exact absurd rfl hb
    | fin q => simp_all [Dbl.le, Dbl.lt]
    | inf t => cases u <;> cases t <;> simp_all [Dbl.le, Dbl.lt]

/-- **C238 (margin)** (partial: see the refutation for NaN)  When `PerceptronFixedMarginPrimal::train` reports success after at least one pass,
every sample is beyond the margin asked for: `y * f(x) > gamma * norm - alpha * flexible`, as computed with the final weights, bias,
norm and multipliers, unless one of the two sides is NaN. -/
theorem C238_margin_partial (c : FCfg Dbl) (clock : ℕ → Bool) (dim : ℕ) (samples : List (Sample Dbl)) (s0 s : FState Dbl)
    (hperm : s0.index.Perm (List.range samples.length)) (hc : clock 0 = true)
    (h : Fp.fmTrain sqrt pow c clock dim samples s0 = .ok (true, s)) :
    s.index.Perm (List.range samples.length) ∧
    ∀ i (hi : i < samples.length), samples[i].y.mul (Fp.decision dim s.w samples[i].x s.bias) ≠ .nan →
      (c.gamma.mul s.norm).sub ((s.alphas.getD i (.fin 0)).mul c.flexible) ≠ .nan →
      ((c.gamma.mul s.norm).sub ((s.alphas.getD i (.fin 0)).mul c.flexible)).lt
        (samples[i].y.mul (Fp.decision dim s.w samples[i].x s.bias)) = true := by
  obtain ⟨-, h2, h3⟩ := fm_success sqrt pow c clock dim samples s0 s (fun _ => True) (fun _ _ _ _ _ _ => trivial) (fun _ _ _ => trivial)
    trivial hperm hc h
  exact ⟨h2, fun i hi ha hb => above_of_not_le ha hb (h3 i hi)⟩

/-! ### labels -/

theorem notNeg_add {a b : Dbl} (ha : NotNeg a) (hb : NotNeg b) : NotNeg (a.add b) := by
  have hr : ∀ q : ℚ, 0 ≤ q → NotNeg (rnd q) := by
    intro q hq
    rcases rnd_D0 hq with ⟨x, hx, _, h0⟩ | hx
    · rw [hx]; simp [NotNeg, Dbl.lt, h0]
    · rw [hx]; rfl
  unfold NotNeg at ha hb
  cases a with
  | nan => cases b <;> rfl
  | fin p =>
    cases b with
    | nan => rfl
    | fin q =>
      simp only [Dbl.lt, decide_eq_false_iff_not, not_lt] at ha hb
      exact hr _ (by linarith)
    | inf t => cases t <;> simp_all [Dbl.lt, Dbl.add, NotNeg]
  | inf u =>
    cases b with
    | nan => cases u <;> rfl
    | fin q => cases u <;> simp_all [Dbl.lt, Dbl.add, NotNeg]
    | inf t => cases u <;> cases t <;> simp_all [Dbl.lt, Dbl.add, NotNeg]

theorem notNeg_abs (a : Dbl) : NotNeg a.abs := by
  cases a with
  | nan => rfl
  | fin q => simp [NotNeg, Dbl.abs, Dbl.lt]
  | inf t => rfl

theorem notNeg_square (a : Dbl) : NotNeg (a.mul a) := by
  cases a with
  | nan => rfl
  | fin q =>
    rcases rnd_D0 (mul_self_nonneg q) with ⟨x, hx, _, h0⟩ | hx
    · simp only [Dbl.mul]; rw [hx]; simp [NotNeg, Dbl.lt, h0]
    · simp only [Dbl.mul]; rw [hx]; rfl
  | inf t => cases t <;> rfl

theorem notNeg_sum (dim : ℕ) (f : Dbl → Dbl) (w : List Dbl) (hf : ∀ a, NotNeg (f a)) : NotNeg (fmSum dim f w) := by
  unfold fmSum
  induction dim with
  | zero => simp [NotNeg, Dbl.lt]
  | succ n ih =>
    rw [List.range_succ, List.foldl_append]
    exact notNeg_add ih (hf _)

theorem infStep_keeps (c : FCfg Dbl) (p : Sample Dbl) (norm largw : Dbl) (n : ℕ) (a : InfAcc Dbl) (j : ℕ) (h : NotNeg a.temp) :
    NotNeg (Fp.infStep c p norm largw n a j).temp ∧ (Fp.infStep c p norm largw n a j).w.length = a.w.length := by
  unfold Fp.infStep
  dsimp only
  generalize (if (largw.eq (.fin 0) || ((largw.sub (a.w.getD j (.fin 0)).abs).abs.div largw).lt c.eps) = true then _ else _ : Dbl) = v
  split
  · split
    · exact ⟨h, by simp⟩
    · split
      · exact ⟨notNeg_abs _, by simp⟩
      · exact ⟨h, by simp⟩
  · exact ⟨h, by simp⟩

theorem infFoldD_keeps (c : FCfg Dbl) (p : Sample Dbl) (norm largw : Dbl) (n : ℕ) (l : List ℕ) : ∀ a : InfAcc Dbl, NotNeg a.temp →
    NotNeg (l.foldl (Fp.infStep c p norm largw n) a).temp ∧ (l.foldl (Fp.infStep c p norm largw n) a).w.length = a.w.length := by
  induction l with
  | nil => intro a h; exact ⟨h, rfl⟩
  | cons j l ih =>
    intro a h
    obtain ⟨h1, h2⟩ := infStep_keeps c p norm largw n a j h
    obtain ⟨h3, h4⟩ := ih _ h1
    exact ⟨h3, h4.trans h2⟩

theorem fmUpdate_norm (hs : ∀ a, NotNeg a → NotNeg (sqrt a)) (hp : ∀ a b, NotNeg a → NotNeg (pow a b)) (c : FCfg Dbl) (dim : ℕ)
    (p : Sample Dbl) (i idx e : ℕ) (s : FState Dbl) :
    NotNeg (Fp.fmUpdate sqrt pow c dim p i idx e s).norm ∧ (Fp.fmUpdate sqrt pow c dim p i idx e s).w.length = s.w.length := by
  simp only [Fp.fmUpdate, Fp.fmWeights]
  cases hq : c.q with
  | one => exact ⟨notNeg_sum _ _ _ notNeg_abs, by simp [fmShift]⟩
  | two => exact ⟨hs _ (notNeg_sum _ _ _ notNeg_square), by simp [fmShift]⟩
  | inf => exact infFoldD_keeps c p _ _ _ _ _ (notNeg_abs _)
  | other q => exact ⟨hp _ _ (notNeg_sum _ _ _ fun a => hp _ _ (notNeg_abs a)), by simp [fmShift]⟩

/-- **C238 (labels)** (partial: see the refutation for NaN)  After a training without flexibility that reports success, `evaluate` answers
every training sample labelled 1 or -1 by its label, provided the final norm, the sample's multiplier and the value computed for it
are numbers (the value may be infinite).  The margin of the solution is 0, as it is unless an initial solution brought one.  Of `sqrt` and
`pow` only the signs are used. -/
theorem C238_labels_partial (hs : ∀ a, NotNeg a → NotNeg (sqrt a)) (hp : ∀ a b, NotNeg a → NotNeg (pow a b)) (c : FCfg Dbl)
    (clock : ℕ → Bool) (dim : ℕ) (samples : List (Sample Dbl)) (s0 s : FState Dbl) (g n : ℚ)
    (hperm : s0.index.Perm (List.range samples.length)) (hc : clock 0 = true) (hx : ∀ p ∈ samples, p.x.length = dim)
    (hw : s0.w = [] ∨ s0.w.length = dim) (hn0 : NotNeg s0.norm) (hflex : c.flexible = .fin 0) (hg : c.gamma = .fin g) (hg0 : 0 ≤ g)
    (h : Fp.fmTrain sqrt pow c clock dim samples s0 = .ok (true, s)) (hn : s.norm = .fin n) :
    ∀ i (hi : i < samples.length), (∃ a, s.alphas.getD i (.fin 0) = .fin a) → Fp.decision dim s.w samples[i].x s.bias ≠ .nan →
      (samples[i].y = .fin 1 → Fp.fmEvaluate s.w samples[i].x s.bias (.fin 0) s.norm = 1) ∧
      (samples[i].y = .fin (-1) → Fp.fmEvaluate s.w samples[i].x s.bias (.fin 0) s.norm = -1) := by
  have z0 : rnd 0 = .fin 0 := rnd_eq_zero.2 near_zero
  obtain ⟨⟨hN, hlen⟩, -, h3⟩ := fm_success sqrt pow c clock dim samples s0 s (fun s => NotNeg s.norm ∧ s.w.length = dim)
    (fun s p i idx e h => ⟨(fmUpdate_norm sqrt pow hs hp c dim p i idx e s).1, (fmUpdate_norm sqrt pow hs hp c dim p i idx e s).2.trans h.2⟩)
    (fun _ _ h => h)
    ⟨hn0, by
      rcases hw with hw | hw
      · simp [hw]
      · dsimp only
        split
        · simp
        · exact hw⟩ hperm hc h
  intro i hi ⟨a, ha⟩ hf
  have hn' : 0 ≤ n := by rw [hn] at hN; simpa [NotNeg, Dbl.lt] using hN
  have hle := h3 i hi
  rw [ha, hflex, hg, hn] at hle
  have ht : (((Dbl.fin g).mul (.fin n)).sub ((Dbl.fin a).mul (.fin 0))) = .inf false ∨
      ∃ t, (((Dbl.fin g).mul (.fin n)).sub ((Dbl.fin a).mul (.fin 0))) = .fin t ∧ 0 ≤ t := by
    simp only [Dbl.mul, mul_zero, z0]
    rcases rnd_D0 (mul_nonneg hg0 hn') with ⟨x, hx, hd, hx0⟩ | hx
    · right
      refine ⟨x, ?_, hx0⟩
      rw [hx]
      simp only [Dbl.sub, Dbl.neg, Dbl.add, neg_zero, add_zero]
      exact hd
    · left; rw [hx]; rfl
  have hzero : ∀ v : Dbl, v.le (((Dbl.fin g).mul (.fin n)).sub ((Dbl.fin a).mul (.fin 0))) = false → v.le (.fin 0) = false := by
    intro v hv
    rcases ht with ht | ⟨t, ht, h0⟩
    · rw [ht] at hv
      cases v with
      | nan => rfl
      | fin q => simp [Dbl.le] at hv
      | inf u => cases u <;> simp [Dbl.le] at hv
    · rw [ht] at hv
      cases v with
      | nan => rfl
      | fin q => simp only [Dbl.le, decide_eq_false_iff_not, not_le] at hv ⊢; linarith
      | inf u => exact hv
  have hle0 := hzero _ hle
  have hsg := sign_of_not_le hf
  unfold Fp.fmEvaluate
  rw [if_neg (by rw [hx _ (List.getElem_mem hi), hlen]; simp), hlen, hn]
  simp only [Dbl.mul, zero_mul, z0]
  refine ⟨fun hy => ?_, fun hy => ?_⟩
  · rw [hy] at hle0
    rw [if_pos (hsg.1 (by simpa using hle0))]
  · rw [hy] at hle0
    rw [if_neg (by rw [hsg.2 (by simpa using hle0)]; simp)]

/-- The 1-norm trainer uses no library function. -/
theorem fmTrain_one (c : FCfg Dbl) (hq : c.q = .one) : Fp.fmTrain sqrt pow c = Fp.fmTrain id (fun a _ => a) c := by
  have hu : ∀ dim p i idx e s, Fp.fmUpdate sqrt pow c dim p i idx e s = Fp.fmUpdate id (fun a _ => a) c dim p i idx e s := by
    intro dim p i idx e s
    simp only [Fp.fmUpdate, Fp.fmWeights, hq]
  have hs : ∀ dim samples l s e, Fp.fmScan sqrt pow c dim samples l s e = Fp.fmScan id (fun a _ => a) c dim samples l s e := by
    intro dim samples l
    induction l with
    | nil => intro s e; rfl
    | cons i l ih => intro s e; simp only [Fp.fmScan, ih, hu]
  have hp : ∀ dim samples, Fp.fmPass sqrt pow c dim samples = Fp.fmPass id (fun a _ => a) c dim samples := by
    intro dim samples
    funext s
    simp only [Fp.fmPass, hs]
  funext clock dim samples s0
  simp only [Fp.fmTrain, hp]

/-- One point with two labels. -/
def bothLabels : List (Sample Dbl) := [⟨[.fin (1 / 2 ^ 1050)], .fin 1⟩, ⟨[.fin (1 / 2 ^ 1050)], .fin (-1)⟩]

/-- **C238 (refuted)** One point of size 2^-1050 labelled both 1 and -1: with the rate, margin and limits below and the 1-norm, training
reports success although no hyperplane answers both labels, and the final norm is a number: the
multipliers have become NaN, so the threshold is NaN, and a comparison with NaN counts as no mistake. -/
theorem C238_nan_refuted :
    (Fp.fmTrain sqrt pow ⟨.fin 1, .fin 1, .fin 0, .fin (1 / 2 ^ 20), .one, 100, 100⟩ (fun _ => true) 1 bothLabels
      ⟨[], .fin 0, .fin 0, [.fin 0, .fin 0], [0, 1], 0, .fin 0, 0, 0, 0⟩).toOption.map
      (fun r => (r.1, r.2.norm, r.2.alphas, bothLabels.map (fun p => Fp.fmEvaluate r.2.w p.x r.2.bias (.fin 0) r.2.norm))) =
    some (true, .fin 1, [.inf true, .nan], [-1, -1]) := by
  rw [fmTrain_one _ _ _ rfl]
  decide +kernel

/-- The hypotheses are met: a run on three samples with a margin of 1/4. -/
example : (Fp.fmTrain id (fun a _ => a) ⟨.fin 1, .fin (1 / 4), .fin 0, .fin (1 / 2 ^ 20), .one, 100, 100⟩ (fun _ => true) 2
      [⟨[.fin 2, .fin 1], .fin 1⟩, ⟨[.fin (-1), .fin 1], .fin (-1)⟩, ⟨[.fin 1, .fin (-3)], .fin (-1)⟩]
      ⟨[], .fin 0, .fin 0, [.fin 0, .fin 0, .fin 0], [0, 2, 1], 0, .fin 0, 0, 0, 0⟩).toOption.map
      (fun r => (r.1, decide (1 < r.2.steps), [[.fin 2, .fin 1], [.fin (-1), .fin 1], [.fin 1, .fin (-3)]].map
        (fun x => Fp.fmEvaluate r.2.w x r.2.bias (.fin 0) r.2.norm))) =
    some (true, true, [1, -1, -1]) := by decide +kernel

/-- And `sqrt` and `pow` as required exist. -/
example : ∃ (sqrt : Dbl → Dbl) (pow : Dbl → Dbl → Dbl), (∀ a, NotNeg a → NotNeg (sqrt a)) ∧ ∀ a b, NotNeg a → NotNeg (pow a b) :=
  ⟨id, fun a _ => a, fun _ h => h, fun _ _ h => h⟩

end MLTK.Props
