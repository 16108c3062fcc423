import Mathlib.Data.Rat.Floor
import Mathlib.Tactic.NormNum
import Mathlib.Algebra.Order.Ring.Rat
import Verif.Lemmas.Perceptron
/-!
# Perceptrons: C35-C38, C66
-/
namespace MLTK.Props
open MLTK.Perc MLTK.Spec

section
variable {K : Type} [Field K] [LinearOrder K]

/-- **C35.**  If `PerceptronPrimal::train` returns true and the timer let at least one pass run, every
training sample is strictly on its side, whatever the samples, rate, start vector, order and limits. -/
theorem C35_success_separates_partial (m : Libm K) (cfg : Cfg K) (clock : Nat → Bool) (dim : Nat)
    (samples : List (Sample K)) (index : List Nat) (s0 s : PState K)
    (hperm : index.Perm (List.range samples.length)) (hc : clock 0 = true)
    (h : primalTrain m cfg clock dim samples index s0 = .ok (true, s)) :
    SeparatesAll dim s.w s.bias samples := by
  obtain ⟨-, h'⟩ := primalTrain_inv h
  obtain ⟨s1, -, hs1⟩ := epochs_last (primalPass m dim cfg.rate samples index)
    (fun s => s.steps > cfg.maxIt ∨ s.ctot > cfg.maxUp) clock (fun _ => True) (fun _ _ _ => trivial)
    (cfg.maxIt + 1 - s0.steps) 0
    { s0 with w := if s0.w = [] then List.replicate dim 0 else s0.w, bias := 0, norm := 0 } 0 trivial hc
  obtain ⟨he, hs⟩ := h' _ hs1
  have he : (primalPass m dim cfg.rate samples index s1).2 = 0 := by simpa using he
  simp only [primalPass] at he hs
  obtain ⟨-, h2, h3⟩ := primalScan_zero m dim cfg.rate samples (index.take samples.length) s1
    (primalScan m dim cfg.rate samples (index.take samples.length) s1 0).1 0 (Prod.ext rfl he)
  intro p hp
  obtain ⟨i, hi, rfl⟩ := List.mem_iff_getElem.mp hp
  have hmem : i ∈ index.take samples.length := by
    rw [List.take_of_length_le (by rw [hperm.length_eq]; simp)]
    exact hperm.mem_iff.mpr (by simpa using hi)
  have := h3 i hmem
  rw [getD_lt _ _ _ hi, decision_eq, not_le] at this
  rw [h2] at hs
  rw [← hs]
  exact this

/-- **C35**, as seen through `evaluate`: with labels ±1 the trained classifier answers the label. -/
theorem C35_success_classifies_partial [IsStrictOrderedRing K] (m : Libm K) (cfg : Cfg K)
    (clock : Nat → Bool) (dim : Nat)
    (samples : List (Sample K)) (index : List Nat) (s0 s : PState K)
    (hperm : index.Perm (List.range samples.length)) (hc : clock 0 = true)
    (h : primalTrain m cfg clock dim samples index s0 = .ok (true, s))
    (hw : s.w.length = dim) (hd : ∀ p ∈ samples, p.x.length = dim) (hl : PlusMinus samples) :
    ∀ p ∈ samples, ((primalEvaluate s.w p.x s.bias : Int) : K) = p.y := by
  intro p hp
  have hs := C35_success_separates_partial m cfg clock dim samples index s0 s hperm hc h p hp
  unfold primalEvaluate
  rw [if_neg (by rw [hw, hd p hp]; simp), hw, decision_eq]
  rcases hl p hp with hy | hy
  · rw [hy, one_mul] at hs
    rw [if_pos (le_of_lt hs), hy]; simp
  · rw [hy] at hs
    rw [if_neg (by rw [not_le]; linarith), hy]; simp

/-- **C35 refuted.**  When the timer has expired before the first pass, `train` returns true although
nothing was processed: for every training set, limits and rate. -/
theorem C35_expired_timer_refuted (m : Libm K) (cfg : Cfg K) (clock : Nat → Bool) (dim : Nat)
    (samples : List (Sample K)) (index : List Nat) (s0 : PState K) (hc : clock 0 = false)
    (hw : s0.w = []) (p : Sample K) (hp : p ∈ samples) :
    ∃ s, primalTrain m cfg clock dim samples index s0 = .ok (true, s) ∧
      ¬ SeparatesAll dim s.w s.bias samples := by
  refine ⟨{ s0 with w := List.replicate dim 0, bias := 0, norm := 0 }, ?_, ?_⟩
  · have : ∀ n s, epochs (primalPass m dim cfg.rate samples index)
        (fun s => s.steps > cfg.maxIt ∨ s.ctot > cfg.maxUp) clock n 0 s 0 = (s, 0) := by
      intro n s; cases n <;> (rw [epochs]; simp [hc])
    simp only [primalTrain, hw, if_true, this]
    simp [hc]
  · intro h
    have := h p hp
    rw [affine, ip_zero _ _ _ (fun a ha => List.eq_of_mem_replicate ha)] at this
    simp at this

end

/-- Dummy library functions: the primal perceptron's answers do not depend on them. -/
def dummyLibm : Libm ℚ := { sqrt := id, pow := fun a _ => a }

/-- A training set in the plane. -/
def exSamples : List (Sample ℚ) := [⟨[2, 1], 1⟩, ⟨[-1, 1], -1⟩, ⟨[1, -3], -1⟩]

/-- The hypotheses of C35 are met by an actual successful run making several passes. -/
example : ∃ s, primalTrain dummyLibm ⟨1/2, 100, 100⟩ (fun _ => true) 2 exSamples [2, 0, 1] ⟨[], 0, 0, 0, 0⟩ =
    .ok (true, s) ∧ 1 < s.steps ∧ s.w.length = 2 := by
  exact ok_of_check _ (by decide +kernel)

section
variable {K : Type} [Field K] [LinearOrder K] [IsStrictOrderedRing K]

/-- Some hyperplane of unit (augmented) norm separates the augmented samples with margin `gamma`. -/
def Spec.Margin (dim : Nat) (samples : List (Sample K)) (u : List K) (ub gamma : K) : Prop :=
  ip dim u u + ub ^ 2 = 1 ∧ ∀ p ∈ samples, gamma ≤ p.y * affine dim u ub p.x

omit [LinearOrder K] [IsStrictOrderedRing K] in
theorem sq_label {samples : List (Sample K)} (hl : PlusMinus samples) (p : Sample K) (hp : p ∈ samples) :
    p.y ^ 2 = 1 := by
  rcases hl p hp with h | h <;> rw [h] <;> ring

theorem nov_pass (m : Libm K) (dim : Nat) (samples : List (Sample K)) (index : List Nat)
    (rate gamma R : K) (u : List K) (ub : K) (hr : 0 < rate) (hl : PlusMinus samples)
    (hm : Spec.Margin dim samples u ub gamma) (hR : ∀ p ∈ samples, ip dim p.x p.x + 1 ≤ R ^ 2)
    (hidx : ∀ i ∈ index.take samples.length, i < samples.length) (c0 : Nat) (s : PState K)
    (hs : NovInv dim rate gamma (R ^ 2) u ub c0 s) :
    NovInv dim rate gamma (R ^ 2) u ub c0 (primalPass m dim rate samples index s).1 ∧
    (primalPass m dim rate samples index s).1.steps = s.steps + 1 ∧
    (primalPass m dim rate samples index s).1.ctot = s.ctot + (primalPass m dim rate samples index s).2 := by
  obtain ⟨h1, h2, h3⟩ := primalScan_inv m dim rate samples (index.take samples.length)
    (NovInv dim rate gamma (R ^ 2) u ub c0) (fun s i hi h hmis => by
      have hlt := hidx i hi
      have hmem : samples.getD i default ∈ samples := by
        rw [getD_lt _ _ _ hlt]; exact List.getElem_mem hlt
      exact h.update m hr.le _ (sq_label hl _ hmem) (hm.2 _ hmem) (hR _ hmem) hmis) s 0 hs
  simp only [primalPass]
  exact ⟨⟨h1.len, h1.cnt, h1.lower, h1.upper⟩, by rw [h2], by simpa using h3⟩

omit [IsStrictOrderedRing K] in
theorem nov_start (dim : Nat) (rate gamma R : K) (u : List K) (ub : K) (s0 : PState K)
    (hz : ∀ a ∈ s0.w, a = 0) (hlen : s0.w ≠ [] → dim ≤ s0.w.length) :
    NovInv dim rate gamma (R ^ 2) u ub s0.ctot
      { s0 with w := if s0.w = [] then List.replicate dim 0 else s0.w, bias := 0, norm := 0 } := by
  have hz' : ∀ a ∈ (if s0.w = [] then List.replicate dim 0 else s0.w), a = 0 := by
    split
    · intro a ha; exact List.eq_of_mem_replicate ha
    · exact hz
  refine ⟨?_, le_refl _, ?_, ?_⟩
  · simp only; split
    · simp
    · exact hlen (by assumption)
  · simp only; rw [ip_comm, ip_zero _ _ _ hz']; simp
  · simp only; rw [ip_zero _ _ _ hz']; simp

/-- **C36.**  Novikoff's bound for the training loop itself: from the zero vector, on data separated with
margin `gamma` by a unit hyperplane and of augmented norm at most `R`, `train` makes at most
`(R / gamma)²` updates, for every order of presentation, rate, limits and clock. -/
theorem C36_mistake_bound (m : Libm K) (cfg : Cfg K) (clock : Nat → Bool) (dim : Nat)
    (samples : List (Sample K)) (index : List Nat) (s0 s : PState K) (ok : Bool)
    (u : List K) (ub gamma R : K) (hr : 0 < cfg.rate) (hg : 0 < gamma) (hl : PlusMinus samples)
    (hm : Spec.Margin dim samples u ub gamma) (hR : ∀ p ∈ samples, ip dim p.x p.x + 1 ≤ R ^ 2)
    (hz : ∀ a ∈ s0.w, a = 0)
    (h : primalTrain m cfg clock dim samples index s0 = .ok (ok, s)) :
    s0.ctot ≤ s.ctot ∧ (((s.ctot - s0.ctot : Nat) : K)) ≤ (R / gamma) ^ 2 := by
  have key : ∀ t : PState K, NovInv dim cfg.rate gamma (R ^ 2) u ub s0.ctot t →
      s0.ctot ≤ t.ctot ∧ (((t.ctot - s0.ctot : Nat) : K)) ≤ (R / gamma) ^ 2 := by
    intro t ht
    refine ⟨ht.cnt, ?_⟩
    have hb := ht.bound hr hg hm.1 (sq_nonneg R)
    rw [Nat.cast_sub ht.cnt, div_pow, le_div_iff₀ (by positivity)]
    exact hb
  obtain ⟨hrange, h'⟩ := primalTrain_inv h
  by_cases hc : clock 0 = true
  · have hin : inRange dim samples index (if s0.w = [] then List.replicate dim 0 else s0.w) = true := by
      simpa [hc] using hrange
    rw [inRange_iff] at hin
    have hstart := nov_start dim cfg.rate gamma R u ub s0 hz (fun hne => by
      have := hin.2.2.2; rwa [if_neg hne] at this)
    obtain ⟨s1, hP, hs1⟩ := epochs_last (primalPass m dim cfg.rate samples index)
      (fun s => s.steps > cfg.maxIt ∨ s.ctot > cfg.maxUp) clock
      (NovInv dim cfg.rate gamma (R ^ 2) u ub s0.ctot)
      (fun t ht _ => (nov_pass m dim samples index cfg.rate gamma R u ub hr hl hm hR hin.2.1 s0.ctot t ht).1)
      (cfg.maxIt + 1 - s0.steps) 0 _ 0 hstart hc
    rw [← (h' _ hs1).2]
    exact key _ (nov_pass m dim samples index cfg.rate gamma R u ub hr hl hm hR hin.2.1 s0.ctot s1 hP).1
  · have : ∀ n s, epochs (primalPass m dim cfg.rate samples index)
        (fun s => s.steps > cfg.maxIt ∨ s.ctot > cfg.maxUp) clock n 0 s 0 = (s, 0) := by
      intro n s; cases n <;> (rw [epochs]; simp [hc])
    rw [← (h' _ (this _ _)).2]
    exact ⟨le_refl _, by simp; positivity⟩

/-- **C36, convergence.**  On such data, with limits of at least `(R / gamma)²` passes and updates and a
clock that does not expire, a fresh perceptron's `train` returns true, hence separates the data. -/
theorem C36_converges (m : Libm K) (cfg : Cfg K) (clock : Nat → Bool) (dim : Nat)
    (samples : List (Sample K)) (index : List Nat)
    (u : List K) (ub gamma R : K) (hr : 0 < cfg.rate) (hg : 0 < gamma) (hl : PlusMinus samples)
    (hm : Spec.Margin dim samples u ub gamma) (hR : ∀ p ∈ samples, ip dim p.x p.x + 1 ≤ R ^ 2)
    (hx : ∀ p ∈ samples, dim ≤ p.x.length)
    (hperm : index.Perm (List.range samples.length)) (hclock : ∀ k, clock k = true)
    (hIt : (R / gamma) ^ 2 ≤ (cfg.maxIt : K)) (hUp : (R / gamma) ^ 2 ≤ (cfg.maxUp : K)) :
    ∃ s, primalTrain m cfg clock dim samples index ⟨[], 0, 0, 0, 0⟩ = .ok (true, s) ∧
      SeparatesAll dim s.w s.bias samples := by
  have hidx : ∀ i ∈ index.take samples.length, i < samples.length := by
    intro i hi
    simpa using hperm.mem_iff.mp (List.mem_of_mem_take hi)
  have hin : inRange dim samples index (List.replicate dim (0:K)) = true := by
    rw [inRange_iff]
    exact ⟨by rw [hperm.length_eq]; simp, hidx, hx, by simp⟩
  have hstart := nov_start dim cfg.rate gamma R u ub ⟨[], 0, 0, 0, 0⟩ (by simp) (by simp)
  simp only [if_true] at hstart
  have hp := fun t ht => nov_pass m dim samples index cfg.rate gamma R u ub hr hl hm hR hidx 0 t ht
  have hsteps : ∀ s, (primalPass m dim cfg.rate samples index s).1.steps = s.steps + 1 := by
    intro s
    have := (primalScan_inv m dim cfg.rate samples (index.take samples.length) (fun _ => True)
      (fun _ _ _ _ _ => trivial) s 0 trivial).2.1
    simp only [primalPass]; rw [this]
  obtain ⟨s1, ⟨hP, hle⟩, hs1, hend⟩ := epochs_halt (primalPass m dim cfg.rate samples index)
      (fun s => s.steps > cfg.maxIt ∨ s.ctot > cfg.maxUp) clock hclock (fun s => s.steps) cfg.maxIt
      hsteps (fun s hs => by simp [hs])
      (fun t => NovInv dim cfg.rate gamma (R ^ 2) u ub 0 t ∧ t.steps ≤ t.ctot)
      (fun t ht hne => ⟨(hp t ht.1).1, by rw [(hp t ht.1).2.1, (hp t ht.1).2.2]; have := ht.2; omega⟩)
      (cfg.maxIt + 1) 0 ⟨List.replicate dim 0, 0, 0, 0, 0⟩ 0 ⟨hstart, le_refl _⟩ (by simp)
  have hrun : primalTrain m cfg clock dim samples index ⟨[], 0, 0, 0, 0⟩ =
      .ok (decide ((primalPass m dim cfg.rate samples index s1).2 = 0),
        (primalPass m dim cfg.rate samples index s1).1) := by
    simp only [primalTrain, if_true, hin, Nat.sub_zero, hs1]
    simp
  have hzero : (primalPass m dim cfg.rate samples index s1).2 = 0 := by
    by_contra hne
    obtain ⟨q1, q2, q3⟩ := hp s1 hP
    have hb := q1.bound hr hg hm.1 (sq_nonneg R)
    rw [Nat.cast_zero, sub_zero, ← le_div_iff₀ (by positivity), ← div_pow] at hb
    have hcI : (primalPass m dim cfg.rate samples index s1).1.ctot ≤ cfg.maxIt :=
      Nat.cast_le.mp (hb.trans hIt)
    have hcU : (primalPass m dim cfg.rate samples index s1).1.ctot ≤ cfg.maxUp :=
      Nat.cast_le.mp (hb.trans hUp)
    rcases hend with h0 | h0
    · exact hne h0
    · simp only [decide_eq_true_eq] at h0
      rw [q2] at h0
      omega
  rw [hzero] at hrun
  refine ⟨_, hrun, ?_⟩
  exact C35_success_separates_partial m cfg clock dim samples index _ _ hperm (hclock 0) hrun

/-- The example set is separated by the unit hyperplane (3/5, 4/5, 0) — margin 2/5 after a shift of the
third sample — and has augmented norm at most 4. -/
example : Spec.Margin 2 [⟨[2, 1], 1⟩, ⟨[-1, -1], (-1 : ℚ)⟩] [3/5, 4/5] 0 (7/5) ∧
    ∀ p ∈ ([⟨[2, 1], 1⟩, ⟨[-1, -1], -1⟩] : List (Sample ℚ)), ip 2 p.x p.x + 1 ≤ (3 : ℚ) ^ 2 := by
  simp [Spec.Margin, ip, affine, Finset.sum_range_succ]; norm_num

end

/-! ### C37 -/

/-- **C37, at every moment.**  From corresponding states, scanning any list of sample positions keeps the
primal and the linear-kernel dual perceptron in corresponding states (`SameModel`: `w = Σ αᵢ yᵢ xᵢ`,
equal biases, equal norms, equal to `‖w‖`, equal counters) and finds the same number of mistakes. -/
theorem C37_scan (dim : Nat) (samples : List (Sample ℝ)) (rate : ℝ) (hy : PlusMinus samples)
    (l : List Nat) (hl : ∀ i ∈ l, i < samples.length) (p : PState ℝ) (d : DState ℝ) (e : Nat)
    (h : SameModel dim samples p d) :
    SameModel dim samples (primalScan realLibm dim rate samples l p e).1
        (dualScan realLibm rate (linKernel dim samples) samples l d e).1 ∧
    (primalScan realLibm dim rate samples l p e).2 =
        (dualScan realLibm rate (linKernel dim samples) samples l d e).2 :=
  SameModel.scan rate hy l hl p d e h

/-- **C37.**  Both trainers, run on the same samples in order 0..n-1 with any rate and limits, give the
same answer, bias, norm and numbers of updates and passes; the dual's reported `w` is the primal's and
`Σ αᵢ yᵢ xᵢ`; the reported norm is `‖w‖`. -/
theorem C37_train_agree (cfg : Cfg ℝ) (clock : Nat → Bool) (dim : Nat) (samples : List (Sample ℝ))
    (hy : PlusMinus samples) (hx : ∀ p ∈ samples, dim ≤ p.x.length) (hc : clock 0 = true)
    (b nn : ℝ) (c t : Nat) :
    ∃ (ok : Bool) (p : PState ℝ) (d : DState ℝ),
      primalTrain realLibm cfg clock dim samples (List.range samples.length) ⟨[], b, nn, c, t⟩ = .ok (ok, p) ∧
      dualTrain realLibm cfg clock (linKernel dim samples) dim samples ⟨[], 0, 0, c, t⟩ = .ok (ok, d, p.w) ∧
      p.bias = d.bias ∧ p.norm = d.norm ∧ p.ctot = d.ctot ∧ p.steps = d.steps ∧
      d.norm = Real.sqrt (ip dim p.w p.w) ∧ (∀ j, j < dim → p.w.getD j 0 = combo d.alpha samples j) := by
  have h0 : SameModel dim samples ⟨List.replicate dim 0, 0, 0, c, t⟩
      ⟨List.replicate samples.length 0, 0, 0, c, t⟩ := by
    have z : ∀ n j, (List.replicate n (0:ℝ)).getD j 0 = 0 := by
      intro n j
      simp only [List.getD_eq_getElem?_getD, List.getElem?_replicate]
      split <;> rfl
    refine ⟨?_, by simp, by simp, rfl, rfl, ?_, rfl, rfl⟩
    · intro j _
      simp only [combo, z]
      simp
    · simp only
      rw [ip_zero _ _ _ (fun a ha => List.eq_of_mem_replicate ha), Real.sqrt_zero]
  have hsim := epochs_sim (primalPass realLibm dim cfg.rate samples (List.range samples.length))
    (dualPass realLibm cfg.rate (linKernel dim samples) samples)
    (fun s => s.steps > cfg.maxIt ∨ s.ctot > cfg.maxUp) (fun s => s.steps > cfg.maxIt ∨ s.ctot > cfg.maxUp)
    clock (SameModel dim samples)
    (by
      intro s t h
      have := SameModel.scan (dim := dim) cfg.rate hy (List.range samples.length) (by simp) s t 0 h
      simp only [primalPass, dualPass]
      rw [List.take_of_length_le (by simp)]
      obtain ⟨⟨a1, a2, a3, a4, a5, a6, a7, a8⟩, e⟩ := this
      exact ⟨⟨a1, a2, a3, a4, a5, a6, a7, by simp only; rw [a8]⟩, e⟩)
    (by intro s t h; rw [h.steps, h.ctot])
    (cfg.maxIt + 1 - t) 0 _ _ 0 1 h0 (Or.inl hc)
  have hin : inRange dim samples (List.range samples.length) (List.replicate dim (0:ℝ)) = true := by
    rw [inRange_iff]
    exact ⟨by simp, by intro i hi; simpa using List.mem_of_mem_take hi, hx, by simp⟩
  have hdl : ¬ ((List.replicate samples.length (0:ℝ)).length < samples.length ∨
      ¬ ∀ p ∈ samples, dim ≤ p.x.length) := by
    simp only [List.length_replicate, lt_irrefl, false_or, not_not]
    exact hx
  generalize hP : epochs (primalPass realLibm dim cfg.rate samples (List.range samples.length))
    (fun s => s.steps > cfg.maxIt ∨ s.ctot > cfg.maxUp) clock (cfg.maxIt + 1 - t) 0
    ⟨List.replicate dim 0, 0, 0, c, t⟩ 0 = P at hsim
  generalize hD : epochs (dualPass realLibm cfg.rate (linKernel dim samples) samples)
    (fun s => s.steps > cfg.maxIt ∨ s.ctot > cfg.maxUp) clock (cfg.maxIt + 1 - t) 0
    ⟨List.replicate samples.length 0, 0, 0, c, t⟩ 1 = D at hsim
  obtain ⟨hS, he⟩ := hsim
  refine ⟨decide (P.2 = 0), P.1, D.1, ?_, ?_, hS.bias, hS.norm, hS.ctot, hS.steps, hS.euclid, hS.weights⟩
  · simp only [primalTrain, if_true, hin, hP]
    simp
  · simp only [dualTrain, if_true, hD, if_neg hdl, he]
    congr 2
    refine Prod.ext rfl ?_
    refine List.ext_getElem (by simp [dualWeights, hS.plen]) (fun j h1 h2 => ?_)
    have hj : j < dim := by rw [← hS.plen]; exact h2
    have := dualWeights_getD dim D.1.alpha samples j hj
    rw [getD_lt _ _ _ h1] at this
    rw [this, ← hS.weights j hj, getD_lt _ _ _ h2]

/-- The hypotheses of C37 are met by a two-dimensional training set. -/
example : PlusMinus ([⟨[2, 1], 1⟩, ⟨[-1, -1], -1⟩] : List (Sample ℝ)) ∧
    ∀ p ∈ ([⟨[2, 1], 1⟩, ⟨[-1, -1], -1⟩] : List (Sample ℝ)), 2 ≤ p.x.length := by
  simp [PlusMinus]

/-- **C37/C36 for the dual perceptron**: the mistake bound carries over to the dual trainer. -/
theorem C36_dual_mistake_bound (cfg : Cfg ℝ) (clock : Nat → Bool) (dim : Nat) (samples : List (Sample ℝ))
    (hy : PlusMinus samples) (hx : ∀ p ∈ samples, dim ≤ p.x.length) (hc : clock 0 = true)
    (u : List ℝ) (ub gamma R : ℝ) (hr : 0 < cfg.rate) (hg : 0 < gamma)
    (hm : Spec.Margin dim samples u ub gamma) (hR : ∀ p ∈ samples, ip dim p.x p.x + 1 ≤ R ^ 2)
    (ok : Bool) (d : DState ℝ) (w : List ℝ)
    (h : dualTrain realLibm cfg clock (linKernel dim samples) dim samples ⟨[], 0, 0, 0, 0⟩ = .ok (ok, d, w)) :
    (d.ctot : ℝ) ≤ (R / gamma) ^ 2 ∧ (ok = true → SeparatesAll dim w d.bias samples) := by
  obtain ⟨ok', p, d', h1, h2, h3, h4, h5, h6, h7, h8⟩ :=
    C37_train_agree cfg clock dim samples hy hx hc 0 0 0 0
  rw [h2] at h
  obtain ⟨rfl, hh⟩ := Prod.mk.inj (Except.ok.inj h)
  obtain ⟨rfl, rfl⟩ := Prod.mk.inj hh
  refine ⟨?_, ?_⟩
  · have := (C36_mistake_bound realLibm cfg clock dim samples _ _ p _ u ub gamma R hr hg hy hm hR (by simp) h1).2
    rw [← h5]; simpa using this
  · intro ht
    rw [ht] at h1
    rw [← h3]
    exact C35_success_separates_partial realLibm cfg clock dim samples _ _ p (List.Perm.refl _) hc h1

/-! ### C66 -/

section
variable {K : Type} [Field K] [LinearOrder K]

/-- **C66.**  For the linear kernel, a dual classifier with coefficients `alpha` and bias `b` evaluates at
every point as the primal classifier with its reported weight vector and the same bias. -/
theorem C66_dual_evaluates_like_weights (dim : Nat) (alpha : List K) (samples : List (Sample K)) (b : K)
    (x : List K) (ha : samples.length ≤ alpha.length) :
    dualEvaluate dim alpha samples b x (fun r => ip dim x (samples.getD r default).x) =
      .ok (primalEvaluate (dualWeights dim alpha samples) x b) := by
  have hl : (dualWeights dim alpha samples).length = dim := by simp [dualWeights]
  unfold dualEvaluate primalEvaluate
  rw [hl]
  by_cases hx : x.length = dim
  · have e := dualDecision_linear dim alpha samples x _ b (fun j hj => dualWeights_getD dim alpha samples j hj)
    rw [if_neg (not_not.mpr hx), if_neg (not_lt.mpr ha), if_neg (not_not.mpr hx), decision_eq, e]
  · rw [if_pos hx, if_pos hx]

/-- **C66**, in words: the answer is +1 exactly when `w·x + b ≥ 0` for the reported `w = Σ αᵢ yᵢ xᵢ`. -/
theorem C66_sign (dim : Nat) (alpha : List K) (samples : List (Sample K)) (b : K) (x : List K)
    (ha : samples.length ≤ alpha.length) (hx : x.length = dim) :
    dualEvaluate dim alpha samples b x (fun r => ip dim x (samples.getD r default).x) =
      .ok (if 0 ≤ affine dim (dualWeights dim alpha samples) b x then 1 else -1) ∧
    ∀ j, j < dim → (dualWeights dim alpha samples).getD j 0 = combo alpha samples j := by
  refine ⟨?_, fun j hj => dualWeights_getD dim alpha samples j hj⟩
  rw [C66_dual_evaluates_like_weights dim alpha samples b x ha, primalEvaluate]
  have hl : (dualWeights dim alpha samples).length = dim := by simp [dualWeights]
  rw [hl, if_neg (by simpa using hx), decision_eq]

end

example : dualEvaluate 2 [1, 1/2, 0] exSamples (1/4 : ℚ) [-3, 1]
    (fun r => ip 2 [-3, 1] (exSamples.getD r default).x) = .ok (-1) := by
  have h : ∀ r, ip 2 ([-3, 1] : List ℚ) (exSamples.getD r default).x =
      -3 * (exSamples.getD r default).x.getD 0 0 + 1 * (exSamples.getD r default).x.getD 1 0 := by
    intro r; simp [ip, Finset.sum_range_succ]
  simp only [h]
  decide +kernel

/-! ### C38 -/

section
variable {K : Type} [Field K] [LinearOrder K]

/-- **C38 (margin and order), every `q`.**  If the primal fixed-margin trainer reports success after at
least one pass, every sample satisfies `y(w·x+b) > γ·N − α·flexibility`, where `N` is the norm the
solution reports, and the order of presentation is still a permutation of the samples. -/
theorem C38_margin_partial (m : Libm K) (c : FCfg K) (clock : Nat → Bool) (dim : Nat)
    (samples : List (Sample K)) (s0 s : FState K) (hperm : s0.index.Perm (List.range samples.length))
    (hc : clock 0 = true) (h : fmTrain m c clock dim samples s0 = .ok (true, s)) :
    s.index.Perm (List.range samples.length) ∧
    ∀ i (hi : i < samples.length), c.gamma * s.norm - s.alphas.getD i 0 * c.flexible <
      samples[i].y * affine dim s.w s.bias samples[i].x := by
  have h' := fmTrain_inv h
  have hpass : ∀ s : FState K, s.index.Perm (List.range samples.length) →
      (fmPass m c dim samples s).1.index.Perm (List.range samples.length) := by
    intro s hs
    have := (fmScan_inv m c dim samples (fun _ => True) (fun _ _ _ _ _ _ => trivial) samples.length 0 s 0
      trivial (le_refl _) (by rw [hs.length_eq]; simp)).2
    simp only [fmPass, List.range_eq_range'] at this ⊢
    exact this.trans (by rw [← List.range_eq_range']; exact hs)
  obtain ⟨s1, hP, hs1⟩ := epochs_last (fmPass m c dim samples)
    (fun s => s.steps > c.maxIt ∨ s.ctot > c.maxUp) clock
    (fun s => s.index.Perm (List.range samples.length)) (fun s hs _ => hpass s hs)
    (c.maxIt + 1 - s0.steps) 0
    { s0 with w := if s0.w = [] then List.replicate dim 0 else s0.w, s := 0, largw := 0, n := dim } 0 hperm hc
  obtain ⟨he, hs⟩ := h' _ hs1
  have he : (fmPass m c dim samples s1).2 = 0 := by simpa using he
  refine ⟨by rw [← hs]; exact hpass s1 hP, ?_⟩
  simp only [fmPass] at he hs
  obtain ⟨-, h2, h3⟩ := fmScan_zero m c dim samples (List.range samples.length) s1
    (fmScan m c dim samples (List.range samples.length) s1 0).1 0 (Prod.ext rfl he)
  rw [h2] at hs
  rw [← hs]
  intro i hi
  have hmem : i ∈ s1.index := hP.mem_iff.mpr (by simpa using hi)
  obtain ⟨k, hk, hki⟩ := List.mem_iff_getElem.mp hmem
  have hk' : k < samples.length := by rw [hP.length_eq] at hk; simpa using hk
  have := h3 k (by simpa using hk')
  rw [getD_lt s1.index 0 k hk, hki, getD_lt samples default i hi, decision_eq] at this
  exact this

end

/-- **C38 (the norm), `q ≠ -1`.**  For the 1-, 2- and general `q`-norm trainers the reported norm is the
`q`-norm of the reported weights, so the margin of the previous theorem is the requested one. -/
theorem C38_requested_margin_partial (c : FCfg ℝ) (clock : Nat → Bool) (dim : Nat)
    (samples : List (Sample ℝ)) (s0 s : FState ℝ) (hperm : s0.index.Perm (List.range samples.length))
    (hc : clock 0 = true) (hq : c.q ≠ .inf)
    (hn : s0.norm = qnorm c.q dim s0.w)
    (h : fmTrain realLibm c clock dim samples s0 = .ok (true, s)) :
    s.norm = qnorm c.q dim s.w ∧
    ∀ i (hi : i < samples.length), c.gamma * qnorm c.q dim s.w - s.alphas.getD i 0 * c.flexible <
      samples[i].y * affine dim s.w s.bias samples[i].x := by
  have hnorm : s.norm = qnorm c.q dim s.w := by
    have h' := fmTrain_inv h
    have hupd : ∀ (s : FState ℝ) (p : Sample ℝ) (i idx e : Nat), s.norm = qnorm c.q dim s.w →
        (fmUpdate realLibm c dim p i idx e s).norm = qnorm c.q dim (fmUpdate realLibm c dim p i idx e s).w := by
      intro s p i idx e _
      simp only [fmUpdate, fmWeights]
      cases hqq : c.q with
      | one => simp only [qnorm, sumTo_eq]
      | two => simp only [qnorm, sumTo_eq, realLibm, pow_two]
      | inf => exact absurd hqq hq
      | other q => simp only [qnorm, sumTo_eq, realLibm]
    have hpass : ∀ s : FState ℝ, (s.index.Perm (List.range samples.length) ∧ s.norm = qnorm c.q dim s.w) →
        ((fmPass realLibm c dim samples s).1.index.Perm (List.range samples.length) ∧
          (fmPass realLibm c dim samples s).1.norm = qnorm c.q dim (fmPass realLibm c dim samples s).1.w) := by
      intro s hs
      have := fmScan_inv realLibm c dim samples (fun s => s.norm = qnorm c.q dim s.w) hupd samples.length 0 s 0
        hs.2 (le_refl _) (by rw [hs.1.length_eq]; simp)
      simp only [fmPass, List.range_eq_range'] at this ⊢
      exact ⟨this.2.trans (by rw [← List.range_eq_range']; exact hs.1), this.1⟩
    have hw0 : s0.norm = qnorm c.q dim (if s0.w = [] then List.replicate dim 0 else s0.w) := by
      split
      · rename_i hw
        rw [hn, hw]
        have z : ∀ j, (List.replicate dim (0:ℝ)).getD j 0 = 0 := by
          intro j
          simp only [List.getD_eq_getElem?_getD, List.getElem?_replicate]
          split <;> rfl
        cases c.q <;> simp only [qnorm, z, List.getD_nil]
      · exact hn
    obtain ⟨s1, hP, hs1⟩ := epochs_last (fmPass realLibm c dim samples)
      (fun s => s.steps > c.maxIt ∨ s.ctot > c.maxUp) clock
      (fun s => s.index.Perm (List.range samples.length) ∧ s.norm = qnorm c.q dim s.w) (fun s hs _ => hpass s hs)
      (c.maxIt + 1 - s0.steps) 0
      { s0 with w := if s0.w = [] then List.replicate dim 0 else s0.w, s := 0, largw := 0, n := dim } 0
      ⟨hperm, hw0⟩ hc
    rw [← (h' _ hs1).2]
    exact (hpass s1 hP).2
  refine ⟨hnorm, ?_⟩
  rw [← hnorm]
  exact (C38_margin_partial realLibm c clock dim samples s0 s hperm hc h).2

/-- The start condition `norm = ‖w‖` holds of a fresh solution. -/
example (dim : Nat) (q : ℝ) (hq : q ≠ 0) : (0:ℝ) = qnorm .one dim [] ∧ (0:ℝ) = qnorm .two dim [] ∧
    (0:ℝ) = qnorm (.other q) dim [] := by
  simp [qnorm, Real.zero_rpow hq]
  rcases Nat.eq_zero_or_pos dim with h | h <;> simp [h, Real.zero_rpow, hq]

/-- A successful run with a positive margin: 1-norm, γ = 1/4, flexibility 1/8, starting order 2,0,1. -/
example : ∃ s, fmTrain dummyLibm ⟨1/2, 1/4, 1/8, 1/1000, .one, 100, 100⟩ (fun _ => true) 2 exSamples
    ⟨[], 0, 0, [0, 0, 0], [2, 0, 1], 0, 0, 0, 0, 0⟩ = .ok (true, s) ∧ 0 < s.norm ∧ 2 < s.steps := by
  exact ok_of_check _ (by decide +kernel)

/-- **C38 refuted for `q = -1`.**  With one sample `x = (1), y = 1`, rate 1 and γ = 5 the trainer reports
success with a solution whose margin over the infinity norm is 2, not 5: the stored norm stays 0, because
the running maximum starts from the weight before the update. -/
theorem C38_infinity_norm_refuted :
    ∃ s : FState ℚ, fmTrain dummyLibm ⟨1, 5, 0, 1/1000, .inf, 100, 100⟩ (fun _ => true) 1 [⟨[1], 1⟩]
        ⟨[], 0, 0, [0], [0], 0, 0, 0, 0, 0⟩ = .ok (true, s) ∧
      s.w = [1] ∧ s.norm = 0 ∧ 1 * affine 1 s.w s.bias [1] = 2 * |s.w.getD 0 0| := by
  simp only [← decision_eq]
  exact ok_of_check _ (by decide +kernel)

section
variable {K : Type} [Field K] [LinearOrder K]

/-- **C38, dual trainer.**  If the dual fixed-margin trainer reports success, its cached function values
are the true ones (`b + Σ αᵢ yᵢ k(i,r)`), the order is a permutation and every sample satisfies
`y·f(x) > γ·N` with `N` the norm the trainer stored. -/
theorem C38_dual_margin_partial [IsStrictOrderedRing K] (m : Libm K) (c : FCfg K) (clock : Nat → Bool) (kv : Nat → Nat → K)
    (samples : List (Sample K)) (s0 s : GState K) (hperm : s0.index.Perm (List.range samples.length))
    (hc : clock 0 = true) (hf : s0.func = []) (hb : s0.bias = 0) (ha : ∀ a ∈ s0.alphas, a = 0)
    (h : gTrain m c clock kv samples s0 = .ok (true, s)) :
    s.index.Perm (List.range samples.length) ∧
    ∀ r (hr : r < samples.length), c.gamma * s.norm < samples[r].y *
      (s.bias + ∑ i ∈ Finset.range samples.length, s.alphas.getD i 0 * (samples.getD i default).y * kv i r) := by
  unfold gTrain at h
  simp only [hf, if_true] at h
  split at h
  · cases h
  rename_i hrange
  have hal : samples.length ≤ s0.alphas.length := by
    by_contra hh
    exact hrange ⟨hc, Or.inr (Or.inl (by omega))⟩
  cases hg : gLoop m c kv samples clock (c.maxIt + 1 - s0.steps) 0
      { s0 with func := List.replicate samples.length 0, s := 0 } 1 with
  | error x => rw [hg] at h; cases h
  | ok r =>
    rw [hg] at h
    obtain ⟨s', e'⟩ := r
    have h' := Prod.mk.inj (Except.ok.inj h)
    have he : e' = 0 := by simpa using h'.1
    subst he
    have hinv : GInv kv samples { s0 with func := List.replicate samples.length 0, s := 0 } := by
      refine ⟨?_, by simp, hal, hperm⟩
      intro r hr
      simp only [hb]
      have z : ∀ i, s0.alphas.getD i 0 = 0 := by
        intro i
        rw [List.getD_eq_getElem?_getD]
        cases hj : s0.alphas[i]? with
        | none => rfl
        | some a => exact ha a (List.mem_of_getElem? hj)
      simp only [z]
      simp [hr]
    obtain ⟨s1, s2, hI, hscan, hs'⟩ := gLoop_last m c kv samples clock _ _ _ _ _ _ hinv hc hg
    obtain ⟨-, h2, h3⟩ := gScan_zero m c kv samples _ s1 s2 0 hscan
    have hs : { s1 with steps := s1.steps + 1 } = s := by rw [← h'.2, hs', h2]
    rw [← hs]
    refine ⟨hI.perm, ?_⟩
    intro r hr
    have hmem : r ∈ s1.index := hI.perm.mem_iff.mpr (by simpa using hr)
    obtain ⟨k, hk, hki⟩ := List.mem_iff_getElem.mp hmem
    have hk' : k < samples.length := by rw [hI.perm.length_eq] at hk; simpa using hk
    have := h3 k (by simpa using hk')
    rw [getD_lt s1.index 0 k hk, hki, getD_lt samples default r hr, hI.func r hr, sub_pos] at this
    exact this

/-- **C38 refuted for the dual trainer, γ ≠ 0.**  From a fresh solution every run on non-empty data divides
by the norm 0 at the first sample, whatever the data, kernel and parameters (in the compiled program the
solution becomes NaN and the next pass reports success). -/
theorem C38_dual_fresh_refuted (m : Libm K) (c : FCfg K) (clock : Nat → Bool) (kv : Nat → Nat → K)
    (samples : List (Sample K)) (s0 : GState K) (hne : samples ≠ [])
    (hperm : s0.index.Perm (List.range samples.length)) (ha : samples.length ≤ s0.alphas.length)
    (hc : clock 0 = true) (hf : s0.func = []) (hn : s0.norm = 0) (hg : c.gamma ≠ 0) :
    gTrain m c clock kv samples s0 = .error .nonFinite := by
  have hin : inRange 0 samples s0.index ([] : List K) = true := by
    rw [inRange_iff]
    refine ⟨by rw [hperm.length_eq]; simp, ?_, by simp, by simp⟩
    intro i hi
    simpa using hperm.mem_iff.mp (List.mem_of_mem_take hi)
  obtain ⟨k, hk⟩ : ∃ k, samples.length = k + 1 :=
    ⟨samples.length - 1, by have := List.length_pos_of_ne_nil hne; omega⟩
  have hscan : ∀ s : GState K, s.func = List.replicate samples.length 0 → s.norm = 0 →
      gScan m c kv samples (List.range samples.length) s 0 = .error .nonFinite := by
    intro s h1 h2
    rw [hk, List.range_succ_eq_map]
    simp only [gScan]
    have : s.func.getD (s.index.getD 0 0) 0 = 0 := by
      rw [h1]
      simp only [List.getD_eq_getElem?_getD, List.getElem?_replicate]
      split <;> rfl
    rw [this, h2]
    simp [gUpdate, hg, h2]
  have hloop : ∀ n s, s.func = List.replicate samples.length 0 → s.norm = 0 →
      gLoop m c kv samples clock n 0 s 1 = .error .nonFinite := by
    intro n s h1 h2
    cases n <;> (rw [gLoop]; simp only [hc, if_true, hscan s h1 h2])
  simp only [gTrain, hf, if_true]
  rw [if_neg (by simp [hc, hin]; omega),
    hloop _ { s0 with func := List.replicate samples.length 0, s := 0 } rfl hn]
  rfl

end

/-- **C38 refuted for the dual trainer, stored norm.**  Already with γ = 0 one update stores the radicand 5
for a weight vector of squared length 1 (the function values used are those after the update). -/
theorem C38_dual_norm_refuted :
    ∃ s : GState ℚ, gTrain dummyLibm ⟨1, 0, 0, 1/1000, .two, 100, 100⟩ (fun _ => true) (fun _ _ => 1) [⟨[1], 1⟩]
        ⟨[0], [], 0, 0, [0], 0, 0, 0⟩ = .ok (true, s) ∧ s.alphas = [1] ∧ s.norm = 5 := by
  exact ok_of_check _ (by decide +kernel)

end MLTK.Props
