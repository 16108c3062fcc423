import Mathlib.Tactic.NormNum
import Verif.Lemmas.Balanced
/-!
# C104, C105: the balanced perceptron
-/
namespace MLTK.Props
open MLTK.Spec MLTK.Bal
open MLTK.Perc (Sample)
open MLTK.Data (Res_bind_ok Res_bind_error Res_pure)

section
variable {K : Type} [Field K] [LinearOrder K] [IsStrictOrderedRing K]

/-- **C104 (partial).**  If training that may run at least one epoch answers `true` on samples of both classes, the
hyperplane it leaves separates all samples strictly, and it is balanced: some number `m > 0` is at most the functional
margin of every sample and is attained by a sample of each class.  `big` is `numeric_limits::max()`, above every value. -/
theorem C104_balanced_partial (c : BCfg K) (late : Nat → Bool) (dim : Nat) (samples : List (Sample K))
    (hs : ∀ p ∈ samples, p.x.length = dim) (w0 : List K) (hw0 : w0.length = dim) (hep : 0 < c.maxEpoch)
    (w : List K) (b : K) (h : balTrain c late samples w0 = .ok (true, w, b))
    (hpos : ∃ p ∈ samples, p.y = 1) (hneg : ∃ p ∈ samples, p.y = -1)
    (hbig : ∀ p ∈ samples, |ip dim w p.x| < c.big) :
    PlusMinus samples ∧ SeparatesAll dim w b samples ∧
    ∃ m, 0 < m ∧ (∀ p ∈ samples, m ≤ p.y * affine dim w b p.x) ∧
      (∃ p ∈ samples, p.y = 1 ∧ p.y * affine dim w b p.x = m) ∧
      (∃ p ∈ samples, p.y = -1 ∧ p.y * affine dim w b p.x = m) := by
  obtain ⟨s, e, hl, hw, hb, _, hall, _⟩ := balLoop_spec c late (fun _ => True) samples hs (fun _ _ _ _ _ _ _ => trivial)
    c.maxEpoch 0 ⟨w0, 0, 0⟩ hw0 rfl trivial (Nat.zero_le _) 0
  obtain ⟨g, hg, _, _, hg1, hg2, ha1, ha2⟩ := balGammas_spec s.w hw s.bias samples hs (c.big, c.big)
  rw [balTrain, hl, Res_bind_ok, hg, Res_bind_ok, Res_pure] at h
  simp only [Except.ok.injEq, Prod.mk.injEq, decide_eq_true_eq] at h
  obtain ⟨he, rfl, rfl⟩ := h
  have hright := hall (.inl hep) he
  rw [hb] at hg1 hg2 ha1 ha2 ⊢
  have haff : ∀ x, affine dim s.w 0 x = ip dim s.w x := fun x => by simp [affine]
  simp only [haff] at hg1 hg2 ha1 ha2
  have hpm : PlusMinus samples := fun p hp => by rw [hright p hp]; exact balPredict_pm _
  have hfp : ∀ p ∈ samples, p.y = 1 → 0 ≤ ip dim s.w p.x := fun p hp hy => by
    have := hright p hp
    rw [hy] at this
    exact balPredict_pos this
  have hfn : ∀ p ∈ samples, p.y = -1 → ip dim s.w p.x < 0 := fun p hp hy => by
    have := hright p hp
    rw [hy] at this
    exact balPredict_neg this
  -- both least values are attained
  obtain ⟨p1, hp1, hy1, hv1⟩ : ∃ p ∈ samples, p.y = 1 ∧ g.1 = ip dim s.w p.x := by
    rcases ha1 with h | h
    · obtain ⟨p, hp, hy⟩ := hpos
      have h1 := hg1 p hp hy
      have h2 := (abs_lt.mp (hbig p hp)).2
      exfalso; linarith
    · exact h
  obtain ⟨p2, hp2, hy2, hv2⟩ : ∃ p ∈ samples, p.y = -1 ∧ g.2 = - ip dim s.w p.x := by
    rcases ha2 with h | h
    · obtain ⟨p, hp, hy⟩ := hneg
      have h1 := hg2 p hp hy
      have h2 := (abs_lt.mp (hbig p hp)).1
      exfalso; linarith
    · exact h
  have hg10 : 0 ≤ g.1 := by rw [hv1]; exact hfp p1 hp1 hy1
  have hg20 : 0 < g.2 := by rw [hv2]; have := hfn p2 hp2 hy2; linarith
  rw [balShift_eq 0 g hg10 hg20.le]
  have hval : ∀ p, affine dim s.w (0 + (g.2 - g.1) / 2) p = ip dim s.w p + (g.2 - g.1) / 2 := fun p => by simp [affine]
  have hm : ∀ p ∈ samples, (g.1 + g.2) / 2 ≤ p.y * affine dim s.w (0 + (g.2 - g.1) / 2) p.x := by
    intro p hp
    rw [hval]
    rcases hpm p hp with hy | hy
    · have := hg1 p hp hy
      rw [hy]; linarith
    · have := hg2 p hp hy
      rw [hy]; linarith
  refine ⟨hpm, fun p hp => ?_, (g.1 + g.2) / 2, by linarith, hm, ⟨p1, hp1, hy1, ?_⟩, ⟨p2, hp2, hy2, ?_⟩⟩
  · have := hm p hp
    linarith
  · rw [hval, hy1, ← hv1]; ring
  · rw [hval, hy2, show ip dim s.w p2.x = - g.2 by rw [hv2]; ring]; ring

example : balTrain (⟨1, 10, 10, 1000⟩ : BCfg ℚ) (fun _ => false) [⟨[1, 1], 1⟩, ⟨[-1, 1], -1⟩, ⟨[3, 0], 1⟩] [0, 1 / 2] =
    .ok (true, [1, -1 / 2], 1 / 2) := by decide +kernel

/-- **C104 (evaluation)** After such a training, `evaluate` of a point of the right dimension is the value of the hyperplane with
`raw_value`, and 1 on and above it and -1 below it without; so every training sample gets its own label. -/
theorem C104_evaluate_partial (c : BCfg K) (late : Nat → Bool) (dim : Nat) (samples : List (Sample K))
    (hs : ∀ p ∈ samples, p.x.length = dim) (w0 : List K) (hw0 : w0.length = dim) (hep : 0 < c.maxEpoch)
    (w : List K) (b : K) (h : balTrain c late samples w0 = .ok (true, w, b))
    (hpos : ∃ p ∈ samples, p.y = 1) (hneg : ∃ p ∈ samples, p.y = -1)
    (hbig : ∀ p ∈ samples, |ip dim w p.x| < c.big) :
    (∀ x : List K, x.length = dim → balEvaluate w b x true = .ok (affine dim w b x) ∧
      balEvaluate w b x false = .ok (if 0 ≤ affine dim w b x then 1 else -1)) ∧
    ∀ p ∈ samples, balEvaluate w b p.x false = .ok p.y := by
  have hw : w.length = dim := by
    obtain ⟨s, e, hl, hw, _⟩ := balLoop_spec c late (fun _ => True) samples hs (fun _ _ _ _ _ _ _ => trivial)
      c.maxEpoch 0 ⟨w0, 0, 0⟩ hw0 rfl trivial (Nat.zero_le _) 0
    obtain ⟨g, hg, _⟩ := balGammas_spec s.w hw s.bias samples hs (c.big, c.big)
    rw [balTrain, hl, Res_bind_ok, hg, Res_bind_ok, Res_pure] at h
    simp only [Except.ok.injEq, Prod.mk.injEq, decide_eq_true_eq] at h
    rw [← h.2.1]; exact hw
  have hev : ∀ x : List K, x.length = dim → balEvaluate w b x true = .ok (affine dim w b x) ∧
      balEvaluate w b x false = .ok (if 0 ≤ affine dim w b x then 1 else -1) := by
    intro x hx
    unfold balEvaluate
    rw [dot_ok hw hx, Res_bind_ok, Res_bind_ok]
    exact ⟨rfl, rfl⟩
  refine ⟨hev, fun p hp => ?_⟩
  obtain ⟨hpm, hsep, _⟩ := C104_balanced_partial c late dim samples hs w0 hw0 hep w b h hpos hneg hbig
  rw [(hev p.x (hs p hp)).2]
  have h1 := hsep p hp
  rcases hpm p hp with hy | hy
  · rw [hy, one_mul] at h1
    rw [if_pos h1.le, hy]
  · rw [hy] at h1
    rw [if_neg (by linarith), hy]

/-- **C104 refuted** when no epoch may run: training answers `true` on the random weights, here one that separates
nothing. -/
theorem C104_no_epoch_refuted :
    ∃ b, balTrain (⟨1 / 2, 0, 10, 1000⟩ : BCfg ℚ) (fun _ => false) [⟨[1], -1⟩, ⟨[-1], 1⟩] [1] = .ok (true, [1], b) ∧
      ¬ SeparatesAll 1 [1] b [⟨[1], -1⟩, ⟨[-1], 1⟩] := by
  refine ⟨0, by decide +kernel, fun h => ?_⟩
  have := h ⟨[1], -1⟩ (by simp)
  revert this
  decide +kernel

/-- **C104**, samples of one class only: the bias becomes about half the greatest `double`. -/
theorem C104_one_class_refuted (big : K) (hb : 1 < big) :
    balTrain (⟨1, 1, 1, big⟩ : BCfg K) (fun _ => false) [⟨[1], 1⟩] [1] = .ok (true, [1], (big - 1) / 2) := by
  have h : balTrain (⟨1, 1, 1, big⟩ : BCfg K) (fun _ => false) [⟨[1], 1⟩] [1] = .ok (true, [1], balShift 0 (1, big)) := by
    have h10 : ¬ ((1 : K) < 0) := not_lt.mpr zero_le_one
    have h1n : ¬ ((1 : K) = -1) := by intro h; linarith
    simp [balTrain, balLoop, balScan, PointM.dot, PointM.dotLoop, balPredict, balGammas, hb, h10, h1n, Res_bind_ok,
      Res_pure]
  rw [h, balShift_eq _ _ (by simp) (by simp; linarith)]
  simp

/-- **C105 (partial).**  Let some hyperplane *through the origin* with normal `u`, `|u| ≤ 1`, give every sample a
functional margin of at least `g > 0`, let all samples have squared length at most `R2`, and let `N` exceed
`(rate² R2 + 2 rate g |u·w0| + |w0|²) / (rate g)²`.  Then, whatever the start weights and the order of the samples,
training answers `true` if its limits allow `N` updates and epochs and the time is not up. -/
theorem C105_converges_partial (c : BCfg K) (dim : Nat) (samples : List (Sample K))
    (hs : ∀ p ∈ samples, p.x.length = dim) (w0 : List K) (hw0 : w0.length = dim) (hpm : PlusMinus samples)
    (u : List K) (g R2 : K) (hg : 0 < g) (hr : 0 < c.rate) (hu1 : ip dim u u ≤ 1)
    (hu : ∀ p ∈ samples, g ≤ p.y * ip dim u p.x) (hR0 : 0 ≤ R2) (hR : ∀ p ∈ samples, ip dim p.x p.x ≤ R2) (N : Nat)
    (hN : c.rate ^ 2 * R2 + 2 * (c.rate * g) * |ip dim u w0| + ip dim w0 w0 < (N : K) * (c.rate * g) ^ 2)
    (hup : N ≤ c.maxUp) (hep : N ≤ c.maxEpoch) :
    ∃ w b, balTrain c (fun _ => false) samples w0 = .ok (true, w, b) := by
  obtain ⟨s, e, hl, hw, hb, hP, _, hend⟩ := balLoop_spec c (fun _ => false) (BalInv dim c.rate g R2 u w0) samples hs
    (fun p hp s hw _ h hm => h.step hr hw (hs p hp) (hpm p hp) (hu p hp) (hR p hp) hm)
    c.maxEpoch 0 ⟨w0, 0, 0⟩ hw0 rfl ⟨by simp, by simp⟩ (Nat.zero_le _) 0
  obtain ⟨g', hg', _⟩ := balGammas_spec s.w hw s.bias samples hs (c.big, c.big)
  have hbound := hP.bound hr hg hR0 hu1
  have hlt : s.ite < N := by
    by_contra hcon
    have h1 : (N : K) ≤ (s.ite : K) := by exact_mod_cast not_lt.mp hcon
    have h2 := mul_le_mul_of_nonneg_right h1 (sq_nonneg (c.rate * g))
    linarith
  have he : e = 0 := by
    rcases hend with h | h | ⟨k, h⟩ | h
    · exact h
    · omega
    · simp at h
    · simp only at h; omega
  refine ⟨s.w, balShift s.bias g', ?_⟩
  rw [balTrain, hl, Res_bind_ok, hg', Res_bind_ok, Res_pure, he]
  rfl

example : ∃ (samples : List (Sample ℚ)) (u : List ℚ), PlusMinus samples ∧ ip 2 u u ≤ 1 ∧ samples.length = 3 ∧
    (∀ p ∈ samples, 1 / 2 ≤ p.y * ip 2 u p.x) ∧ (∀ p ∈ samples, ip 2 p.x p.x ≤ 9) := by
  refine ⟨[⟨[1, 1], 1⟩, ⟨[-1, 1], -1⟩, ⟨[3, 0], 1⟩], [1, 0], ?_, by decide +kernel, rfl, ?_, ?_⟩
  · intro p hp; revert p; decide +kernel
  · intro p hp; revert p; decide +kernel
  · intro p hp; revert p; decide +kernel

/-- **C105 refuted** for separable samples in general: the bias is never trained (it grows by `rate` times itself, from
zero), so two points on the same side of the origin are never separated, whatever the start, rate and limits. -/
theorem C105_bias_refuted :
    SeparatesAll 1 [(-2 : K)] 3 [⟨[1], 1⟩, ⟨[2], -1⟩] ∧
    ∀ (c : BCfg K) (late : Nat → Bool) (w0 : K), 0 < c.maxEpoch → ∃ w b,
      balTrain c late [⟨[1], 1⟩, ⟨[2], -1⟩] [w0] = .ok (false, w, b) := by
  constructor
  · intro p hp
    simp only [List.mem_cons, List.not_mem_nil, or_false] at hp
    rcases hp with rfl | rfl <;> simp [affine, ip] <;> norm_num
  · intro c late w0 hep
    have hs : ∀ p ∈ [(⟨[1], 1⟩ : Sample K), ⟨[2], -1⟩], p.x.length = 1 := by simp
    obtain ⟨s, e, hl, hw, hb, _, hall, _⟩ := balLoop_spec c late (fun _ => True) _ hs (fun _ _ _ _ _ _ _ => trivial)
      c.maxEpoch 0 ⟨[w0], 0, 0⟩ rfl rfl trivial (Nat.zero_le _) 0
    obtain ⟨g', hg', _⟩ := balGammas_spec s.w hw s.bias _ hs (c.big, c.big)
    have he : e ≠ 0 := by
      intro he
      have hr := hall (.inl hep) he
      have h1 := balPredict_pos (hr ⟨[1], 1⟩ (by simp))
      have h2 := balPredict_neg (hr ⟨[2], -1⟩ (by simp))
      simp [ip] at h1 h2
      linarith
    refine ⟨s.w, balShift s.bias g', ?_⟩
    rw [balTrain, hl, Res_bind_ok, hg', Res_bind_ok, Res_pure]
    simp [he]

end
end MLTK.Props
