import Verif.Lemmas.IMA
import Verif.Lemmas.Perceptron
import Verif.Model.ImaDual
/-!
# Lemmas about `IMADual`
-/
namespace MLTK.IMA
open MLTK.Perc
open MLTK.Data (Res_bind_ok Res_bind_error Res_pure)

section
variable {K : Type} [Field K] [LinearOrder K] [IsStrictOrderedRing K]

/-- The state a fixed-margin run starts its loop from. -/
def filled (samples : List (Sample K)) (s0 : GState K) : GState K :=
  { s0 with func := if s0.func = [] then List.replicate samples.length 0 else s0.func, s := 0 }

theorem gTrain_eq (m : Libm K) (c : FCfg K) (clock : Nat → Bool) (kv : Nat → Nat → K) (samples : List (Sample K))
    (s0 : GState K) : gTrain m c clock kv samples s0 =
      if clock 0 ∧ (inRange 0 samples s0.index ([] : List K) = false ∨ s0.alphas.length < samples.length ∨
        (filled samples s0).func.length < samples.length) then .error .outOfBounds
      else (gLoop m c kv samples clock (c.maxIt + 1 - s0.steps) 0 (filled samples s0) 1).bind
        (fun r => pure (decide (r.2 = 0), r.1)) := rfl

theorem gUpdate_cases (m : Libm K) (c : FCfg K) (kv : Nat → Nat → K) (p : Sample K) (i idx e : Nat) (s : GState K) :
    gUpdate m c kv p i idx e s = .error .nonFinite ∨
    ∃ s' a, gUpdate m c kv p i idx e s = .ok s' ∧ s'.norm = m.sqrt a ∧ s'.steps = s.steps := by
  unfold gUpdate
  split
  · exact .inl rfl
  simp only
  generalize (if c.gamma ≠ 0 then 1 - c.rate * c.gamma / s.norm else 1) = lam
  split
  · exact .inl rfl
  · exact .inr ⟨_, _, rfl, rfl, rfl⟩

theorem gTrain_cases {m : Libm K} {c : FCfg K} {clock : Nat → Bool} {kv : Nat → Nat → K} {samples : List (Sample K)}
    {s0 : GState K} {r : Bool × GState K} (h : gTrain m c clock kv samples s0 = .ok r) :
    ∃ e, gLoop m c kv samples clock (c.maxIt + 1 - s0.steps) 0 (filled samples s0) 1 = .ok (r.2, e) ∧
      (r.1 = true ↔ e = 0) ∧ (clock 0 = true → samples.length ≤ s0.alphas.length) := by
  rw [gTrain_eq] at h
  split at h
  · cases h
  rename_i hr
  cases hg : gLoop m c kv samples clock (c.maxIt + 1 - s0.steps) 0 (filled samples s0) 1 with
  | error x => rw [hg] at h; cases h
  | ok p =>
    rw [hg] at h
    cases h
    refine ⟨p.2, rfl, by simp, fun hc => ?_⟩
    by_contra hh
    exact hr ⟨hc, .inr (.inl (by omega))⟩

/-- Errors of a scan are non-finite values. -/
theorem gScan_error {m : Libm K} {c : FCfg K} {kv : Nat → Nat → K} {samples : List (Sample K)} (l : List Nat) :
    ∀ (s : GState K) (e : Nat) (x : Fault), gScan m c kv samples l s e = .error x → x = .nonFinite := by
  induction l with
  | nil => intro s e x h; simp [gScan] at h
  | cons i l ih =>
    intro s e x h
    simp only [gScan] at h
    split at h
    · split at h
      · rename_i y hu
        cases h
        rcases gUpdate_cases m c kv (samples.getD (s.index.getD i 0) default) i (s.index.getD i 0) e s with h | ⟨_, _, h, _⟩
        · rw [h] at hu; cases hu; rfl
        · rw [h] at hu; cases hu
      · exact ih _ _ _ h
    · split at h
      · cases h
      · exact ih _ _ _ h

theorem gLoop_error {m : Libm K} {c : FCfg K} {kv : Nat → Nat → K} {samples : List (Sample K)} {clock : Nat → Bool}
    (n : Nat) : ∀ (k : Nat) (s : GState K) (e : Nat) (x : Fault),
      gLoop m c kv samples clock n k s e = .error x → x = .nonFinite := by
  induction n with
  | zero =>
    intro k s e x h
    rw [gLoop] at h
    split at h
    · split at h
      · rename_i y hs; cases h; exact gScan_error _ _ _ _ hs
      · simp only at h; split at h <;> cases h
    · cases h
  | succ n ih =>
    intro k s e x h
    rw [gLoop] at h
    split at h
    · split at h
      · rename_i y hs; cases h; exact gScan_error _ _ _ _ hs
      · simp only at h
        split at h
        · cases h
        · exact ih _ _ _ _ h
    · cases h

theorem gTrain_error {m : Libm K} {c : FCfg K} {clock : Nat → Bool} {kv : Nat → Nat → K} {samples : List (Sample K)}
    {s0 : GState K} : gTrain m c clock kv samples s0 ≠ .error .diverges := by
  intro h
  rw [gTrain_eq] at h
  split at h
  · cases h
  cases hg : gLoop m c kv samples clock (c.maxIt + 1 - s0.steps) 0 (filled samples s0) 1 with
  | error x =>
    rw [hg] at h
    cases h
    cases gLoop_error _ _ _ _ _ hg
  | ok p => rw [hg] at h; cases h

/-! ### what a successful run leaves -/

/-- Scans keep the stored norm non-negative. -/
theorem gScan_norm {m : Libm K} (hm : ∀ a, 0 ≤ m.sqrt a) {c : FCfg K} {kv : Nat → Nat → K} {samples : List (Sample K)}
    (l : List Nat) : ∀ (s s' : GState K) (e e' : Nat), 0 ≤ s.norm → gScan m c kv samples l s e = .ok (s', e') →
      0 ≤ s'.norm ∧ s'.steps = s.steps := by
  induction l with
  | nil => intro s s' e e' hn h; simp [gScan] at h; rw [← h.1]; exact ⟨hn, rfl⟩
  | cons i l ih =>
    intro s s' e e' hn h
    simp only [gScan] at h
    split at h
    · split at h
      · cases h
      · rename_i s1 hu
        have h1 : 0 ≤ s1.norm ∧ s1.steps = s.steps := by
          rcases gUpdate_cases m c kv (samples.getD (s.index.getD i 0) default) i (s.index.getD i 0) e s with
            h | ⟨_, a, h, hn', hs'⟩
          · rw [h] at hu; cases hu
          · rw [h] at hu; cases hu; exact ⟨by rw [hn']; exact hm _, hs'⟩
        have := ih _ _ _ _ h1.1 h
        exact ⟨this.1, this.2.trans h1.2⟩
    · split at h
      · cases h; exact ⟨hn, rfl⟩
      · exact ih _ _ _ _ hn h

/-- The fixed-margin loop: what holds at its end. -/
theorem gLoop_spec {m : Libm K} (hm : ∀ a, 0 ≤ m.sqrt a) {c : FCfg K} {kv : Nat → Nat → K} {samples : List (Sample K)}
    {clock : Nat → Bool} (n : Nat) : ∀ (k : Nat) (s s' : GState K) (e e' : Nat), GInv kv samples s → 0 ≤ s.norm → e ≠ 0 →
      gLoop m c kv samples clock n k s e = .ok (s', e') →
      GInv kv samples s' ∧ 0 ≤ s'.norm ∧ s.steps ≤ s'.steps ∧
      (e' = 0 → s.steps < s'.steps ∧ ∀ r (hr : r < samples.length), c.gamma * s'.norm < samples[r].y * s'.func.getD r 0) ∧
      (e' = 0 → c.maxIt ≤ s.steps → s'.func = s.func ∧ s'.norm = s.norm) := by
  have hlast : ∀ (s s1 : GState K) (e1 : Nat), GInv kv samples s → 0 ≤ s.norm →
      gScan m c kv samples (List.range samples.length) s 0 = .ok (s1, e1) →
      GInv kv samples { s1 with steps := s1.steps + 1 } ∧ 0 ≤ s1.norm ∧ s1.steps = s.steps ∧
      (e1 = 0 → s1 = s ∧ ∀ r (hr : r < samples.length), c.gamma * s1.norm < samples[r].y * s1.func.getD r 0) := by
    intro s s1 e1 hI hn hs
    have hg : GInv kv samples s1 :=
      GInv.scan m c samples.length 0 s s1 0 e1 hI (le_refl _) (by omega) (by rw [← List.range_eq_range']; exact hs)
    obtain ⟨h1, h2⟩ := gScan_norm hm _ _ _ _ _ hn hs
    refine ⟨⟨hg.func, hg.flen, hg.alen, hg.perm⟩, h1, h2, ?_⟩
    rintro rfl
    obtain ⟨-, h3, h4⟩ := gScan_zero m c kv samples _ s s1 0 hs
    refine ⟨h3, fun r hr => ?_⟩
    rw [h3]
    have hmem : r ∈ s.index := hI.perm.mem_iff.mpr (by simpa using hr)
    obtain ⟨k, hk, hki⟩ := List.mem_iff_getElem.mp hmem
    have hk' : k < samples.length := by rw [hI.perm.length_eq] at hk; simpa using hk
    have := h4 k (by simpa using hk')
    rw [getD_lt s.index 0 k hk, hki, getD_lt samples default r hr] at this
    exact sub_pos.mp this
  induction n with
  | zero =>
    intro k s s' e e' hI hn he h
    rw [gLoop] at h
    split at h
    · split at h
      · cases h
      · rename_i s1 e1 hs
        obtain ⟨h1, h2, h3, h4⟩ := hlast s s1 e1 hI hn hs
        have h' : s' = { s1 with steps := s1.steps + 1 } ∧ e' = e1 := by
          simp only at h; split at h <;> (cases h; exact ⟨rfl, rfl⟩)
        obtain ⟨rfl, rfl⟩ := h'
        exact ⟨h1, h2, by simp only; omega, fun h0 => ⟨by simp only; omega, (h4 h0).2⟩, fun h0 _ => by
          simp only; rw [(h4 h0).1]; exact ⟨rfl, rfl⟩⟩
    · cases h
      exact ⟨hI, hn, le_refl _, fun h0 => absurd h0 he, fun h0 => absurd h0 he⟩
  | succ n ih =>
    intro k s s' e e' hI hn he h
    rw [gLoop] at h
    split at h
    · split at h
      · cases h
      · rename_i s1 e1 hs
        obtain ⟨h1, h2, h3, h4⟩ := hlast s s1 e1 hI hn hs
        simp only at h
        split at h
        · rename_i hstop
          cases h
          exact ⟨h1, h2, by simp only; omega, fun h0 => ⟨by simp only; omega, (h4 h0).2⟩, fun h0 _ => by
            simp only; rw [(h4 h0).1]; exact ⟨rfl, rfl⟩⟩
        · rename_i hstop
          push Not at hstop
          obtain ⟨i1, i2, i3, i4, i5⟩ := ih _ _ _ _ _ h1 h2 hstop.1 h
          simp only at i3 i4 i5
          refine ⟨i1, i2, by omega, fun h0 => ⟨by have := (i4 h0).1; omega, (i4 h0).2⟩, fun h0 hle => ?_⟩
          exfalso
          have := hstop.2.1
          omega
    · cases h
      exact ⟨hI, hn, le_refl _, fun h0 => absurd h0 he, fun h0 => absurd h0 he⟩

/-- A fixed-margin run continued from `s0`. -/
theorem gTrain_spec {m : Libm K} (hm : ∀ a, 0 ≤ m.sqrt a) {c : FCfg K} {clock : Nat → Bool} {kv : Nat → Nat → K}
    {samples : List (Sample K)} {s0 : GState K} {r : Bool × GState K} (hI : GInv kv samples (filled samples s0))
    (hn : 0 ≤ s0.norm) (h : gTrain m c clock kv samples s0 = .ok r) :
    GInv kv samples r.2 ∧ 0 ≤ r.2.norm ∧
    (r.1 = true → s0.steps < r.2.steps ∧
      ∀ i (hi : i < samples.length), c.gamma * r.2.norm < samples[i].y * r.2.func.getD i 0) ∧
    (r.1 = true → c.maxIt ≤ s0.steps → r.2.func = (filled samples s0).func ∧ r.2.norm = s0.norm) := by
  obtain ⟨e, hg, he, -⟩ := gTrain_cases h
  obtain ⟨h1, h2, -, h4, h5⟩ := gLoop_spec hm _ _ _ _ _ _ hI hn one_ne_zero hg
  exact ⟨h1, h2, fun ht => h4 (he.mp ht), fun ht hle => h5 (he.mp ht) hle⟩

/-- Filling in the function values does nothing to a state that has them. -/
theorem filled_inv {kv : Nat → Nat → K} {samples : List (Sample K)} {s : GState K} (h : GInv kv samples s) :
    GInv kv samples (filled samples s) ∧ (filled samples s).func = s.func := by
  have hf : (filled samples s).func = s.func := by
    simp only [filled]
    split
    · rename_i hn
      have : samples.length = 0 := by have := h.flen; rw [hn] at this; simpa using this
      rw [hn, this]; rfl
    · rfl
  refine ⟨⟨?_, by rw [hf]; exact h.flen, h.alen, h.perm⟩, hf⟩
  intro r hr
  rw [hf]
  exact h.func r hr

/-! ### the margin computed after a run -/

/-- `rmargin` of a run with norm `norm` and function values `func`. -/
def rmOf (c : DCfg K) (norm : K) (func : List K) : K :=
  let ext := extremes norm func (none, none)
  let mn := ext.1.getD c.big
  let mx := ext.2.getD (-c.big)
  if |mn| > |mx| then |mx| else |mn|

theorem rmOf_le (c : DCfg K) (norm : K) (func : List K) (hn : 0 < norm) :
    ∀ v ∈ func, rmOf c norm func * norm ≤ |v| := by
  obtain ⟨h1, h2, -, h4, h5, -⟩ := extremes_spec norm func none none
  intro v hv
  have key : rmOf c norm func ≤ |v| / norm := by
    rcases le_or_gt 0 v with h | h
    · obtain ⟨a, ha, hle⟩ := h2 v hv h
      have ha0 : 0 ≤ a := by
        rcases h1 a ha with h | ⟨u, -, hu, rfl⟩
        · cases h
        · exact div_nonneg hu hn.le
      have : rmOf c norm func ≤ |a| := by
        simp only [rmOf, ha, Option.getD_some]
        split
        · rename_i hlt; exact hlt.le
        · exact le_refl _
      rw [abs_of_nonneg ha0] at this
      rw [abs_of_nonneg h]
      exact this.trans hle
    · obtain ⟨a, ha, hle⟩ := h5 v hv h
      have ha0 : a ≤ 0 := by
        rcases h4 a ha with h | ⟨u, -, hu, rfl⟩
        · cases h
        · exact div_nonpos_of_nonpos_of_nonneg hu.le hn.le
      have : rmOf c norm func ≤ |a| := by
        simp only [rmOf, ha, Option.getD_some]
        split
        · exact le_refl _
        · rename_i hlt; exact not_lt.mp hlt
      rw [abs_of_nonpos ha0] at this
      rw [abs_of_neg h, neg_div]
      exact this.trans (by linarith)
  calc rmOf c norm func * norm ≤ |v| / norm * norm := mul_le_mul_of_nonneg_right key hn.le
    _ = |v| := div_mul_cancel₀ _ hn.ne'

theorem rmOf_nonneg (c : DCfg K) (norm : K) (func : List K) : 0 ≤ rmOf c norm func := by
  simp only [rmOf]
  split <;> exact abs_nonneg _

theorem dualRound_rmargin (c : DCfg K) (s : GState K) (st : DIState K) : (dualRound c s st).rmargin = rmOf c s.norm s.func :=
  rfl

theorem dualRound_gamma (c : DCfg K) (hc : 0 ≤ c.minInc) (s : GState K) (st : DIState K) : 0 ≤ (dualRound c s st).gamma := by
  have h := mul_nonneg hc (rmOf_nonneg c s.norm s.func)
  have key : ∀ g : K, 0 ≤ if g < c.minInc * rmOf c s.norm s.func then c.minInc * rmOf c s.norm s.func else g := by
    intro g
    split
    · exact h
    · rename_i hlt; exact h.trans (not_lt.mp hlt)
  exact key _

/-! ### the loop -/

/-- The saved multipliers and the reported margin belong to a function that separates the samples. -/
def SavedOk (c : DCfg K) (kv : Nat → Nat → K) (samples : List (Sample K)) (saved : List K) (rmargin : K) (b : K) : Prop :=
  ∃ (alpha : List K) (N : K), samples.length ≤ alpha.length ∧ saved = keepAlphas c alpha ∧ (samples ≠ [] → 0 < N) ∧
    ∀ r (hr : r < samples.length),
      0 < samples[r].y * (b + ∑ i ∈ Finset.range samples.length, alpha.getD i 0 * (samples.getD i default).y * kv i r) ∧
      rmargin * N ≤ abs (b + ∑ i ∈ Finset.range samples.length, alpha.getD i 0 * (samples.getD i default).y * kv i r)

theorem dualLoop_spec {m : Libm K} (hm : ∀ a, 0 ≤ m.sqrt a) {c : DCfg K} (hmin : 0 ≤ c.minInc)
    {clock : Nat → Nat → Bool} {kv : Nat → Nat → K} {samples : List (Sample K)} (n : Nat) :
    ∀ (st : DIState K) (r : DIState K × Bool), GInv kv samples (filled samples st.sub) → 0 ≤ st.sub.norm → 0 ≤ st.gamma →
      (st.it ≠ 0 → ∃ b, SavedOk c kv samples st.saved st.rmargin b) → dualLoop m c clock kv samples n st = .ok r →
      r.1.it ≠ 0 → ∃ b, SavedOk c kv samples r.1.saved r.1.rmargin b ∧ (r.2 = true → r.1.sub.bias = b) := by
  induction n with
  | zero => intro st r _ _ _ _ h; simp [dualLoop] at h
  | succ n ih =>
    intro st r hI hn hg hs h hit
    rw [dualLoop] at h
    cases ht : gTrain m ⟨c.rate, st.gamma, 0, c.eps, .two, c.maxIt, c.maxUp⟩ (clock st.it) kv samples st.sub with
    | error x => rw [ht, Res_bind_error] at h; cases h
    | ok t =>
      rw [ht, Res_bind_ok] at h
      obtain ⟨t1, t2, t3, -⟩ := gTrain_spec hm hI hn ht
      split at h
      · cases h
        obtain ⟨b, hb⟩ := hs hit
        exact ⟨b, hb, by simp⟩
      rename_i hok
      have hok : t.1 = true := by simpa using hok
      split at h
      · cases h
      rename_i hnorm
      obtain ⟨-, hsep⟩ := t3 hok
      have hN : samples ≠ [] → 0 < t.2.norm := fun hne => lt_of_le_of_ne t2 (fun h0 => hnorm ⟨h0.symm, hne⟩)
      have hsaved : SavedOk c kv samples (dualRound c t.2 st).saved (dualRound c t.2 st).rmargin t.2.bias := by
        refine ⟨t.2.alphas, t.2.norm, t1.alen, rfl, hN, fun r hr => ?_⟩
        have hne : samples ≠ [] := fun h0 => by rw [h0] at hr; simp at hr
        have hf := t1.func r hr
        rw [← hf]
        refine ⟨lt_of_le_of_lt (mul_nonneg hg t2) (hsep r hr), ?_⟩
        rw [dualRound_rmargin]
        have hlen : r < t.2.func.length := lt_of_lt_of_le hr t1.flen
        apply rmOf_le c _ _ (hN hne)
        rw [getD_lt _ _ _ hlen]
        exact List.getElem_mem hlen
      simp only at h
      split at h
      · cases h
        exact ⟨_, hsaved, fun _ => rfl⟩
      · exact ih { dualRound c t.2 st with old := (dualRound c t.2 st).rmargin } _ (filled_inv t1).1 t2 (dualRound_gamma c hmin t.2 st) (fun _ => ⟨_, hsaved⟩) h hit

/-- Steps and function values of a run, whatever it starts from. -/
theorem gScan_len {m : Libm K} {c : FCfg K} {kv : Nat → Nat → K} {samples : List (Sample K)} (l : List Nat) :
    ∀ (s s' : GState K) (e e' : Nat), gScan m c kv samples l s e = .ok (s', e') →
      s'.func.length = s.func.length ∧ s'.steps = s.steps := by
  induction l with
  | nil => intro s s' e e' h; simp [gScan] at h; rw [← h.1]; exact ⟨rfl, rfl⟩
  | cons i l ih =>
    intro s s' e e' h
    simp only [gScan] at h
    split at h
    · split at h
      · cases h
      · rename_i s1 hu
        have h1 : s1.func.length = s.func.length ∧ s1.steps = s.steps := by
          unfold gUpdate at hu
          split at hu
          · cases hu
          simp only at hu
          generalize (if c.gamma ≠ 0 then 1 - c.rate * c.gamma / s.norm else 1) = lam at hu
          split at hu
          · cases hu
          · cases hu; exact ⟨by simp, rfl⟩
        have := ih _ _ _ _ h
        exact ⟨this.1.trans h1.1, this.2.trans h1.2⟩
    · split at h
      · cases h; exact ⟨rfl, rfl⟩
      · exact ih _ _ _ _ h

theorem gLoop_steps {m : Libm K} {c : FCfg K} {kv : Nat → Nat → K} {samples : List (Sample K)}
    {clock : Nat → Bool} (n : Nat) : ∀ (k : Nat) (s s' : GState K) (e e' : Nat), e ≠ 0 →
      gLoop m c kv samples clock n k s e = .ok (s', e') →
      s'.func.length = s.func.length ∧ s.steps ≤ s'.steps ∧
      (e' = 0 → s.steps < s'.steps ∧ (c.maxIt ≤ s.steps → s'.func = s.func ∧ s'.norm = s.norm)) := by
  have hlast : ∀ (s s1 : GState K) (e1 : Nat),
      gScan m c kv samples (List.range samples.length) s 0 = .ok (s1, e1) →
      s1.func.length = s.func.length ∧ s1.steps = s.steps ∧ (e1 = 0 → s1 = s) := by
    intro s s1 e1 hs
    obtain ⟨h1, h2⟩ := gScan_len _ _ _ _ _ hs
    refine ⟨h1, h2, ?_⟩
    rintro rfl
    exact (gScan_zero m c kv samples _ s s1 0 hs).2.1
  induction n with
  | zero =>
    intro k s s' e e' he h
    rw [gLoop] at h
    split at h
    · split at h
      · cases h
      · rename_i s1 e1 hs
        obtain ⟨h1, h3, h4⟩ := hlast s s1 e1 hs
        have h' : s' = { s1 with steps := s1.steps + 1 } ∧ e' = e1 := by
          simp only at h; split at h <;> (cases h; exact ⟨rfl, rfl⟩)
        obtain ⟨rfl, rfl⟩ := h'
        exact ⟨h1, by simp only; omega, fun h0 => ⟨by simp only; omega, fun _ => by
          simp only; rw [h4 h0]; exact ⟨rfl, rfl⟩⟩⟩
    · cases h
      exact ⟨rfl, le_refl _, fun h0 => absurd h0 he⟩
  | succ n ih =>
    intro k s s' e e' he h
    rw [gLoop] at h
    split at h
    · split at h
      · cases h
      · rename_i s1 e1 hs
        obtain ⟨h1, h3, h4⟩ := hlast s s1 e1 hs
        simp only at h
        split at h
        · cases h
          exact ⟨h1, by simp only; omega, fun h0 => ⟨by simp only; omega, fun _ => by
            simp only; rw [h4 h0]; exact ⟨rfl, rfl⟩⟩⟩
        · rename_i hstop
          push Not at hstop
          obtain ⟨i1, i2, i3⟩ := ih _ _ _ _ _ hstop.1 h
          simp only at i1 i2 i3
          refine ⟨i1.trans h1, by omega, fun h0 => ⟨by have := (i3 h0).1; omega, fun hle => ?_⟩⟩
          exfalso
          have := hstop.2.1
          omega
    · cases h
      exact ⟨rfl, le_refl _, fun h0 => absurd h0 he⟩

/-- The function values are filled in unless there are no samples. -/
def HasFunc (samples : List (Sample K)) (s : GState K) : Prop := s.func = [] → samples = []

theorem filled_func {samples : List (Sample K)} {s : GState K} (h : HasFunc samples s) :
    (filled samples s).func = s.func := by
  simp only [filled]
  split
  · rename_i hn; rw [h hn, hn]; rfl
  · rfl

theorem gTrain_steps {m : Libm K} {c : FCfg K} {clock : Nat → Bool} {kv : Nat → Nat → K}
    {samples : List (Sample K)} {s0 : GState K} {r : Bool × GState K} (h : gTrain m c clock kv samples s0 = .ok r) :
    HasFunc samples r.2 ∧ (r.1 = true → s0.steps < r.2.steps ∧
      (c.maxIt ≤ s0.steps → r.2.func = (filled samples s0).func ∧ r.2.norm = s0.norm)) := by
  obtain ⟨e, hg, he, -⟩ := gTrain_cases h
  obtain ⟨h1, -, h3⟩ := gLoop_steps _ _ _ _ _ _ one_ne_zero hg
  refine ⟨fun h0 => ?_, fun ht => h3 (he.mp ht)⟩
  rw [h0] at h1
  by_contra hne
  have : 0 < (filled samples s0).func.length := by
    simp only [filled]
    split
    · simpa using List.length_pos_of_ne_nil hne
    · rename_i hh; exact List.length_pos_of_ne_nil hh
  rw [← h1] at this
  simp at this

/-- Enough rounds when the stored margin is that of the stored run. -/
theorem dualLoop_enough {m : Libm K} {c : DCfg K} (heps : 0 < c.eps)
    {clock : Nat → Nat → Bool} {kv : Nat → Nat → K} {samples : List (Sample K)} (n : Nat) :
    ∀ st : DIState K, HasFunc samples st.sub → st.old = rmOf c st.sub.norm st.sub.func →
      c.maxIt - st.sub.steps + 1 ≤ n → ∀ n', n ≤ n' →
      dualLoop m c clock kv samples n st ≠ .error .diverges ∧
      dualLoop m c clock kv samples n' st = dualLoop m c clock kv samples n st := by
  induction n with
  | zero => intro st _ _ h; omega
  | succ n ih =>
    intro st hI hold hle n' hn'
    obtain ⟨n', rfl⟩ : ∃ k, n' = k + 1 := ⟨n' - 1, by omega⟩
    rw [dualLoop, dualLoop]
    cases ht : gTrain m ⟨c.rate, st.gamma, 0, c.eps, .two, c.maxIt, c.maxUp⟩ (clock st.it) kv samples st.sub with
    | error x =>
      simp only [Res_bind_error]
      refine ⟨fun h => ?_, trivial⟩
      cases h
      exact gTrain_error ht
    | ok t =>
      simp only [Res_bind_ok]
      obtain ⟨t1, t3⟩ := gTrain_steps ht
      by_cases hok : t.1 = false
      · rw [if_pos hok, if_pos hok]; exact ⟨by simp, rfl⟩
      rw [if_neg hok, if_neg hok]
      have hok' : t.1 = true := by simpa using hok
      by_cases hnz : t.2.norm = 0 ∧ samples ≠ []
      · rw [if_pos hnz, if_pos hnz]; exact ⟨by simp, rfl⟩
      rw [if_neg hnz, if_neg hnz]
      by_cases hbr : (dualRound c t.2 st).rmargin - (dualRound c t.2 st).old < c.eps
      · rw [if_pos hbr, if_pos hbr]; exact ⟨by simp, rfl⟩
      rw [if_neg hbr, if_neg hbr]
      obtain ⟨hst, t4⟩ := t3 hok'
      by_cases hmx : c.maxIt ≤ st.sub.steps
      · exfalso
        apply hbr
        obtain ⟨hf, hno⟩ := t4 hmx
        rw [filled_func hI] at hf
        rw [dualRound_rmargin, hf, hno, ← hold]
        change st.old - st.old < c.eps
        rw [sub_self]; exact heps
      · exact ih _ t1 rfl (by change c.maxIt - t.2.steps + 1 ≤ n; omega) n' (by omega)

theorem dualLoop_start {m : Libm K} {c : DCfg K} (heps : 0 < c.eps)
    {clock : Nat → Nat → Bool} {kv : Nat → Nat → K} {samples : List (Sample K)} (n : Nat)
    (st : DIState K) (hle : c.maxIt - st.sub.steps + 2 ≤ n) (n' : Nat) (hn' : n ≤ n') :
      dualLoop m c clock kv samples n st ≠ .error .diverges ∧
      dualLoop m c clock kv samples n' st = dualLoop m c clock kv samples n st := by
  obtain ⟨n, rfl⟩ : ∃ k, n = k + 1 := ⟨n - 1, by omega⟩
  obtain ⟨n', rfl⟩ : ∃ k, n' = k + 1 := ⟨n' - 1, by omega⟩
  rw [dualLoop, dualLoop]
  cases ht : gTrain m ⟨c.rate, st.gamma, 0, c.eps, .two, c.maxIt, c.maxUp⟩ (clock st.it) kv samples st.sub with
  | error x =>
    simp only [Res_bind_error]
    refine ⟨fun h => ?_, trivial⟩
    cases h
    exact gTrain_error ht
  | ok t =>
    simp only [Res_bind_ok]
    obtain ⟨t1, t3⟩ := gTrain_steps ht
    by_cases hok : t.1 = false
    · rw [if_pos hok, if_pos hok]; exact ⟨by simp, rfl⟩
    rw [if_neg hok, if_neg hok]
    by_cases hnz : t.2.norm = 0 ∧ samples ≠ []
    · rw [if_pos hnz, if_pos hnz]; exact ⟨by simp, rfl⟩
    rw [if_neg hnz, if_neg hnz]
    by_cases hbr : (dualRound c t.2 st).rmargin - (dualRound c t.2 st).old < c.eps
    · rw [if_pos hbr, if_pos hbr]; exact ⟨by simp, rfl⟩
    rw [if_neg hbr, if_neg hbr]
    · obtain ⟨hst, -⟩ := t3 (by simpa using hok)
      exact dualLoop_enough heps n _ t1 rfl (by change c.maxIt - t.2.steps + 1 ≤ n; omega) n' (by omega)

end
end MLTK.IMA
