import Mathlib.Tactic.LinearCombination
import Mathlib.Tactic.Positivity
import Verif.Lemmas.Smo
/-!
# One optimisation step of SMO
-/
namespace MLTK.Smo
open MLTK.Spec MLTK.Dll
open MLTK.Data (Res_bind_ok Res_bind_error Res_pure)

variable {K : Type} [Field K] [LinearOrder K] [IsStrictOrderedRing K]

omit [LinearOrder K] [IsStrictOrderedRing K] in
theorem sum_upd2 (n : Nat) (f w : Nat → K) (i1 i2 : Nat) (a b : K) (hne : i1 ≠ i2) (h1 : i1 < n) (h2 : i2 < n) :
    ∑ j ∈ Finset.range n, upd (upd f i1 a) i2 b j * w j =
      (∑ j ∈ Finset.range n, f j * w j) + (a - f i1) * w i1 + (b - f i2) * w i2 := by
  have : ∀ j ∈ Finset.range n, upd (upd f i1 a) i2 b j * w j =
      f j * w j + ((if j = i1 then (a - f i1) * w i1 else 0) + (if j = i2 then (b - f i2) * w i2 else 0)) := by
    intro j _
    by_cases hj2 : j = i2
    · subst hj2
      simp [upd, Ne.symm hne]; ring
    · by_cases hj1 : j = i1
      · subst hj1
        simp [upd, hj2]; ring
      · simp [upd, hj1, hj2]
  rw [Finset.sum_congr rfl this, Finset.sum_add_distrib, Finset.sum_add_distrib,
    Finset.sum_ite_eq', Finset.sum_ite_eq', if_pos (Finset.mem_range.2 h1), if_pos (Finset.mem_range.2 h2)]
  ring

/-- Decision values after the pair changed. -/
theorem decision_upd2 (c : Cfg K) (f : Nat → K) (i1 i2 : Nat) (a b bias bias' : K) (hne : i1 ≠ i2)
    (h1 : i1 < c.n) (h2 : i2 < c.n) (i : Nat) :
    decisionValue c (upd (upd f i1 a) i2 b) bias' i = decisionValue c f bias i +
      (c.y i1 : K) * (a - f i1) * c.M i1 i + (c.y i2 : K) * (b - f i2) * c.M i2 i + (bias' - bias) := by
  unfold decisionValue
  have := sum_upd2 c.n f (fun j => (c.y j : K) * c.M j i) i1 i2 a b hne h1 h2
  simp only [← mul_assoc] at this ⊢
  rw [this]
  ring

theorem dual_upd2 (c : Cfg K) (f : Nat → K) (i1 i2 : Nat) (a b : K) (hne : i1 ≠ i2)
    (h1 : i1 < c.n) (h2 : i2 < c.n) (hsym : SymmetricM c) :
    dualObjective c (upd (upd f i1 a) i2 b) = dualObjective c f + (a - f i1) + (b - f i2)
      - (a - f i1) * (c.y i1 : K) * decisionValue c f 0 i1 - (b - f i2) * (c.y i2 : K) * decisionValue c f 0 i2
      - (1/2) * ((a - f i1) ^ 2 * (c.y i1 : K) ^ 2 * c.M i1 i1 + (b - f i2) ^ 2 * (c.y i2 : K) ^ 2 * c.M i2 i2
        + 2 * ((a - f i1) * (b - f i2) * (c.y i1 : K) * (c.y i2 : K) * c.M i1 i2)) := by
  have hsum : ∑ j ∈ Finset.range c.n, upd (upd f i1 a) i2 b j =
      (∑ j ∈ Finset.range c.n, f j) + (a - f i1) + (b - f i2) := by
    have := sum_upd2 c.n f (fun _ => 1) i1 i2 a b hne h1 h2
    simpa using this
  -- inner sums are decision values
  have hin : ∀ g : Nat → K, ∑ i ∈ Finset.range c.n, ∑ j ∈ Finset.range c.n,
      g i * g j * ((c.y i : K) * (c.y j : K)) * c.M i j =
      ∑ i ∈ Finset.range c.n, g i * ((c.y i : K) * decisionValue c g 0 i) := by
    intro g
    apply Finset.sum_congr rfl
    intro i hi
    unfold decisionValue
    rw [add_zero, Finset.mul_sum, Finset.mul_sum]
    apply Finset.sum_congr rfl
    intro j hj
    rw [hsym i (Finset.mem_range.1 hi) j (Finset.mem_range.1 hj)]
    ring
  have hlin : ∀ (g : Nat → K) (k : Nat), k < c.n →
      ∑ i ∈ Finset.range c.n, g i * ((c.y i : K) * c.M k i) = decisionValue c g 0 k := by
    intro g k hk
    unfold decisionValue
    rw [add_zero]
    apply Finset.sum_congr rfl
    intro i hi
    rw [hsym k hk i (Finset.mem_range.1 hi)]; ring
  unfold dualObjective
  rw [hsum, hin, hin]
  rw [sum_upd2 c.n f (fun i => (c.y i : K) * decisionValue c (upd (upd f i1 a) i2 b) 0 i) i1 i2 a b hne h1 h2]
  simp only [decision_upd2 c f i1 i2 a b 0 0 hne h1 h2]
  have hexp : ∑ j ∈ Finset.range c.n, f j * ((c.y j : K) * (decisionValue c f 0 j +
        (c.y i1 : K) * (a - f i1) * c.M i1 j + (c.y i2 : K) * (b - f i2) * c.M i2 j + (0 - 0))) =
      (∑ j ∈ Finset.range c.n, f j * ((c.y j : K) * decisionValue c f 0 j)) +
      (c.y i1 : K) * (a - f i1) * decisionValue c f 0 i1 + (c.y i2 : K) * (b - f i2) * decisionValue c f 0 i2 := by
    rw [← hlin f i1 h1, ← hlin f i2 h2, Finset.mul_sum, Finset.mul_sum, ← Finset.sum_add_distrib,
      ← Finset.sum_add_distrib]
    apply Finset.sum_congr rfl
    intro j _
    ring
  rw [hexp, hsym i2 h2 i1 h1]
  ring

/-- The feasible interval, as `take_step` computes it. -/
theorem bounds_mem {s : Int} (hs : s = 1 ∨ s = -1) {a1 a2 : K} (h1 : 0 ≤ a1) (h1' : a1 ≤ boxC) (h2 : 0 ≤ a2)
    (h2' : a2 ≤ boxC) : (bounds s a1 a2).1 ≤ a2 ∧ a2 ≤ (bounds s a1 a2).2 := by
  unfold bounds
  rcases hs with rfl | rfl
  · simp only [show ¬ ((1:Int) = -1) by decide, if_false]
    exact ⟨max_le h2 (by linarith), le_min h2' (by linarith)⟩
  · simp only [if_true]
    exact ⟨max_le h2 (by linarith), le_min h2' (by linarith)⟩

/-- A second multiplier in the interval leaves the first in the box; it is at the end of the interval
only if one of the two is at the end of the box. -/
theorem bounds_box {s : Int} (hs : s = 1 ∨ s = -1) {a1 a2 na2 : K} 
    (hlo : (bounds s a1 a2).1 ≤ na2) (hhi : na2 ≤ (bounds s a1 a2).2) :
    (0 ≤ na2 ∧ na2 ≤ boxC) ∧ (0 ≤ a1 - (s : K) * (na2 - a2) ∧ a1 - (s : K) * (na2 - a2) ≤ boxC) := by
  unfold bounds at hlo hhi
  rcases hs with rfl | rfl
  · simp only [show ¬ ((1:Int) = -1) by decide, if_false] at hlo hhi
    have := (max_le_iff.1 hlo); have := (le_min_iff.1 hhi)
    push_cast
    refine ⟨⟨?_, ?_⟩, ?_, ?_⟩ <;> linarith [this.1, this.2]
  · simp only [if_true] at hlo hhi
    have := (max_le_iff.1 hlo); have := (le_min_iff.1 hhi)
    push_cast
    refine ⟨⟨?_, ?_⟩, ?_, ?_⟩ <;> linarith [this.1, this.2]

theorem bounds_end {s : Int} (hs : s = 1 ∨ s = -1) {a1 a2 na2 : K} 
    (h : na2 = (bounds s a1 a2).1 ∨ na2 = (bounds s a1 a2).2) :
    (na2 = 0 ∨ na2 = boxC) ∨ (a1 - (s : K) * (na2 - a2) = 0 ∨ a1 - (s : K) * (na2 - a2) = boxC) := by
  unfold bounds at h
  rcases hs with rfl | rfl
  · simp only [show ¬ ((1:Int) = -1) by decide, if_false] at h
    push_cast
    rcases h with h | h
    · rcases max_choice (0:K) (a2 + a1 - boxC) with hm | hm <;> rw [hm] at h
      · left; left; exact h
      · right; right; rw [h]; ring
    · rcases min_choice (boxC : K) (a1 + a2) with hm | hm <;> rw [hm] at h
      · left; right; exact h
      · right; left; rw [h]; ring
  · simp only [if_true] at h
    push_cast
    rcases h with h | h
    · rcases max_choice (0:K) (a2 - a1) with hm | hm <;> rw [hm] at h
      · left; left; exact h
      · right; left; rw [h]; ring
    · rcases min_choice (boxC : K) (boxC + a2 - a1) with hm | hm <;> rw [hm] at h
      · left; right; exact h
      · right; right; rw [h]; ring

omit [IsStrictOrderedRing K] in
/-- What `newAlpha2` can return. -/
theorem newAlpha2_cases (eps eta : K) (y2 : Int) (e1 e2 a2 lo hi : K) (hlh : lo ≤ hi) (ha : lo ≤ a2) (ha' : a2 ≤ hi) :
    let na := newAlpha2 eps eta y2 e1 e2 a2 lo hi
    (lo ≤ na ∧ na ≤ hi) ∧
      (na = lo ∨ na = hi ∨ na = a2 ∨ (eta < 0 ∧ na = a2 + (y2 : K) * (e2 - e1) / eta)) := by
  intro na
  simp only [na, newAlpha2]
  by_cases h : eta < 0
  · rw [if_pos h]
    by_cases h1 : a2 + (y2 : K) * (e2 - e1) / eta < lo
    · rw [if_pos h1]; exact ⟨⟨le_refl _, hlh⟩, Or.inl rfl⟩
    · rw [if_neg h1]
      by_cases h2 : hi < a2 + (y2 : K) * (e2 - e1) / eta
      · rw [if_pos h2]; exact ⟨⟨hlh, le_refl _⟩, Or.inr (Or.inl rfl)⟩
      · rw [if_neg h2]
        exact ⟨⟨not_lt.1 h1, not_lt.1 h2⟩, Or.inr (Or.inr (Or.inr ⟨h, rfl⟩))⟩
  · rw [if_neg h]
    split_ifs
    · exact ⟨⟨le_refl _, hlh⟩, Or.inl rfl⟩
    · exact ⟨⟨hlh, le_refl _⟩, Or.inr (Or.inl rfl)⟩
    · exact ⟨⟨ha, ha'⟩, Or.inr (Or.inr (Or.inl rfl))⟩

/-- The gain of a step along the pair's line is positive when the curvature is not positive. -/
theorem newAlpha2_gain (eps eta : K) (y2 : Int) (e1 e2 a2 lo hi : K)
    (heps : 0 < eps) (heta : eta ≤ 0) (ha : lo ≤ a2) (ha' : a2 ≤ hi)
    (hne : newAlpha2 eps eta y2 e1 e2 a2 lo hi ≠ a2) :
    let d := newAlpha2 eps eta y2 e1 e2 a2 lo hi - a2
    0 < (y2 : K) * (e1 - e2) * d + (1/2) * eta * d ^ 2 := by
  intro d
  rcases lt_or_eq_of_le heta with h | h
  · -- proper curvature
    have hd : ∃ t, 0 < t ∧ t ≤ 1 ∧ d = t * ((y2 : K) * (e2 - e1) / eta) := by
      simp only [d, newAlpha2] at hne ⊢
      rw [if_pos h] at hne ⊢
      set u := (y2 : K) * (e2 - e1) / eta with hu
      by_cases h1 : a2 + u < lo
      · rw [if_pos h1] at hne ⊢
        have hlt : lo - a2 < 0 := by
          have : lo ≠ a2 := hne
          have := lt_of_le_of_ne ha this; linarith
        have hun : u < 0 := by linarith
        refine ⟨(lo - a2) / u, div_pos_of_neg_of_neg hlt hun, ?_, ?_⟩
        · rw [div_le_one_of_neg hun]; linarith
        · field_simp [hun.ne]
      · rw [if_neg h1] at hne ⊢
        by_cases h2 : hi < a2 + u
        · rw [if_pos h2] at hne ⊢
          have hlt : 0 < hi - a2 := by
            have := lt_of_le_of_ne ha' (Ne.symm hne); linarith
          have hup : 0 < u := by linarith
          refine ⟨(hi - a2) / u, div_pos hlt hup, ?_, ?_⟩
          · rw [div_le_one hup]; linarith
          · field_simp [hup.ne']
        · rw [if_neg h2] at hne ⊢
          exact ⟨1, one_pos, le_refl _, by ring⟩
    obtain ⟨t, ht0, ht1, hd⟩ := hd
    have hdne : d ≠ 0 := sub_ne_zero.2 hne
    have hgain : (y2 : K) * (e1 - e2) * d + (1/2) * eta * d ^ 2 = -eta * (1 / t - 1/2) * d ^ 2 := by
      have hu : (y2 : K) * (e1 - e2) = - eta * (d / t) := by
        rw [hd]; field_simp [h.ne, ht0.ne']; ring
      rw [hu]; field_simp [ht0.ne']
      ring
    rw [hgain]
    have h1 : 1 ≤ 1 / t := by rw [le_div_iff₀ ht0]; linarith
    have h2 : 0 < 1 / t - 1/2 := by linarith
    have h3 : 0 < d ^ 2 := by positivity
    exact mul_pos (mul_pos (by linarith) h2) h3
  · -- flat: the code never moves
    exfalso
    apply hne
    subst h
    unfold newAlpha2
    rw [if_neg (lt_irrefl _)]
    simp only [zero_div, zero_mul, zero_add, sub_zero]
    rw [if_neg (by linarith), if_neg (by linarith)]

omit [IsStrictOrderedRing K] in
/-- The cache refresh: other non-bound samples get their exact error, the pair gets zero. -/
theorem refresh_spec {c : Cfg K} {s : St K} (h : SvHolds c (fun k => 0 < s.alpha k) s)
    (hnn : ∀ i < c.n, 0 ≤ s.alpha i) (i1 i2 : Nat) :
    ∃ e, refresh c i1 i2 s = .ok { s with err := e } ∧ e i1 = 0 ∧ e i2 = 0 ∧
      ∀ k < c.n, k ≠ i1 → k ≠ i2 → 0 < s.alpha k → s.alpha k < boxC →
        e k = decisionValue c s.alpha s.bias k - (c.y k : K) := by
  obtain ⟨hd, nx, ks, hde, hnx, hnd, hm, hw⟩ := SvHolds.walk (β := St K) h
  have hloop : ∀ (ks : List Nat), (∀ k ∈ ks, k < c.n) → ∀ e0, ∃ e,
      ks.foldlM (fun (s : St K) (k : Nat) => (do
        let i ← sampleIdx c.n (k : Int)
        if (i ≠ i1 ∧ i ≠ i2) ∧ s.alpha i < boxC then do
          let f ← function c s i
          .ok { s with err := upd s.err i (f - (c.y i : K)) }
        else .ok s : Res (St K))) { s with err := e0 } = .ok { s with err := e } ∧
      (∀ k, k ∉ ks → e k = e0 k) ∧
      (∀ k ∈ ks, k ≠ i1 → k ≠ i2 → s.alpha k < boxC →
        e k = decisionValue c s.alpha s.bias k - (c.y k : K)) := by
    intro ks
    induction ks with
    | nil => intro _ e0; exact ⟨e0, rfl, fun _ _ => rfl, fun k hk => by simp at hk⟩
    | cons a l ih =>
      intro hk e0
      have ha := hk a (by simp)
      rw [List.foldlM_cons, sampleIdx_nat _ _ ha, Res_bind_ok]
      have hf : function c { s with err := e0 } a = .ok (decisionValue c s.alpha s.bias a) :=
        function_spec (s := { s with err := e0 }) (h.congr (fun _ _ => Iff.rfl) rfl rfl rfl) hnn a
      by_cases hcnd : (a ≠ i1 ∧ a ≠ i2) ∧ s.alpha a < boxC
      · rw [if_pos hcnd, hf, Res_bind_ok, Res_bind_ok]
        obtain ⟨e, he, h1, h2⟩ := ih (fun k hk' => hk k (by simp [hk'])) (upd e0 a (decisionValue c s.alpha s.bias a - (c.y a : K)))
        refine ⟨e, he, ?_, ?_⟩
        · intro k hkn
          simp only [List.mem_cons, not_or] at hkn
          rw [h1 k hkn.2, upd_other _ _ _ _ hkn.1]
        · intro k hkm hk1 hk2 hkc
          by_cases hkl : k ∈ l
          · exact h2 k hkl hk1 hk2 hkc
          · have : k = a := by simpa [hkl] using hkm
            subst this
            rw [h1 k hkl, upd_same]
      · rw [if_neg hcnd, Res_bind_ok]
        obtain ⟨e, he, h1, h2⟩ := ih (fun k hk' => hk k (by simp [hk'])) e0
        refine ⟨e, he, ?_, ?_⟩
        · intro k hkn
          simp only [List.mem_cons, not_or] at hkn
          exact h1 k hkn.2
        · intro k hkm hk1 hk2 hkc
          by_cases hkl : k ∈ l
          · exact h2 k hkl hk1 hk2 hkc
          · have : k = a := by simpa [hkl] using hkm
            subst this
            exact absurd ⟨⟨hk1, hk2⟩, hkc⟩ hcnd
  obtain ⟨e, he, _, h2⟩ := hloop ks (fun k hk => ((hm k).1 hk).1) s.err
  refine ⟨upd (upd e i1 0) i2 0, ?_, ?_, by simp, ?_⟩
  · unfold refresh
    rw [hde, Res_bind_ok, hnx, hw]
    have hs : ({ s with err := s.err } : St K) = s := rfl
    rw [hs] at he
    rw [he, Res_bind_ok]
  · by_cases h12 : i1 = i2
    · subst h12; simp
    · rw [upd_other _ _ _ _ h12, upd_same]
  · intro k hk hk1 hk2 hp hc
    rw [upd_other _ _ _ _ hk2, upd_other _ _ _ _ hk1]
    exact h2 k ((hm k).2 ⟨hk, hp⟩) hk1 hk2 hc

/-- A pair's labels. -/
theorem label_cases {c : Cfg K} (hy : TwoClass c) {i : Nat} (hi : i < c.n) :
    (c.y i : K) = 1 ∨ (c.y i : K) = -1 := by
  rcases hy i hi with h | h <;> rw [h] <;> simp

/-- Storing a step: the invariant holds again. -/
theorem commit_spec {c : Cfg K} {s : St K} (hy : TwoClass c) (hsym : SymmetricM c) (hinv : SmoInv c s)
    {i1 i2 : Nat} (h1 : i1 < c.n) (h2 : i2 < c.n) (hne : i1 ≠ i2) (na2 : K)
    (hlo : (bounds (c.y i1 * c.y i2) (s.alpha i1) (s.alpha i2)).1 ≤ na2)
    (hhi : na2 ≤ (bounds (c.y i1 * c.y i2) (s.alpha i1) (s.alpha i2)).2)
    (e1 e2 : K) (he1 : e1 = decisionValue c s.alpha s.bias i1 - (c.y i1 : K))
    (he2 : e2 = decisionValue c s.alpha s.bias i2 - (c.y i2 : K))
    (hcase : (na2 = (bounds (c.y i1 * c.y i2) (s.alpha i1) (s.alpha i2)).1 ∨
        na2 = (bounds (c.y i1 * c.y i2) (s.alpha i1) (s.alpha i2)).2) ∨
      (2 * c.M i1 i2 - c.M i1 i1 - c.M i2 i2 < 0 ∧
        na2 = s.alpha i2 + (c.y i2 : K) * (e2 - e1) / (2 * c.M i1 i2 - c.M i1 i1 - c.M i2 i2))) :
    ∃ s', commit c s i1 i2 e1 e2 na2 = .ok s' ∧ SmoInv c s' ∧ s'.done = s.done ∧
      s'.alpha = upd (upd s.alpha i1 (s.alpha i1 - (c.y i1 : K) * (c.y i2 : K) * (na2 - s.alpha i2))) i2 na2 := by
  have hs : c.y i1 * c.y i2 = 1 ∨ c.y i1 * c.y i2 = -1 := by
    rcases hy i1 h1 with h | h <;> rcases hy i2 h2 with h' | h' <;> rw [h, h'] <;> simp
  obtain ⟨⟨hn2, hn2'⟩, hn1, hn1'⟩ := bounds_box hs hlo hhi
  have hcast : ((c.y i1 * c.y i2 : Int) : K) = (c.y i1 : K) * (c.y i2 : K) := by push_cast; rfl
  set na1 := s.alpha i1 - ((c.y i1 * c.y i2 : Int) : K) * (na2 - s.alpha i2) with hna1
  have hadj : adjust (c.y i1 * c.y i2) na1 na2 = (na1, na2) := by
    unfold adjust
    rw [if_neg (not_lt.2 hn1), if_neg (not_lt.2 hn1')]
  unfold commit
  simp only []
  rw [← hna1, hadj]
  simp only []
  set al := upd (upd s.alpha i1 na1) i2 na2 with hal
  have hal1 : al i1 = na1 := by rw [hal, upd_other _ _ _ _ hne, upd_same]
  have hal2 : al i2 = na2 := by rw [hal, upd_same]
  have halo : ∀ k, k ≠ i1 → k ≠ i2 → al k = s.alpha k := fun k hk1 hk2 => by
    rw [hal, upd_other _ _ _ _ hk2, upd_other _ _ _ _ hk1]
  obtain ⟨s1, hs1, hsv1, ha1, _, hd1, hb1⟩ := saveSv_spec
    (s := { s with alpha := al }) (P := fun k => 0 < s.alpha k)
    (hinv.svs.congr (fun _ _ => Iff.rfl) rfl rfl rfl) i1 h1 na1 hn1
  rw [hs1, Res_bind_ok]
  obtain ⟨s2, hs2, hsv2, ha2, _, hd2, hb2⟩ := saveSv_spec hsv1 i2 h2 na2 hn2
  rw [hs2, Res_bind_ok]
  have hsa2 : s2.alpha = al := by rw [ha2, ha1]
  set t1 := (c.y i1 : K) * (na1 - s.alpha i1) with ht1
  set t2 := (c.y i2 : K) * (na2 - s.alpha i2) with ht2
  set nb := newB c i1 i2 (-s.bias) e1 e2 na1 na2 t1 t2 with hnb
  have hnn : ∀ k < c.n, 0 ≤ al k := by
    intro k hk
    by_cases hk1 : k = i1
    · rw [hk1, hal1]; exact hn1
    · by_cases hk2 : k = i2
      · rw [hk2, hal2]; exact hn2
      · rw [halo k hk1 hk2]; exact hinv.feasible.nonneg k hk
  have hsv3 : SvHolds c (fun k => 0 < ({ s2 with bias := -nb } : St K).alpha k) { s2 with bias := -nb } := by
    refine hsv2.congr ?_ rfl rfl rfl
    intro k hk
    simp only [hsa2]
    by_cases hk2 : k = i2
    · rw [if_pos hk2, hk2, hal2]
    · rw [if_neg hk2]
      by_cases hk1 : k = i1
      · rw [if_pos hk1, hk1, hal1]
      · rw [if_neg hk1, halo k hk1 hk2]
  obtain ⟨e, hre, hei1, hei2, hek⟩ := refresh_spec (c := c) (s := { s2 with bias := -nb }) hsv3
    (by simp only [hsa2]; exact hnn) i1 i2
  simp only [hsa2] at hek
  refine ⟨_, hre, ⟨⟨?_, ?_, ?_⟩, ?_, ?_⟩, ?_, ?_⟩
  · simp only [hsa2]; exact hnn
  · simp only [hsa2]
    intro k hk
    by_cases hk1 : k = i1
    · rw [hk1, hal1]; exact hn1'
    · by_cases hk2 : k = i2
      · rw [hk2, hal2]; exact hn2'
      · rw [halo k hk1 hk2]; exact hinv.feasible.le_C k hk
  · simp only [hsa2]
    have hb := hinv.feasible.balance
    have := sum_upd2 c.n s.alpha (fun j => (c.y j : K)) i1 i2 na1 na2 hne h1 h2
    rw [← hal] at this
    simp only [mul_comm (_ : K) (al _)]
    rw [this]
    simp only [mul_comm (_ : K) (s.alpha _)] at hb
    rw [hb, hna1, hcast]
    rcases label_cases hy h1 with h | h <;> rcases label_cases hy h2 with h' | h' <;> rw [h, h'] <;> ring
  · exact hsv3.congr (fun _ _ => Iff.rfl) rfl rfl rfl
  · -- the cache
    intro k hk hp hcc
    simp only [hsa2] at hp hcc ⊢
    have hdec := fun k => decision_upd2 c s.alpha i1 i2 na1 na2 s.bias (-nb) hne h1 h2 k
    rw [← hal] at hdec
    have hb12 : c.M i2 i1 = c.M i1 i2 := hsym i2 h2 i1 h1
    by_cases hk1 : k = i1
    · subst hk1
      rw [hal1] at hp hcc
      rw [hei1, hdec k]
      have : nb = -s.bias + e1 + t1 * c.M k k + t2 * c.M k i2 := by
        rw [hnb, newB, if_pos ⟨hp, hcc⟩]
      rw [this, he1, hb12, ht1, ht2]; ring
    · by_cases hk2 : k = i2
      · subst hk2
        rw [hal2] at hp hcc
        rw [hei2, hdec k]
        by_cases hb1 : 0 < na1 ∧ na1 < boxC
        · -- both inside the box: the step was not clipped
          have hnb' : nb = -s.bias + e1 + t1 * c.M i1 i1 + t2 * c.M i1 k := by
            rw [hnb, newB, if_pos hb1]
          rcases hcase with hc | ⟨heta, hna2⟩
          · exfalso
            rcases bounds_end hs hc with (h | h) | (h | h)
            · rw [h] at hp; exact lt_irrefl _ hp
            · rw [h] at hcc; exact lt_irrefl _ hcc
            · have := hb1.1; rw [hna1, h] at this; exact lt_irrefl _ this
            · have := hb1.2; rw [hna1, h] at this; exact lt_irrefl _ this
          · have hd : (na2 - s.alpha k) * (2 * c.M i1 k - c.M i1 i1 - c.M k k) = (c.y k : K) * (e2 - e1) := by
              rw [hna2]; field_simp [heta.ne]; ring
            have hsq : (c.y k : K) * (c.y k : K) = 1 := by
              rcases label_cases hy h2 with h | h <;> rw [h] <;> ring
            have hsq1 : (c.y i1 : K) * (c.y i1 : K) = 1 := by
              rcases label_cases hy h1 with h | h <;> rw [h] <;> ring
            have ht1' : t1 = -(c.y k : K) * (na2 - s.alpha k) := by
              rw [ht1, hna1, hcast]
              linear_combination (-(c.y k : K) * (na2 - s.alpha k)) * hsq1
            have ht2' : t2 = (c.y k : K) * (na2 - s.alpha k) := ht2
            have e12 : e2 - e1 = (c.y k : K) * ((na2 - s.alpha k) * (2 * c.M i1 k - c.M i1 i1 - c.M k k)) := by
              rw [hd]; linear_combination (-(e2 - e1)) * hsq
            rw [hnb', ← ht1, ← ht2, ht1', ht2']
            linear_combination he2 - e12
        · have hnb' : nb = -s.bias + e2 + t1 * c.M i1 k + t2 * c.M k k := by
            rw [hnb, newB, if_neg hb1, if_pos ⟨hp, hcc⟩]
          rw [hnb', he2, ht1, ht2]; ring
      · exact hek k hk hk1 hk2 hp hcc
  · simp only []; rw [hd2, hd1]
  · simp only [hsa2]; rw [hal, hna1, hcast]

end MLTK.Smo
