import Verif.Lemmas.SmoStep
/-!
# The SMO training loops
-/
namespace MLTK.Smo
open MLTK.Spec MLTK.Dll
open MLTK.Data (Res_bind_ok Res_bind_error Res_pure)

variable {K : Type} [Field K] [LinearOrder K] [IsStrictOrderedRing K]

omit [IsStrictOrderedRing K] in
theorem SmoInv_done {c : Cfg K} {s : St K} (h : SmoInv c s) (d : Nat → Bool) : SmoInv c { s with done := d } :=
  ⟨h.feasible, h.svs.congr (fun _ _ => Iff.rfl) rfl rfl rfl, h.cache⟩

/-- One call of `take_step`. -/
theorem takeStep_spec {c : Cfg K} {s : St K} (hy : TwoClass c) (hsym : SymmetricM c) (heps : 0 < c.eps)
    (hinv : SmoInv c s) {i1 i2 : Nat} (h1 : i1 < c.n) (h2 : i2 < c.n) (hne : i1 ≠ i2) :
    ∃ r s', takeStep c s i1 i2 = .ok (r, s') ∧ SmoInv c s' ∧ s'.done = upd s.done i2 true ∧
      (r = false → s' = { s with done := upd s.done i2 true }) ∧
      (r = true → NonnegDist c → dualObjective c s.alpha < dualObjective c s'.alpha) := by
  have hinv' := SmoInv_done hinv (upd s.done i2 true)
  unfold takeStep
  simp only []
  rw [errorOf_spec hinv' i1 h1, Res_bind_ok, errorOf_spec hinv' i2 h2, Res_bind_ok]
  simp only []
  set e1 := decisionValue c s.alpha s.bias i1 - (c.y i1 : K) with he1
  set e2 := decisionValue c s.alpha s.bias i2 - (c.y i2 : K) with he2
  have hs : c.y i1 * c.y i2 = 1 ∨ c.y i1 * c.y i2 = -1 := by
    rcases hy i1 h1 with h | h <;> rcases hy i2 h2 with h' | h' <;> rw [h, h'] <;> simp
  obtain ⟨hlo, hhi⟩ := bounds_mem hs (hinv.feasible.nonneg i1 h1) (hinv.feasible.le_C i1 h1)
    (hinv.feasible.nonneg i2 h2) (hinv.feasible.le_C i2 h2)
  generalize hlo' : (bounds (c.y i1 * c.y i2) (s.alpha i1) (s.alpha i2)).1 = lo at hlo ⊢
  generalize hhi' : (bounds (c.y i1 * c.y i2) (s.alpha i1) (s.alpha i2)).2 = hi at hhi ⊢
  by_cases hlh : lo = hi
  · rw [if_pos hlh]
    exact ⟨false, _, rfl, hinv', rfl, fun _ => rfl, fun h => by simp at h⟩
  rw [if_neg hlh]
  set eta := 2 * c.M i1 i2 - c.M i1 i1 - c.M i2 i2 with heta
  obtain ⟨hrng, hcs⟩ := newAlpha2_cases c.eps eta (c.y i2) e1 e2 (s.alpha i2) lo hi (le_trans hlo hhi) hlo hhi
  generalize hna : newAlpha2 c.eps eta (c.y i2) e1 e2 (s.alpha i2) lo hi = na at hrng hcs ⊢
  by_cases hch : |na - s.alpha i2| < c.eps * (na + s.alpha i2 + c.eps)
  · rw [if_pos hch]
    exact ⟨false, _, rfl, hinv', rfl, fun _ => rfl, fun h => by simp at h⟩
  rw [if_neg hch]
  have hnea : na ≠ s.alpha i2 := by
    intro h
    apply hch
    rw [h, sub_self, abs_zero]
    have := hinv.feasible.nonneg i2 h2
    positivity
  have hcase : (na = lo ∨ na = hi) ∨ (eta < 0 ∧ na = s.alpha i2 + (c.y i2 : K) * (e2 - e1) / eta) := by
    rcases hcs with h | h | h | h
    · exact Or.inl (Or.inl h)
    · exact Or.inl (Or.inr h)
    · exact absurd h hnea
    · exact Or.inr h
  obtain ⟨s', hs', hinv2, hd, hal⟩ := commit_spec hy hsym hinv' h1 h2 hne na
    (by simp only [hlo']; exact hrng.1) (by simp only [hhi']; exact hrng.2) e1 e2 he1 he2
    (by simp only [hlo', hhi']; exact hcase)
  rw [hs', Res_bind_ok]
  refine ⟨true, s', rfl, hinv2, hd, fun h => by simp at h, fun _ hnd => ?_⟩
  simp only [] at hal
  rw [hal, dual_upd2 c s.alpha i1 i2 _ _ hne h1 h2 hsym]
  have hetan : eta ≤ 0 := by have := hnd i1 h1 i2 h2; rw [heta]; linarith
  have hgain := newAlpha2_gain c.eps eta (c.y i2) e1 e2 (s.alpha i2) lo hi heps hetan hlo hhi
    (by rw [hna]; exact hnea)
  rw [hna] at hgain
  simp only [] at hgain
  have hd1 : decisionValue c s.alpha 0 i1 = e1 + (c.y i1 : K) - s.bias := by
    rw [he1]; unfold decisionValue; ring
  have hd2 : decisionValue c s.alpha 0 i2 = e2 + (c.y i2 : K) - s.bias := by
    rw [he2]; unfold decisionValue; ring
  rw [hd1, hd2]
  rw [heta] at hgain
  rcases label_cases hy h1 with h | h <;> rcases label_cases hy h2 with h' | h' <;> rw [h, h'] <;>
    rw [h'] at hgain <;> nlinarith [hgain]

/-- No step from this state with this pair: the interval is a point or the change is too small. -/
def stuck (c : Cfg K) (alpha : Nat → K) (bias : K) (i1 i2 : Nat) : Prop :=
  let lo := (bounds (c.y i1 * c.y i2) (alpha i1) (alpha i2)).1
  let hi := (bounds (c.y i1 * c.y i2) (alpha i1) (alpha i2)).2
  let na := newAlpha2 c.eps (2 * c.M i1 i2 - c.M i1 i1 - c.M i2 i2) (c.y i2)
    (decisionValue c alpha bias i1 - (c.y i1 : K)) (decisionValue c alpha bias i2 - (c.y i2 : K)) (alpha i2) lo hi
  lo = hi ∨ |na - alpha i2| < c.eps * (na + alpha i2 + c.eps)

omit [IsStrictOrderedRing K] in
theorem takeStep_stuck {c : Cfg K} {s : St K}
    (hinv : SmoInv c s) {i1 i2 : Nat} (h1 : i1 < c.n) (h2 : i2 < c.n) :
    (∃ s', takeStep c s i1 i2 = .ok (false, s')) ↔ stuck c s.alpha s.bias i1 i2 := by
  have hinv' := SmoInv_done hinv (upd s.done i2 true)
  unfold takeStep
  simp only []
  rw [errorOf_spec hinv' i1 h1, Res_bind_ok, errorOf_spec hinv' i2 h2, Res_bind_ok]
  unfold stuck
  simp only []
  by_cases hlh : (bounds (c.y i1 * c.y i2) (s.alpha i1) (s.alpha i2)).1 =
      (bounds (c.y i1 * c.y i2) (s.alpha i1) (s.alpha i2)).2
  · rw [if_pos hlh]; exact ⟨fun _ => Or.inl hlh, fun _ => ⟨_, rfl⟩⟩
  · rw [if_neg hlh]
    generalize newAlpha2 c.eps (2 * c.M i1 i2 - c.M i1 i1 - c.M i2 i2) (c.y i2)
      (decisionValue c s.alpha s.bias i1 - (c.y i1 : K)) (decisionValue c s.alpha s.bias i2 - (c.y i2 : K)) (s.alpha i2)
      (bounds (c.y i1 * c.y i2) (s.alpha i1) (s.alpha i2)).1
      (bounds (c.y i1 * c.y i2) (s.alpha i1) (s.alpha i2)).2 = na
    by_cases hq : |na - s.alpha i2| < c.eps * (na + s.alpha i2 + c.eps)
    · rw [if_pos hq]
      exact ⟨fun _ => Or.inr hq, fun _ => ⟨_, rfl⟩⟩
    · rw [if_neg hq]
      constructor
      · rintro ⟨s2, hs2⟩
        exfalso
        revert hs2
        generalize commit c _ i1 i2 _ _ _ = cr
        cases cr <;> intro h <;> simp at h
      · rintro (h | h)
        · exact absurd h hlh
        · exact absurd h hq

/-- Every sample marked done, other than `i1` itself, has been tried with `i1` in vain. -/
def Marked (c : Cfg K) (i1 : Nat) (s : St K) : Prop :=
  ∀ k < c.n, k ≠ i1 → s.done k = true → stuck c s.alpha s.bias i1 k

/-- A property of training states that every step keeps. -/
structure StepInv (c : Cfg K) (P : St K → Prop) : Prop where
  inv : ∀ s, P s → SmoInv c s
  done : ∀ s d, P s → P { s with done := d }
  step : ∀ s i1 i2 r s', i1 < c.n → i2 < c.n → i1 ≠ i2 → P s → takeStep c s i1 i2 = .ok (r, s') → P s'

/-- The result of a search for a partner: state kept in `P`, and unchanged but for `done` on failure. -/
def Searched (c : Cfg K) (P : St K → Prop) (i1 : Nat) (s : St K) (res : Res (Bool × St K)) : Prop :=
  ∃ r s', res = .ok (r, s') ∧ P s' ∧ s'.done i1 = true ∧
    (r = false → ∃ d, s' = { s with done := d } ∧ (∀ k, s.done k = true → d k = true) ∧
      (Marked c i1 s → Marked c i1 { s with done := d }))

theorem takeStep_searched {c : Cfg K} {P : St K → Prop} (hP : StepInv c P) (hy : TwoClass c)
    (hsym : SymmetricM c) (heps : 0 < c.eps) {s : St K} (hs : P s) {i1 i2 : Nat} (h1 : i1 < c.n) (h2 : i2 < c.n)
    (hd1 : s.done i1 = true) (hd2 : s.done i2 = false) : Searched c P i1 s (takeStep c s i1 i2) := by
  have hne : i1 ≠ i2 := by rintro rfl; rw [hd1] at hd2; simp at hd2
  obtain ⟨r, s', he, _, hd, hf, _⟩ := takeStep_spec hy hsym heps (hP.inv s hs) h1 h2 hne
  refine ⟨r, s', he, hP.step s i1 i2 r s' h1 h2 hne hs he, ?_, fun h => ⟨_, hf h, ?_, ?_⟩⟩
  · rw [hd, upd_other _ _ _ _ hne]; exact hd1
  · intro k hk
    by_cases hk2 : k = i2
    · rw [hk2, upd_same]
    · rw [upd_other _ _ _ _ hk2]; exact hk
  · intro hM k hk hk1 hkd
    by_cases hk2 : k = i2
    · subst hk2
      subst h
      exact (takeStep_stuck (hP.inv s hs) h1 h2).1 ⟨_, he⟩
    · simp only [upd_other _ _ _ _ hk2] at hkd
      exact hM k hk hk1 hkd

omit [IsStrictOrderedRing K] in
theorem pickMax_spec {c : Cfg K} {s : St K} (hinv : SmoInv c s) (e1 : K) :
    ∃ r, pickMax c s e1 = .ok r ∧ (∀ k, r.2 = some k → k < c.n ∧ s.done k = false) := by
  obtain ⟨hd, nx, ks, hde, hnx, hnd, hm, hw⟩ := SvHolds.walk (β := K × Option Nat) hinv.svs
  unfold pickMax
  rw [hde, Res_bind_ok, hnx, hw]
  apply foldlM_inv (fun r : K × Option Nat => ∀ k, r.2 = some k → k < c.n ∧ s.done k = false)
  · simp
  · intro k hk b hb
    have hkn := ((hm k).1 hk).1
    rw [sampleIdx_nat _ _ hkn, Res_bind_ok]
    by_cases hcnd : s.done k = false ∧ s.alpha k < boxC
    · rw [if_pos hcnd]
      simp only []
      by_cases ht : b.1 < |e1 - s.err k|
      · rw [if_pos ht]
        refine ⟨_, rfl, ?_⟩
        intro k' hk'
        simp only [Option.some.injEq] at hk'
        subst hk'
        exact ⟨hkn, hcnd.1⟩
      · rw [if_neg ht]; exact ⟨b, rfl, hb⟩
    · rw [if_neg hcnd]; exact ⟨b, rfl, hb⟩

theorem maxErrors_spec {c : Cfg K} {P : St K → Prop} (hP : StepInv c P) (hy : TwoClass c)
    (hsym : SymmetricM c) (heps : 0 < c.eps) {s : St K} (hs : P s) {i1 : Nat} (h1 : i1 < c.n)
    (hd1 : s.done i1 = true) (e1 : K) : Searched c P i1 s (maxErrors c s i1 e1) := by
  obtain ⟨r, hr, hk⟩ := pickMax_spec (hP.inv s hs) e1
  unfold maxErrors
  rw [hr, Res_bind_ok]
  cases h : r.2 with
  | none => exact ⟨false, s, rfl, hs, hd1, fun _ => ⟨s.done, rfl, fun _ h => h, fun h => h⟩⟩
  | some i2 => exact takeStep_searched hP hy hsym heps hs h1 (hk i2 h).1 hd1 (hk i2 h).2

theorem nonBoundLoop_spec {c : Cfg K} {P : St K → Prop} (hP : StepInv c P) (hy : TwoClass c)
    (hsym : SymmetricM c) (heps : 0 < c.eps) {i1 : Nat} (h1 : i1 < c.n) (l : List (Nat × Int)) :
    ∀ (f : Nat) (prev cur : Option Nat) (s : St K), P s → s.done i1 = true → Linked s.heap prev cur l →
      l.length ≤ f → (∀ i ∈ l.map Prod.snd, ∃ k : Nat, k < c.n ∧ i = k) →
      Searched c P i1 s (nonBoundLoop c i1 f cur s) := by
  induction l with
  | nil =>
    intro f prev cur s hs hd hl _ _
    cases hl
    refine ⟨false, s, ?_, hs, hd, fun _ => ⟨s.done, rfl, fun _ h => h, fun h => h⟩⟩
    cases f <;> rfl
  | cons a l ih =>
    obtain ⟨p, i⟩ := a
    intro f prev cur s hs hd hl hf hidx
    obtain ⟨rfl, nx, hc, hlk⟩ := hl
    obtain ⟨k, hk, rfl⟩ := hidx i (by simp)
    cases f with
    | zero => simp at hf
    | succ f =>
      have hcont : ∀ d : Nat → Bool, P { s with done := d } → d i1 = true →
          (∀ k, s.done k = true → d k = true) → (Marked c i1 s → Marked c i1 { s with done := d }) →
          Searched c P i1 s (nonBoundLoop c i1 f nx { s with done := d }) := by
        intro d hPd hd' hmono hmk
        obtain ⟨r, s', he, hPs, hds, hfail⟩ := ih f (some p) nx { s with done := d } hPd hd' hlk
          (by simpa using hf) (fun j hj => hidx j (by rw [List.map_cons, List.mem_cons]; right; exact hj))
        refine ⟨r, s', he, hPs, hds, fun h => ?_⟩
        obtain ⟨d', hd'', hm', hk'⟩ := hfail h
        exact ⟨d', hd'', fun k hk => hm' k (hmono k hk), fun hM => hk' (hmk hM)⟩
      simp only [nonBoundLoop, Dll.deref, hc, Res_bind_ok, sampleIdx_nat _ _ hk]
      by_cases hcnd : s.done k = false ∧ s.alpha k < boxC
      · rw [if_pos hcnd]
        obtain ⟨r, s', he, hPs, hds, hfail⟩ := takeStep_searched hP hy hsym heps hs h1 hk hd hcnd.1
        rw [he, Res_bind_ok]
        cases r with
        | true => exact ⟨true, s', rfl, hPs, hds, fun h => by simp at h⟩
        | false =>
          obtain ⟨d, rfl, hmono, hmk⟩ := hfail rfl
          simp only [Bool.false_eq_true, if_false, hc, Res_bind_ok]
          exact hcont d hPs hds hmono hmk
      · rw [if_neg hcnd]
        simp only [Bool.false_eq_true, if_false]
        exact hcont s.done hs hd (fun _ h => h) (fun h => h)

theorem iterateNonBound_spec {c : Cfg K} {P : St K → Prop} (hP : StepInv c P) (hy : TwoClass c)
    (hsym : SymmetricM c) (heps : 0 < c.eps) {s : St K} (hs : P s) {i1 : Nat} (h1 : i1 < c.n)
    (hd1 : s.done i1 = true) : Searched c P i1 s (iterateNonBound c s i1) := by
  obtain ⟨hd, nx, l, hhd, hc, hlk, hlen, ks, hks, _, hm⟩ := (hP.inv s hs).svs.nats
  unfold iterateNonBound
  rw [hhd, deref_some hc, Res_bind_ok]
  apply nonBoundLoop_spec hP hy hsym heps h1 l _ _ _ s hs hd1 hlk hlen
  intro i hi
  rw [hks] at hi
  obtain ⟨k, hk, rfl⟩ := List.mem_map.1 hi
  exact ⟨k, ((hm k).1 hk).1, rfl⟩

theorem allSetLoop_spec {c : Cfg K} {P : St K → Prop} (hP : StepInv c P) (hy : TwoClass c)
    (hsym : SymmetricM c) (heps : 0 < c.eps) {i1 : Nat} (h1 : i1 < c.n) (l : List Nat) :
    ∀ s : St K, P s → s.done i1 = true → (∀ k ∈ l, k < c.n) → Searched c P i1 s (allSetLoop c i1 l s) ∧
      ∀ s', allSetLoop c i1 l s = .ok (false, s') → ∀ k ∈ l, s'.done k = true := by
  induction l with
  | nil =>
    intro s hs hd _
    exact ⟨⟨false, s, rfl, hs, hd, fun _ => ⟨s.done, rfl, fun _ h => h, fun h => h⟩⟩, fun _ _ k hk => by simp at hk⟩
  | cons k l ih =>
    intro s hs hd hl
    have hk := hl k (by simp)
    unfold allSetLoop
    by_cases hcnd : s.done k = false
    · simp only [if_pos hcnd]
      obtain ⟨r, s', he, hPs, hds, hfail⟩ := takeStep_searched hP hy hsym heps hs h1 hk hd hcnd
      have hne : i1 ≠ k := by rintro rfl; rw [hd] at hcnd; simp at hcnd
      obtain ⟨_, _, he', _, hdk, _⟩ := takeStep_spec hy hsym heps (hP.inv s hs) h1 hk hne
      rw [he] at he'
      cases he'
      simp only [he, Res_bind_ok]
      cases r with
      | true => exact ⟨⟨true, s', rfl, hPs, hds, fun h => by simp at h⟩, fun s2 h => by simp at h⟩
      | false =>
        obtain ⟨d, rfl, hmono, hmk⟩ := hfail rfl
        simp only [Bool.false_eq_true, if_false]
        obtain ⟨⟨r2, s2, he2, hP2, hd2, hf2⟩, hall⟩ := ih _ hPs hds (fun j hj => hl j (by simp [hj]))
        refine ⟨⟨r2, s2, he2, hP2, hd2, fun h => ?_⟩, ?_⟩
        · obtain ⟨d', h', hm', hk'⟩ := hf2 h
          exact ⟨d', h', fun j hj => hm' j (hmono j hj), fun hM => hk' (hmk hM)⟩
        · intro s3 h3 j hj
          rcases List.mem_cons.1 hj with rfl | hj'
          · rw [he2] at h3
            cases h3
            obtain ⟨d', h', hm', _⟩ := hf2 rfl
            rw [h']
            apply hm'
            change d j = true
            have := congrFun hdk j
            simpa using this
          · exact hall s3 h3 j hj'
    · simp only [if_neg hcnd, Res_bind_ok, Bool.false_eq_true, if_false]
      obtain ⟨hS, hall⟩ := ih s hs hd (fun j hj => hl j (by simp [hj]))
      refine ⟨hS, ?_⟩
      intro s3 h3 j hj
      rcases List.mem_cons.1 hj with rfl | hj'
      · obtain ⟨r2, s2, he2, _, _, hf2⟩ := hS
        rw [he2] at h3
        cases h3
        obtain ⟨d', h', hm', _⟩ := hf2 rfl
        rw [h']
        apply hm'
        simpa using hcnd
      · exact hall s3 h3 j hj'

theorem iterateAllSet_spec {c : Cfg K} {P : St K → Prop} (hP : StepInv c P) (hy : TwoClass c)
    (hsym : SymmetricM c) (heps : 0 < c.eps) {s : St K} (hs : P s) {i1 : Nat} (h1 : i1 < c.n)
    (hd1 : s.done i1 = true) : Searched c P i1 s (iterateAllSet c s i1) ∧
      ∀ s', iterateAllSet c s i1 = .ok (false, s') → ∀ k < c.n, s'.done k = true := by
  unfold iterateAllSet
  have hn : c.n ≠ 0 := by omega
  simp only [if_neg hn]
  obtain ⟨hS, hall⟩ := allSetLoop_spec hP hy hsym heps h1
    ((List.range c.n).map (fun k => (c.k0 % c.n + k) % c.n)) s hs hd1 (by
      intro k hk
      obtain ⟨j, _, rfl⟩ := List.mem_map.1 hk
      exact Nat.mod_lt _ (by omega))
  refine ⟨hS, fun s' hs' k hk => hall s' hs' k (List.mem_map.2 ?_)⟩
  have hk0 : c.k0 % c.n < c.n := Nat.mod_lt _ (by omega)
  by_cases hle : c.k0 % c.n ≤ k
  · exact ⟨k - c.k0 % c.n, List.mem_range.2 (by omega), by
      rw [show c.k0 % c.n + (k - c.k0 % c.n) = k by omega, Nat.mod_eq_of_lt hk]⟩
  · refine ⟨k + c.n - c.k0 % c.n, List.mem_range.2 (by omega), ?_⟩
    rw [show c.k0 % c.n + (k + c.n - c.k0 % c.n) = k + c.n by omega, Nat.add_mod_right, Nat.mod_eq_of_lt hk]

/-- The optimality conditions of one sample, up to the tolerance. -/
def kktOk (c : Cfg K) (alpha : Nat → K) (bias : K) (i : Nat) : Prop :=
  let r := (c.y i : K) * (decisionValue c alpha bias i - (c.y i : K))
  ¬ ((r < -tol ∧ alpha i < boxC) ∨ (tol < r ∧ 0 < alpha i))

theorem examineExample_spec {c : Cfg K} {P : St K → Prop} (hP : StepInv c P) (hy : TwoClass c)
    (hsym : SymmetricM c) (heps : 0 < c.eps) {s : St K} (hs : P s) {i1 : Nat} (h1 : i1 < c.n) :
    ∃ r s', examineExample c s i1 = .ok (r, s') ∧ P s' ∧ (r = false → (∃ d, s' = { s with done := d }) ∧
      (kktOk c s.alpha s.bias i1 ∨ ∀ k < c.n, k ≠ i1 → stuck c s.alpha s.bias i1 k)) := by
  unfold examineExample
  simp only []
  set dn : Nat → Bool := fun i => if i = i1 then true else if i < c.n then false else s.done i with hdn
  have hs1 : P { s with done := dn } := hP.done s dn hs
  have hd1 : dn i1 = true := by simp [hdn]
  have hM0 : Marked c i1 { s with done := dn } := by
    intro k hk hk1 hkd
    simp [hdn, hk1, hk] at hkd
  rw [errorOf_spec (hP.inv _ hs1) i1 h1, Res_bind_ok]
  by_cases hcnd : ((c.y i1 : K) * (decisionValue c s.alpha s.bias i1 - (c.y i1 : K)) < -tol ∧ s.alpha i1 < boxC) ∨
      (tol < (c.y i1 : K) * (decisionValue c s.alpha s.bias i1 - (c.y i1 : K)) ∧ 0 < s.alpha i1)
  · rw [if_pos hcnd]
    obtain ⟨r, s', he, hPs, hds, hfail⟩ := maxErrors_spec hP hy hsym heps hs1 h1 hd1
      (decisionValue c s.alpha s.bias i1 - (c.y i1 : K))
    rw [he, Res_bind_ok]
    cases r with
    | true => exact ⟨true, s', rfl, hPs, fun h => by simp at h⟩
    | false =>
      obtain ⟨d, rfl, _, hk1⟩ := hfail rfl
      simp only [Bool.false_eq_true, if_false]
      obtain ⟨r, s', he, hPs, hds, hfail⟩ := iterateNonBound_spec hP hy hsym heps hPs h1 hds
      rw [he, Res_bind_ok]
      cases r with
      | true => exact ⟨true, s', rfl, hPs, fun h => by simp at h⟩
      | false =>
        obtain ⟨d, rfl, _, hk2⟩ := hfail rfl
        simp only [Bool.false_eq_true, if_false]
        obtain ⟨⟨r, s', he, hPs, hds, hfail⟩, hall⟩ := iterateAllSet_spec hP hy hsym heps hPs h1 hds
        refine ⟨r, s', he, hPs, fun h => ?_⟩
        subst h
        obtain ⟨d, hd, _, hk3⟩ := hfail rfl
        refine ⟨⟨d, hd⟩, Or.inr fun k hk hkne => ?_⟩
        have hM := hk3 (hk2 (hk1 hM0))
        have := hall s' he k hk
        rw [hd] at this
        exact hM k hk hkne this
  · rw [if_neg hcnd]
    exact ⟨false, _, rfl, hs1, fun _ => ⟨⟨dn, rfl⟩, Or.inl hcnd⟩⟩

theorem onePass_spec {c : Cfg K} {P : St K → Prop} (hP : StepInv c P) (hy : TwoClass c)
    (hsym : SymmetricM c) (heps : 0 < c.eps) {s : St K} (hs : P s) (all : Bool) :
    ∃ r, onePass c all s = .ok r ∧ P r.2 := by
  unfold onePass
  apply foldlM_inv (fun r : Nat × St K => P r.2)
  · exact hs
  · intro k hk b hb
    by_cases hcnd : all = true ∨ (0 < b.2.alpha k ∧ b.2.alpha k < boxC)
    · rw [if_pos hcnd]
      obtain ⟨r, s', he, hPs, _⟩ := examineExample_spec hP hy hsym heps hb (List.mem_range.1 hk)
      rw [he, Res_bind_ok]
      exact ⟨_, rfl, hPs⟩
    · rw [if_neg hcnd]
      exact ⟨b, rfl, hb⟩

theorem routineLoop_spec {c : Cfg K} {P : St K → Prop} (hP : StepInv c P) (hy : TwoClass c)
    (hsym : SymmetricM c) (heps : 0 < c.eps) (left : Nat) : ∀ (ch : Nat) (all : Bool) (s : St K), P s →
    ∃ r, routineLoop c left ch all s = .ok r ∧ P r.2 := by
  induction left with
  | zero =>
    intro ch all s hs
    unfold routineLoop
    by_cases h : 0 < ch ∨ all = true
    · rw [if_pos h]; exact ⟨(false, s), rfl, hs⟩
    · rw [if_neg h]; exact ⟨(true, s), rfl, hs⟩
  | succ left ih =>
    intro ch all s hs
    unfold routineLoop
    by_cases h : 0 < ch ∨ all = true
    · rw [if_pos h]
      obtain ⟨r, he, hPr⟩ := onePass_spec hP hy hsym heps hs all
      simp only [he, Res_bind_ok]
      exact ih _ _ _ hPr
    · rw [if_neg h]; exact ⟨(true, s), rfl, hs⟩

/-- A full pass without change leaves every sample optimal or stuck. -/
theorem onePass_zero {c : Cfg K} {P : St K → Prop} (hP : StepInv c P) (hy : TwoClass c)
    (hsym : SymmetricM c) (heps : 0 < c.eps) {s s' : St K} (hs : P s) (he : onePass c true s = .ok (0, s')) :
    (∃ d, s' = { s with done := d }) ∧ ∀ i < c.n, kktOk c s.alpha s.bias i ∨
      ∀ k < c.n, k ≠ i → stuck c s.alpha s.bias i k := by
  have hloop : ∀ (l : List Nat), (∀ k ∈ l, k < c.n) → ∀ (m : Nat) (d : Nat → Bool) (s' : St K), P { s with done := d } →
      l.foldlM (fun (r : Nat × St K) k => (do
        if true = true ∨ (0 < r.2.alpha k ∧ r.2.alpha k < boxC) then do
          let q ← examineExample c r.2 k
          .ok (if q.1 then r.1 + 1 else r.1, q.2)
        else .ok r : Res (Nat × St K))) (m, { s with done := d }) = .ok (0, s') →
      m = 0 ∧ (∃ d, s' = { s with done := d }) ∧ ∀ i ∈ l, kktOk c s.alpha s.bias i ∨
        ∀ k < c.n, k ≠ i → stuck c s.alpha s.bias i k := by
    have hpos : ∀ (l : List Nat), (∀ k ∈ l, k < c.n) → ∀ (m : Nat) (s1 s' : St K), P s1 →
        l.foldlM (fun (r : Nat × St K) k => (do
          if true = true ∨ (0 < r.2.alpha k ∧ r.2.alpha k < boxC) then do
            let q ← examineExample c r.2 k
            .ok (if q.1 then r.1 + 1 else r.1, q.2)
          else .ok r : Res (Nat × St K))) (m, s1) = .ok (0, s') → m = 0 := by
      intro l
      induction l with
      | nil => intro _ m s1 s' _ h; cases h; rfl
      | cons a l ih =>
        intro hl m s1 s' hs1 h
        rw [List.foldlM_cons] at h
        simp only [true_or, if_true] at h
        obtain ⟨r, s2, he2, hP2, _⟩ := examineExample_spec hP hy hsym heps hs1 (hl a (by simp))
        rw [he2, Res_bind_ok, Res_bind_ok] at h
        have := ih (fun k hk => hl k (by simp [hk])) _ _ _ hP2 (by simpa using h)
        cases r <;> simp at this
        exact this
    intro l
    induction l with
    | nil =>
      intro _ m d s' _ h
      cases h
      exact ⟨rfl, ⟨d, rfl⟩, fun i hi => by simp at hi⟩
    | cons a l ih =>
      intro hl m d s' hs1 h
      have hm := hpos (a :: l) hl m _ s' hs1 h
      subst hm
      rw [List.foldlM_cons] at h
      simp only [true_or, if_true] at h
      obtain ⟨r, s2, he2, hP2, hf⟩ := examineExample_spec hP hy hsym heps hs1 (hl a (by simp))
      rw [he2, Res_bind_ok, Res_bind_ok] at h
      have h0 := hpos l (fun k hk => hl k (by simp [hk])) _ _ _ hP2 (by simpa using h)
      cases r with
      | true => simp at h0
      | false =>
        obtain ⟨⟨d2, rfl⟩, hst⟩ := hf rfl
        obtain ⟨_, hd, hall⟩ := ih (fun k hk => hl k (by simp [hk])) 0 d2 s' hP2 (by simpa using h)
        refine ⟨rfl, hd, fun i hi => ?_⟩
        rcases List.mem_cons.1 hi with rfl | hi'
        · exact hst
        · exact hall i hi'
  unfold onePass at he
  obtain ⟨_, hd, hall⟩ := hloop (List.range c.n) (fun k hk => List.mem_range.1 hk) 0 s.done s' hs he
  exact ⟨hd, fun i hi => hall i (List.mem_range.2 hi)⟩

/-- The loop reports success only after a full pass without change. -/
theorem routineLoop_stop {c : Cfg K} {P : St K → Prop} (hP : StepInv c P) (hy : TwoClass c)
    (hsym : SymmetricM c) (heps : 0 < c.eps) (left : Nat) : ∀ (ch : Nat) (all : Bool) (s s' : St K), P s →
    (0 < ch ∨ all = true) → routineLoop c left ch all s = .ok (true, s') →
    ∀ i < c.n, kktOk c s'.alpha s'.bias i ∨ ∀ k < c.n, k ≠ i → stuck c s'.alpha s'.bias i k := by
  induction left with
  | zero =>
    intro ch all s s' hs h he
    unfold routineLoop at he
    rw [if_pos h] at he
    simp at he
  | succ left ih =>
    intro ch all s s' hs h he
    unfold routineLoop at he
    rw [if_pos h] at he
    obtain ⟨r, hr, hPr⟩ := onePass_spec hP hy hsym heps hs all
    simp only [hr, Res_bind_ok] at he
    by_cases h0 : r.1 = 0
    · cases all with
      | false =>
        simp only [Bool.false_eq_true, if_false, h0, if_true] at he
        exact ih 0 true r.2 s' hPr (Or.inr rfl) he
      | true =>
        simp only [if_true, h0] at he
        unfold routineLoop at he
        simp only [lt_self_iff_false, Bool.false_eq_true, or_self, if_false, Except.ok.injEq, Prod.mk.injEq,
          true_and] at he
        subst he
        have hr' : onePass c true s = .ok (0, r.2) := by rw [hr, ← h0]
        obtain ⟨⟨d, hd⟩, hall⟩ := onePass_zero hP hy hsym heps hs hr'
        rw [hd]
        exact hall
    · exact ih _ _ _ _ hPr (Or.inl (Nat.pos_of_ne_zero h0)) he

end MLTK.Smo
