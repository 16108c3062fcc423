import Verif.Lemmas.SmoLoop
import Verif.Props.Kernel
import Mathlib.Tactic.IntervalCases
/-!
# C39-C42: SMO training
-/
namespace MLTK.Props
open MLTK.Spec MLTK.Smo MLTK.Dll
open MLTK.Data (Res_bind_ok Res_bind_error Res_pure)

variable {K : Type} [Field K] [LinearOrder K]

theorem smoStart_inv {c : Cfg K} {s : St K} [IsStrictOrderedRing K] (h : SmoStart c s) : SmoInv c s := by
  refine ⟨⟨?_, ?_, ?_⟩, ?_, ?_⟩
  · intro i hi; rw [h.alpha i hi]
  · intro i hi; rw [h.alpha i hi]; norm_num
  · apply Finset.sum_eq_zero
    intro i hi; rw [h.alpha i (Finset.mem_range.1 hi), mul_zero]
  · obtain ⟨hd, hhd, hl, hlive⟩ := h.list
    refine ⟨hd, [], hhd, hl, by simp, ?_, ?_, fun p hp => by simp [hlive p hp]⟩
    · intro i
      simp only [List.map_nil, List.not_mem_nil, false_iff]
      rintro ⟨k, hk, _, hp⟩
      rw [h.alpha k hk] at hp
      exact lt_irrefl _ hp
    · intro k hk p
      rw [h.sv k hk]; simp
  · intro i hi hp
    rw [h.alpha i hi] at hp
    exact absurd hp (lt_irrefl _)

theorem smoReachable_inv {c : Cfg K} [IsStrictOrderedRing K] (hy : TwoClass c) (hsym : SymmetricM c)
    (heps : 0 < c.eps) {s : St K} (h : SmoReachable c s) : SmoInv c s := by
  induction h with
  | start h => exact smoStart_inv h
  | marks d _ ih => exact SmoInv_done ih d
  | @step s s' r i1 i2 _ h1 h2 hne he ih =>
    obtain ⟨r2, s2, he2, hinv, _⟩ := takeStep_spec hy hsym heps ih h1 h2 hne
    rw [he] at he2
    cases he2
    exact hinv

theorem reachable_stepInv {c : Cfg K} [IsStrictOrderedRing K] (hy : TwoClass c) (hsym : SymmetricM c)
    (heps : 0 < c.eps) : StepInv c (SmoReachable c) :=
  ⟨fun _ h => smoReachable_inv hy hsym heps h, fun _ d h => .marks d h,
    fun _ _ _ _ _ h1 h2 hne h he => .step h h1 h2 hne he⟩

/-- The state `train` hands to `training_routine`. -/
theorem train_start (c : Cfg K) (h : Heap) (hh : ∀ p, h.cells p = none) (alpha0 : Nat → K) :
    SmoStart c ({ alpha := fun i => if i < c.n then 0 else alpha0 i, err := fun _ => 0, done := fun _ => false,
                  sv := fun _ => none, heap := (alloc h).2, head := some (alloc h).1, bias := 0 } : St K) := by
  refine ⟨fun i hi => by simp [hi], rfl, fun _ _ => rfl, h.fresh, rfl, ⟨?_, ?_, by simp⟩, ?_⟩
  · intro p hp
    simp only [alloc] at hp ⊢
    by_cases h1 : p = h.fresh
    · omega
    · simp only [h1, if_false] at hp
      exact absurd (hh p) hp
  · exact ⟨rfl, none, by simp [alloc], rfl⟩
  · intro p hp
    by_contra h1
    simp only [alloc, h1, if_false] at hp
    exact hp (hh p)

/-- Training ends in a reachable state, without undefined behaviour. -/
theorem trainingRoutine_reach {c : Cfg K} [IsStrictOrderedRing K] (hy : TwoClass c) (hsym : SymmetricM c)
    (heps : 0 < c.eps) {s : St K} (h : SmoStart c s) :
    ∃ r, trainingRoutine c s = .ok r ∧ SmoReachable c r.2 := by
  unfold trainingRoutine
  apply routineLoop_spec (reachable_stepInv hy hsym heps) hy hsym heps
  refine .start ⟨fun i hi => by simp [hi], rfl, h.sv, h.list⟩

/-- **C39** In every state reached during SMO training of a two-class problem, every multiplier lies
in `[0, C]` (`C = 9999`) and `Σ y_i α_i = 0`. -/
theorem C39_feasible {c : Cfg K} [IsStrictOrderedRing K] (hy : TwoClass c) (hsym : SymmetricM c)
    (heps : 0 < c.eps) {s : St K} (h : SmoReachable c s) :
    (∀ i < c.n, 0 ≤ s.alpha i ∧ s.alpha i ≤ 9999) ∧ ∑ i ∈ Finset.range c.n, (c.y i : K) * s.alpha i = 0 := by
  have := (smoReachable_inv hy hsym heps h).feasible
  exact ⟨fun i hi => ⟨this.nonneg i hi, this.le_C i hi⟩, this.balance⟩

/-- **C39 (result)** `train` terminates without undefined behaviour, and the multipliers it leaves in the
solution are feasible; it passed through reachable states only (`s` is the last). -/
theorem C39_train {c : Cfg K} [IsStrictOrderedRing K] (hy : TwoClass c) (hsym : SymmetricM c) (heps : 0 < c.eps)
    (h : Heap) (hh : ∀ p, h.cells p = none) (alpha0 : Nat → K) :
    ∃ t s, train c h alpha0 = .ok t ∧ SmoReachable c s ∧ t.alpha = (List.range c.n).map s.alpha ∧
      t.bias = s.bias ∧ t.alpha.length = c.n ∧ (∀ a ∈ t.alpha, 0 ≤ a ∧ a ≤ 9999) ∧
      ∑ i ∈ Finset.range c.n, (c.y i : K) * t.alpha.getD i 0 = 0 ∧
      t.svs = (t.alpha.filter (fun a => 0 < a)).length := by
  obtain ⟨r, hr, hreach⟩ := trainingRoutine_reach hy hsym heps (train_start c h hh alpha0)
  obtain ⟨hbox, hbal⟩ := C39_feasible hy hsym heps hreach
  obtain ⟨hd, l, hhd, hl, _⟩ := (smoReachable_inv hy hsym heps hreach).svs
  obtain ⟨h', hf, _⟩ := free_spec hl
  refine ⟨_, r.2, by simp only [train, hr, Res_bind_ok, hf]; rfl, hreach, rfl, rfl, by simp, ?_, ?_, ?_⟩
  · intro a ha
    obtain ⟨i, hi, rfl⟩ := List.mem_map.1 ha
    exact hbox i (List.mem_range.1 hi)
  · rw [← hbal]
    apply Finset.sum_congr rfl
    intro i hi
    simp [List.getD_eq_getElem?_getD, Finset.mem_range.1 hi]
  · simp only []
    have : ∀ (l : List Nat) (v : Nat), l.foldl (fun v i => if 0 < r.2.alpha i then v + 1 else v) v =
        v + ((l.map r.2.alpha).filter (fun a => 0 < a)).length := by
      intro l
      induction l with
      | nil => intro v; simp
      | cons a l ih =>
        intro v
        rw [List.foldl_cons, ih]
        by_cases h : 0 < r.2.alpha a
        · simp [h]; omega
        · simp [h]
    rw [this]; simp

/-- **C40** In every state reached during training the cached error of a sample with `0 < α < C` is its
decision value minus its label. -/
theorem C40_cache {c : Cfg K} [IsStrictOrderedRing K] (hy : TwoClass c) (hsym : SymmetricM c)
    (heps : 0 < c.eps) {s : St K} (h : SmoReachable c s) (i : Nat) (hi : i < c.n) (h0 : 0 < s.alpha i)
    (hC : s.alpha i < 9999) :
    s.err i = ((∑ j ∈ Finset.range c.n, s.alpha j * (c.y j : K) * c.M j i) + s.bias) - (c.y i : K) :=
  (smoReachable_inv hy hsym heps h).cache i hi h0 hC

/-- **C41 (support vectors)** In every state reached during training, `head` points to a well-formed
doubly linked list; behind the sentinel it holds each sample with `α > 0` exactly once and no other, and
`sv` of a sample is null exactly when `α = 0`. -/
theorem C41_support_vectors {c : Cfg K} [IsStrictOrderedRing K] (hy : TwoClass c) (hsym : SymmetricM c)
    (heps : 0 < c.eps) {s : St K} (h : SmoReachable c s) :
    ∃ hd l, s.head = some hd ∧ IsDll s.heap s.head ((hd, -1) :: l) ∧
      (∀ k < c.n, (l.map Prod.snd).count (k : Int) = if 0 < s.alpha k then 1 else 0) ∧
      (∀ i ∈ l.map Prod.snd, ∃ k < c.n, i = (k : Nat)) ∧
      (∀ k < c.n, s.sv k = none ↔ s.alpha k = 0) := by
  have hinv := smoReachable_inv hy hsym heps h
  obtain ⟨hd, l, hhd, hl, hnd, hm, hsv, _⟩ := hinv.svs
  refine ⟨hd, l, hhd, hl, ?_, ?_, ?_⟩
  · intro k hk
    by_cases h0 : 0 < s.alpha k
    · rw [if_pos h0, List.count_eq_one_of_mem hnd ((hm _).2 ⟨k, hk, rfl, h0⟩)]
    · rw [if_neg h0, List.count_eq_zero]
      intro hmem
      obtain ⟨k', _, hkk, hp⟩ := (hm _).1 hmem
      have : k' = k := by omega
      subst this
      exact h0 hp
  · intro i hi
    obtain ⟨k, hk, rfl, _⟩ := (hm i).1 hi
    exact ⟨k, hk, rfl⟩
  · intro k hk
    constructor
    · intro hn
      refine le_antisymm (not_lt.1 fun h0 => ?_) (hinv.feasible.nonneg k hk)
      obtain ⟨⟨p, j⟩, hmem, hj⟩ := List.mem_map.1 ((hm (k : Int)).2 ⟨k, hk, rfl, h0⟩)
      simp only at hj
      subst hj
      rw [(hsv k hk p).2 hmem] at hn
      simp at hn
    · intro h0
      cases hs : s.sv k with
      | none => rfl
      | some p =>
        obtain ⟨k', _, hkk, hp⟩ := (hm (k : Int)).1 (List.mem_map.2 ⟨_, (hsv k hk p).1 hs, rfl⟩)
        have : k' = k := by omega
        subst this
        rw [h0] at hp
        exact absurd hp (lt_irrefl _)

/-- **C41 (list operations)** On any well-formed list: `append` behind any node inserts one new node there
and returns it; `remove` of any node that has a predecessor unlinks and deletes it and returns the
predecessor; `free` deletes exactly the nodes of the list.  The list stays well formed, other nodes are
untouched, and there is no undefined behaviour. -/
theorem C41_list_operations (h : Heap) (head : Option Nat) :
    (∀ l1 l2 p i, IsDll h head (l1 ++ (p, i) :: l2) →
      ∃ q h', append h (some p) = .ok (some q, h') ∧ IsDll h' head (l1 ++ (p, i) :: (q, -1) :: l2) ∧
        h.cells q = none ∧ ∀ r, r ≠ q → r ∉ (l1 ++ (p, i) :: l2).map Prod.fst → h'.cells r = h.cells r) ∧
    (∀ l1 l2 q p j i, IsDll h head (l1 ++ (q, j) :: (p, i) :: l2) →
      ∃ h', remove h (some p) = .ok (some q, h') ∧ IsDll h' head (l1 ++ (q, j) :: l2) ∧ h'.cells p = none ∧
        ∀ r, r ∉ (l1 ++ (q, j) :: (p, i) :: l2).map Prod.fst → h'.cells r = h.cells r) ∧
    (∀ l, IsDll h head l → ∃ h', free h head = .ok h' ∧
        ∀ r, h'.cells r = if r ∈ l.map Prod.fst then none else h.cells r) := by
  refine ⟨?_, ?_, ?_⟩
  · intro l1 l2 p i hl
    obtain ⟨h', he, hd, _, hfr⟩ := append_spec h head l1 l2 p i hl
    refine ⟨h.fresh, h', he, hd, ?_, hfr⟩
    by_contra hn
    have := hl.heapOk h.fresh hn
    omega
  · intro l1 l2 q p j i hl
    obtain ⟨h', he, hd, _, hp, hfr⟩ := remove_spec h head l1 l2 q p j i hl
    exact ⟨h', he, hd, hp, hfr⟩
  · intro l hl
    obtain ⟨h', he, _, hc⟩ := free_spec hl
    exact ⟨h', he, hc⟩

/-- **C41 (no leak)** `train` deletes every list node it allocated. -/
theorem C41_no_leak {c : Cfg K} [IsStrictOrderedRing K] (hy : TwoClass c) (hsym : SymmetricM c) (heps : 0 < c.eps)
    (h : Heap) (hh : ∀ p, h.cells p = none) (alpha0 : Nat → K) :
    ∃ t, train c h alpha0 = .ok t ∧ ∀ p, t.heap.cells p = none := by
  obtain ⟨r, hr, hreach⟩ := trainingRoutine_reach hy hsym heps (train_start c h hh alpha0)
  obtain ⟨hd, l, hhd, hl, _, _, _, hlive⟩ := (smoReachable_inv hy hsym heps hreach).svs
  obtain ⟨h', hf, _, hc⟩ := free_spec hl
  refine ⟨_, by simp only [train, hr, Res_bind_ok, hf]; rfl, ?_⟩
  intro p
  simp only []
  rw [hc p]
  by_cases hm : p ∈ List.map Prod.fst ((hd, (-1 : Int)) :: l)
  · rw [if_pos hm]
  · rw [if_neg hm]
    by_contra hn
    exact hm (hlive p hn)

/-- **C42 (partial)** From every state reached during training, a successful step strictly increases the
dual objective, provided `‖φ(x_i) − φ(x_j)‖² ≥ 0` for all pairs, as for every positive semidefinite
kernel.  Missing: other kernel matrices, for which it is false (`C42_refuted`). -/
theorem C42_step_partial {c : Cfg K} [IsStrictOrderedRing K] (hy : TwoClass c) (hsym : SymmetricM c)
    (heps : 0 < c.eps) (hpsd : NonnegDist c) {s s' : St K} (h : SmoReachable c s) {i1 i2 : Nat} (h1 : i1 < c.n)
    (h2 : i2 < c.n) (hne : i1 ≠ i2) (he : takeStep c s i1 i2 = .ok (true, s')) :
    dualObjective c s.alpha < dualObjective c s'.alpha := by
  obtain ⟨r, s2, he2, _, _, _, hg⟩ := takeStep_spec hy hsym heps (smoReachable_inv hy hsym heps h) h1 h2 hne
  rw [he] at he2
  cases he2
  exact hg rfl hpsd

/-- **C42 (whole training, partial)** Under the same condition the trained multipliers have a dual
objective of at least that of the starting point, which is zero. -/
theorem C42_train_partial {c : Cfg K} [IsStrictOrderedRing K] (hy : TwoClass c) (hsym : SymmetricM c)
    (heps : 0 < c.eps) (hpsd : NonnegDist c) (h : Heap) (hh : ∀ p, h.cells p = none) (alpha0 : Nat → K) :
    ∃ t, train c h alpha0 = .ok t ∧ 0 ≤ dualObjective c (fun i => t.alpha.getD i 0) := by
  have hcong : ∀ a b : Nat → K, (∀ i < c.n, a i = b i) → dualObjective c a = dualObjective c b := by
    intro a b hab
    unfold dualObjective
    congr 1
    · exact Finset.sum_congr rfl fun i hi => hab i (Finset.mem_range.1 hi)
    · congr 1
      refine Finset.sum_congr rfl fun i hi => Finset.sum_congr rfl fun j hj => ?_
      rw [hab i (Finset.mem_range.1 hi), hab j (Finset.mem_range.1 hj)]
  have hP : StepInv c (fun s => SmoReachable c s ∧ 0 ≤ dualObjective c s.alpha) := by
    have hR := reachable_stepInv hy hsym heps
    refine ⟨fun s hs => hR.inv s hs.1, fun s d hs => ⟨hR.done s d hs.1, hs.2⟩, ?_⟩
    intro s i1 i2 r s' h1 h2 hne hs he
    refine ⟨hR.step s i1 i2 r s' h1 h2 hne hs.1 he, ?_⟩
    cases r with
    | true => exact le_trans hs.2 (le_of_lt (C42_step_partial hy hsym heps hpsd hs.1 h1 h2 hne he))
    | false =>
      obtain ⟨r, s2, he2, _, _, hf, _⟩ := takeStep_spec hy hsym heps (hR.inv s hs.1) h1 h2 hne
      rw [he] at he2
      cases he2
      rw [hf rfl]
      exact hs.2
  have hst := train_start c h hh alpha0
  obtain ⟨r, hr, hreach, hobj⟩ := routineLoop_spec hP hy hsym heps (c.maxEpoch + 1) 0 true
    ({ alpha := fun i => if i < c.n then 0 else (if i < c.n then 0 else alpha0 i),
       err := fun i => if i < c.n then 0 else 0, done := fun i => if i < c.n then false else false,
       sv := fun _ => none, heap := (alloc h).2, head := some (alloc h).1, bias := 0 } : St K)
    ⟨.start ⟨fun i hi => by simp [hi], rfl, hst.sv, hst.list⟩, by
      rw [hcong _ (fun _ => 0) (fun i hi => by simp [hi])]
      simp [dualObjective]⟩
  obtain ⟨hd, l, hhd, hl, _⟩ := (smoReachable_inv hy hsym heps hreach).svs
  obtain ⟨h', hf, _⟩ := free_spec hl
  refine ⟨_, by simp only [train, trainingRoutine, hr, Res_bind_ok, hf]; rfl, ?_⟩
  refine le_of_le_of_eq hobj (hcong _ _ ?_)
  intro i hi
  simp [List.getD_eq_getElem?_getD, hi]

/-- **C75** If `train` returns true, then for every sample either the optimality conditions hold up to the
tolerance `0.0001` (`y f ≥ 1 − tol` unless `α = C`, `y f ≤ 1 + tol` unless `α = 0`, as `y² = 1`), or no
`take_step` pairing it with another sample succeeds. -/
theorem C75_stop {c : Cfg K} [IsStrictOrderedRing K] (hy : TwoClass c) (hsym : SymmetricM c) (heps : 0 < c.eps)
    (h : Heap) (hh : ∀ p, h.cells p = none) (alpha0 : Nat → K) :
    ∃ t s, train c h alpha0 = .ok t ∧ SmoReachable c s ∧ t.alpha = (List.range c.n).map s.alpha ∧ t.bias = s.bias ∧
      (t.ret = true → ∀ i < c.n,
        ((s.alpha i < 9999 → 1 - 1 / 10000 ≤ (c.y i : K) * decisionValue c s.alpha s.bias i) ∧
          (0 < s.alpha i → (c.y i : K) * decisionValue c s.alpha s.bias i ≤ 1 + 1 / 10000)) ∨
        ∀ k < c.n, k ≠ i → ∃ s', takeStep c s i k = .ok (false, s')) := by
  have hst := train_start c h hh alpha0
  have hP := reachable_stepInv hy hsym heps
  have hstart : SmoReachable c
    ({ alpha := fun i => if i < c.n then 0 else (if i < c.n then 0 else alpha0 i),
       err := fun i => if i < c.n then 0 else 0, done := fun i => if i < c.n then false else false,
       sv := fun _ => none, heap := (alloc h).2, head := some (alloc h).1, bias := 0 } : St K) :=
    .start ⟨fun i hi => by simp [hi], rfl, hst.sv, hst.list⟩
  obtain ⟨r, hr, hreach⟩ := routineLoop_spec hP hy hsym heps (c.maxEpoch + 1) 0 true _ hstart
  have hinv := smoReachable_inv hy hsym heps hreach
  obtain ⟨hd, l, hhd, hl, _⟩ := hinv.svs
  obtain ⟨h', hf, _⟩ := free_spec hl
  refine ⟨_, r.2, by simp only [train, trainingRoutine, hr, Res_bind_ok, hf]; rfl, hreach, rfl, rfl, ?_⟩
  intro hret i hi
  simp only [] at hret
  have hr1 : r.1 = true := by
    have : ∀ (l : List Nat) (b : Bool), l.foldl (fun b i => if boxC < r.2.alpha i then false else b) b = true → b = true := by
      intro l
      induction l with
      | nil => intro b hb; exact hb
      | cons a l ih =>
        intro b hb
        rw [List.foldl_cons] at hb
        have := ih _ hb
        split_ifs at this
        exact this
    exact this _ _ hret
  have hr' : routineLoop c (c.maxEpoch + 1) 0 true
    ({ alpha := fun i => if i < c.n then 0 else (if i < c.n then 0 else alpha0 i),
       err := fun i => if i < c.n then 0 else 0, done := fun i => if i < c.n then false else false,
       sv := fun _ => none, heap := (alloc h).2, head := some (alloc h).1, bias := 0 } : St K) = .ok (true, r.2) := by
    rw [hr, ← hr1]
  have hend := routineLoop_stop hP hy hsym heps (c.maxEpoch + 1) 0 true _ r.2 hstart (Or.inr rfl) hr' i hi
  rcases hend with hk | hk
  · left
    have hsq : (c.y i : K) * (c.y i : K) = 1 := by
      rcases label_cases (K := K) hy hi with h | h <;> rw [h] <;> ring
    unfold kktOk at hk
    simp only [not_or, not_and, not_lt, tol, boxC] at hk
    rw [mul_sub, hsq] at hk
    refine ⟨fun hC => ?_, fun h0 => ?_⟩
    · by_contra hlt
      have := hk.1 (by linarith)
      linarith
    · by_contra hlt
      have := hk.2 (by linarith)
      linarith
  · right
    intro k hkn hkne
    exact (takeStep_stuck hinv hi hkn).2 (hk k hkn hkne)

/-- The configuration `train` works with on a dataset: labels and computed kernel matrix. -/
noncomputable def cfgOf (k : Kernel.Kern) (ys : List Int) (eps : ℝ) (maxEpoch k0 : Nat) : Cfg ℝ :=
  { n := k.K.length, y := fun i => ys.getD i 0, M := fun i j => (k.K.getD i []).getD j 0, eps := eps,
    maxEpoch := maxEpoch, k0 := k0 }

theorem get2_cfg {M : List (List ℝ)} {i j : Nat} {v : ℝ} (h : Kernel.get2 M i j = .ok v) :
    (M.getD i []).getD j 0 = v := by
  unfold Kernel.get2 at h
  cases h1 : M[i]? with
  | none => simp [vget, h1] at h
  | some row =>
    simp only [vget, h1, Res_bind_ok] at h
    cases h2 : row[j]? with
    | none => simp [h2] at h
    | some w =>
      simp only [h2, Except.ok.injEq] at h
      simp [List.getD_eq_getElem?_getD, h1, h2, h]

/-- **C39-C42 (the hypotheses hold for real kernels)** The matrix computed for a dataset by a built-in
kernel is symmetric; for the inner product, a polynomial kernel with whole degree and a Gaussian kernel
with nonnegative parameter it also satisfies the condition of `C42_step_partial`. -/
theorem C42_kernels (k : Kernel.Kern) (hb : BuiltIn k.type) (hc : k.computed = false) (n : Nat)
    (xs : List (List ℝ)) (hx : ∀ x ∈ xs, x.length = n) (ys : List Int) (eps : ℝ) (maxEpoch k0 : Nat) :
    ∃ k', Kernel.compute k n xs none = .ok k' ∧ (cfgOf k' ys eps maxEpoch k0).n = xs.length ∧
      SymmetricM (cfgOf k' ys eps maxEpoch k0) ∧
      ((k.type = .innerProduct ∨ (k.type = .polynomial ∧ ∃ d : Nat, k.param = d) ∨
        (k.type = .gaussian ∧ 0 ≤ k.param)) → NonnegDist (cfgOf k' ys eps maxEpoch k0)) := by
  obtain ⟨k', he, hM, hs, ht, hp, _⟩ := C27_matrix k hb hc n xs hx none
  have hlen : k'.K.length = xs.length := hM.1
  have hval : ∀ i < xs.length, ∀ j < xs.length, Kernel.get2 k'.K i j = .ok ((k'.K.getD i []).getD j 0) := by
    intro i hi j hj
    have := hM.2.2 i j xs[i] xs[j] (List.getElem?_eq_getElem hi) (List.getElem?_eq_getElem hj)
    rw [get2_cfg this, this]
  refine ⟨k', he, hlen, ?_, ?_⟩
  · intro i hi j hj
    simp only [cfgOf, hlen] at hi hj ⊢
    have h1 := hs i j hi hj
    rw [hval i hi j hj, hval j hj i hi] at h1
    exact Except.ok.inj h1
  · intro hk i hi j hj
    simp only [cfgOf, hlen] at hi hj ⊢
    have hpsd : PosSemidefinite xs.length k'.K := by
      obtain ⟨p1, p2, p3⟩ := C27_positive_semidefinite n xs k'.K
      rcases hk with h | ⟨h, d, hd⟩ | ⟨h, hp0⟩
      · exact p1 k.param (by rw [← h]; exact hM)
      · exact p2 d (by rw [← h, ← hd]; exact hM)
      · exact p3 k.param hp0 (by rw [← h]; exact hM)
    set m : Nat → Nat → ℝ := fun i j => (k'.K.getD i []).getD j 0 with hm
    by_cases hij : i = j
    · subst hij; linarith
    have hq := hpsd (upd (upd (fun _ => 0) i 1) j (-1)) m (fun a b ha hb => hval a ha b hb)
    have hsq : ∑ a ∈ Finset.range xs.length, ∑ b ∈ Finset.range xs.length,
        upd (upd (fun _ => (0:ℝ)) i 1) j (-1) a * upd (upd (fun _ => (0:ℝ)) i 1) j (-1) b * m a b =
        m i i + m j j - m i j - m j i := by
      have e1 : ∀ a ∈ Finset.range xs.length, ∑ b ∈ Finset.range xs.length,
          upd (upd (fun _ => (0:ℝ)) i 1) j (-1) a * upd (upd (fun _ => (0:ℝ)) i 1) j (-1) b * m a b =
          upd (upd (fun _ => (0:ℝ)) i 1) j (-1) a * (m a i - m a j) := by
        intro a _
        simp only [mul_assoc]
        rw [← Finset.mul_sum, sum_upd2 xs.length (fun _ => (0:ℝ)) (m a) i j 1 (-1) hij hi hj]
        simp only [mul_zero, zero_mul, Finset.sum_const_zero]
        ring
      rw [Finset.sum_congr rfl e1, sum_upd2 xs.length (fun _ => (0:ℝ)) (fun a => m a i - m a j) i j 1 (-1) hij hi hj]
      simp only [zero_mul, Finset.sum_const_zero]
      ring
    rw [hsq] at hq
    have hji : m j i = m i j := by
      have h1 := hs i j hi hj
      rw [hval i hi j hj, hval j hj i hi] at h1
      exact (Except.ok.inj h1).symm
    rw [hji] at hq
    change 0 ≤ m i i + m j j - 2 * m i j
    linarith

/-! ### Concrete cases -/

/-- Two samples, opposite labels, orthonormal in feature space. -/
def ex2 : Cfg ℚ where
  n := 2
  y := fun i => if i = 0 then 1 else -1
  M := fun i j => if i = j then 1 else 0
  eps := 1 / 10000000
  maxEpoch := 10
  k0 := 1

def emptyHeap : Heap := ⟨fun _ => none, 0⟩

example : TwoClass ex2 ∧ SymmetricM ex2 ∧ NonnegDist ex2 ∧ 0 < ex2.eps := by
  refine ⟨?_, ?_, ?_, ?_⟩
  · intro i _; unfold ex2; simp only; split_ifs <;> simp
  · intro i _ j _; simp [ex2, eq_comm]
  · intro i _ j _; simp only [ex2]; split_ifs <;> norm_num
  · norm_num [ex2]

/-- Training on it gives both multipliers the value one. -/
example : (match train ex2 emptyHeap (fun _ => 5) with
    | .ok t => t.ret && t.alpha == [1, 1] && t.bias == 0 && t.svs == 2
    | .error _ => false) = true := by decide +kernel

/-- Three samples and a kernel matrix with `2 k(x_0,x_2) > k(x_0,x_0) + k(x_2,x_2)`. -/
def exBad : Cfg ℚ where
  n := 3
  y := fun i => if i = 1 then -1 else 1
  M := fun i j => ((([[1, 0, 1], [0, 1, -5], [1, -5, 0]] : List (List ℚ)).getD i []).getD j 0)
  eps := 1 / 10000000
  maxEpoch := 10
  k0 := 0

/-- The start of training on `exBad`. -/
def exBad0 : St ℚ :=
  { alpha := fun _ => 0, err := fun _ => 0, done := fun _ => false, sv := fun _ => none,
    heap := (alloc emptyHeap).2, head := some (alloc emptyHeap).1, bias := 0 }

/-- **C42 (refuted)** In general a successful step can decrease the dual objective: on a symmetric kernel
matrix with positive curvature along a pair, a state reached after one step has a successful step that
lowers it (the code evaluates the objective at the upper end of the interval with the lower end in its
linear term, SMO.hpp:319). -/
theorem C42_refuted : TwoClass exBad ∧ SymmetricM exBad ∧ 0 < exBad.eps ∧
    ∃ s s', SmoReachable exBad s ∧ takeStep exBad s 0 2 = .ok (true, s') ∧
      dualObjective exBad s'.alpha < dualObjective exBad s.alpha := by
  refine ⟨?_, ?_, by norm_num [exBad], ?_⟩
  · intro i _; unfold exBad; simp only; split_ifs <;> simp
  · intro i hi j hj
    have hi' : i < 3 := hi
    have hj' : j < 3 := hj
    interval_cases i <;> interval_cases j <;> rfl
  have hstart : SmoStart exBad exBad0 :=
    train_start exBad emptyHeap (fun _ => rfl) (fun _ => 0) |> fun h =>
      ⟨fun _ _ => rfl, rfl, fun _ _ => rfl, h.list⟩
  have key : ∃ s s', takeStep exBad exBad0 0 1 = .ok (true, s) ∧ takeStep exBad s 0 2 = .ok (true, s') ∧
      (s.alpha 0, s.alpha 1, s.alpha 2) = (1, 1, 0) ∧ (s'.alpha 0, s'.alpha 1, s'.alpha 2) = (0, 1, 1) := by
    have h1 : (match takeStep exBad exBad0 0 1 with
      | .ok (true, s) => (match takeStep exBad s 0 2 with
        | .ok (true, s') => decide ((s.alpha 0, s.alpha 1, s.alpha 2) = ((1, 1, 0) : ℚ × ℚ × ℚ)) &&
            decide ((s'.alpha 0, s'.alpha 1, s'.alpha 2) = ((0, 1, 1) : ℚ × ℚ × ℚ))
        | _ => false)
      | _ => false) = true := by decide +kernel
    revert h1
    generalize takeStep exBad exBad0 0 1 = r1
    rcases r1 with e | ⟨_ | _, s⟩
    · intro h; simp at h
    · intro h; simp at h
    · simp only []
      generalize h2 : takeStep exBad s 0 2 = r2
      rcases r2 with e | ⟨_ | _, s'⟩
      · intro h; simp at h
      · intro h; simp at h
      · intro h
        rw [Bool.and_eq_true, decide_eq_true_eq, decide_eq_true_eq] at h
        exact ⟨s, s', rfl, h2, h.1, h.2⟩
  obtain ⟨s, s', h1, h2, h3, h4⟩ := key
  refine ⟨s, s', .step (.start hstart) (by decide) (by decide) (by decide) h1, h2, ?_⟩
  simp only [Prod.mk.injEq] at h3 h4
  obtain ⟨a0, a1, a2⟩ := h3
  obtain ⟨b0, b1, b2⟩ := h4
  simp only [dualObjective, exBad, Finset.sum_range_succ, Finset.sum_range_zero, a0, a1, a2, b0, b1, b2]
  norm_num

end MLTK.Props
