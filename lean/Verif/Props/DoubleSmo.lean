import Verif.Lemmas.DoubleSmoTrain
/-!
# C221: the multipliers SMO training delivers in `double` arithmetic
-/
namespace MLTK.Props
open MLTK.Fp MLTK.Spec MLTK.Dll
open MLTK.Smo (Cfg St upd Trained)
open MLTK.Data (Res_bind_ok)

/-- **C221 (partial)** SMO training in `double` arithmetic of any two-class problem, with any kernel matrix (NaN and infinities
included), tolerance, epoch limit and starting point of the search: the call returns, every list node it allocated is
freed, and each multiplier is a `double` of `[0, 9999]` or NaN; the reported number of support vectors counts the positive ones.
Missing: that no multiplier is NaN and that they balance, which are false (`C221_nan_refuted`, `C221_balance_refuted`), and that
success means a separation (`C221_separates_refuted`). -/
theorem C221_box_partial (c : Cfg Dbl) (hy : ∀ i < c.n, c.y i = 1 ∨ c.y i = -1) (h : Heap) (hh : ∀ p, h.cells p = none)
    (alpha0 : Nat → Dbl) :
    ∃ t, smoTrain c h alpha0 = .ok t ∧ t.alpha.length = c.n ∧
      (∀ a ∈ t.alpha, a = .nan ∨ ∃ q, a = .fin q ∧ IsDbl q ∧ 0 ≤ q ∧ q ≤ 9999) ∧
      t.svs = (t.alpha.filter (fun a => (Dbl.fin 0).lt a)).length ∧
      ∀ p, t.heap.cells p = none := by
  have h0 : ∀ (al er : Nat → Dbl) (dn : Nat → Bool) (b : Dbl), (∀ k < c.n, al k = .fin 0) →
      DInv c ({ alpha := al, err := er, done := dn, sv := fun _ => none, heap := (alloc h).2,
                head := some (alloc h).1, bias := b } : St Dbl) := by
    intro al er dn b ha
    refine ⟨fun k hk => .inr ⟨0, ha k hk, zero_inBoxQ⟩, fun _ => False, h.fresh, [], rfl, ⟨?_, ?_, by simp⟩, by simp, by simp,
      by simp [toQ], ?_⟩
    · intro p hp
      simp only [toQ, alloc] at hp ⊢
      by_cases h1 : p = h.fresh
      · omega
      · simp only [h1, if_false] at hp
        exact absurd (hh p) hp
    · exact ⟨rfl, none, by simp [toQ, alloc], rfl⟩
    · intro p hp
      by_contra h1
      simp only [toQ, alloc] at hp
      simp only [List.map_cons, List.map_nil, List.mem_singleton] at h1
      simp only [h1, if_false] at hp
      exact hp (hh p)
  obtain ⟨r, hr, hinv⟩ := routineLoop_ok hy (c.maxEpoch + 1) 0 true _
    (h0 (fun i => if i < c.n then .fin 0 else if i < c.n then .fin 0 else alpha0 i)
      (fun i => if i < c.n then .fin 0 else .fin 0) (fun i => if i < c.n then false else false) (.fin 0)
      (fun k hk => by simp [hk]))
  obtain ⟨hbox, P, hd, l, hhd, hl, _, _, _, hlive⟩ := hinv
  obtain ⟨h', hf, _, hc⟩ := free_spec hl
  change free r.2.heap r.2.head = _ at hf
  refine ⟨_, by simp only [smoTrain, trainingRoutine]; rw [hr, Res_bind_ok, hf, Res_bind_ok], by simp, ?_, ?_, ?_⟩
  · intro a ha
    obtain ⟨i, hi, rfl⟩ := List.mem_map.1 ha
    rcases hbox i (List.mem_range.1 hi) with h | ⟨q, hq, hb⟩
    · exact .inl h
    · refine .inr ⟨q, hq, isDbl_iff.2 ⟨hb.dbl, ?_⟩, hb.nn, hb.le⟩
      rw [abs_of_nonneg hb.nn]
      exact lt_of_le_of_lt hb.le (by decide +kernel)
  · simp only []
    have : ∀ (l : List Nat) (v : Nat), l.foldl (fun v i => if (Dbl.fin 0).lt (r.2.alpha i) then v + 1 else v) v =
        v + ((l.map r.2.alpha).filter (fun a => (Dbl.fin 0).lt a)).length := by
      intro l
      induction l with
      | nil => intro v; simp
      | cons a l ih =>
        intro v
        rw [List.foldl_cons, ih]
        by_cases h : (Dbl.fin 0).lt (r.2.alpha a) = true
        · simp [h]; omega
        · simp [h]
    rw [this]; simp
  · intro p
    simp only []
    rw [hc p]
    by_cases hm : p ∈ List.map Prod.fst ((hd, (-1 : Int)) :: l)
    · rw [if_pos hm]
    · rw [if_neg hm]
      by_contra hn
      exact hm (hlive p hn)

/-- Samples on a line, with the linear kernel computed in `double`s. -/
def lineCfg (xs : List (ℚ × Int)) (epochs : Nat) : Cfg Dbl :=
  { n := xs.length, y := fun i => (xs.getD i (0, 0)).2,
    M := fun i j => Dbl.add (.fin 0) (Dbl.mul (.fin (xs.getD i (0, 0)).1) (.fin (xs.getD j (0, 0)).1)),
    eps := rnd (1 / 10000000), maxEpoch := epochs, k0 := 0 }

/-- A free store without nodes. -/
def noNodes : Heap := { cells := fun _ => none, fresh := 0 }

/-- Four samples on a line, two of which become support vectors. -/
def fourOnLine : List (ℚ × Int) := [(6, 1), (1 / 8, -1), (3, 1), (5 / 16, -1)]

/-- What `fourOnLine` is trained to. -/
theorem fourOnLine_trained :
    (smoTrain (lineCfg fourOnLine 50) noNodes (fun _ => .fin 0)).toOption.map (fun t => (t.ret, t.alpha)) =
      some (true, [.fin 0, .fin 0, .fin (4988302886346553 / 2 ^ 54), .fin (2494151443173277 / 2 ^ 53)]) := by
  decide +kernel

/-- The hypotheses of `C221_box_partial` hold for `fourOnLine`. -/
example : (∀ i < (lineCfg fourOnLine 50).n, (lineCfg fourOnLine 50).y i = 1 ∨ (lineCfg fourOnLine 50).y i = -1) ∧
    ∀ p, noNodes.cells p = none := ⟨by decide, fun _ => rfl⟩

/-- **C221 (refuted: balance)** The multipliers need not balance: there is a training in `double`s, with the linear kernel on finite
samples, that reports success with multipliers that are all numbers and whose sum weighted by the labels is not zero. -/
theorem C221_balance_refuted :
    ¬ ∀ (xs : List (ℚ × Int)) (epochs : Nat) (t : Trained Dbl) (qs : List ℚ), (∀ x ∈ xs, IsDbl x.1 ∧ (x.2 = 1 ∨ x.2 = -1)) →
      smoTrain (lineCfg xs epochs) noNodes (fun _ => .fin 0) = .ok t → t.ret = true → t.alpha = qs.map Dbl.fin →
      ((qs.zip xs).map (fun p => p.1 * (p.2.2 : ℚ))).sum = 0 := by
  intro hall
  have ht := fourOnLine_trained
  cases he : smoTrain (lineCfg fourOnLine 50) noNodes (fun _ => .fin 0) with
  | error e => rw [he] at ht; simp [Except.toOption] at ht
  | ok t =>
    rw [he] at ht
    simp only [Except.toOption, Option.map_some, Option.some.injEq, Prod.mk.injEq] at ht
    have := hall fourOnLine 50 t [0, 0, 4988302886346553 / 2 ^ 54, 2494151443173277 / 2 ^ 53] (by
      intro x hx
      simp only [fourOnLine, List.mem_cons, List.not_mem_nil, or_false] at hx
      rcases hx with rfl | rfl | rfl | rfl <;> refine ⟨?_, by decide⟩ <;> (unfold IsDbl; decide +kernel)) he ht.1 (by rw [ht.2]; rfl)
    revert this
    decide +kernel

/-- A kernel matrix of three samples with huge entries. -/
def hugeM (i j : Nat) : Dbl :=
  match i, j with
  | 0, 0 => .fin 32
  | 1, 1 => .fin (-2 ^ 1020)
  | 0, 2 => .fin (-2 ^ 1020)
  | 2, 0 => .fin (-2 ^ 1020)
  | 2, 2 => .fin 0
  | _, _ => .fin 2

/-- The problem with that matrix. -/
def hugeCfg : Cfg Dbl :=
  { n := 3, y := fun i => if i = 1 then -1 else 1, M := hugeM, eps := rnd (1 / 10000000), maxEpoch := 20, k0 := 0 }

/-- **C221 (refuted: numbers)** Training can report success and leave NaN multipliers, although the kernel matrix is symmetric and
holds finite numbers only. -/
theorem C221_nan_refuted :
    ¬ ∀ (c : Cfg Dbl) (t : Trained Dbl), (∀ i < c.n, c.y i = 1 ∨ c.y i = -1) → (∀ i j, c.M i j = c.M j i) →
      (∀ i j, ∃ q, c.M i j = .fin q ∧ IsDbl q) → smoTrain c noNodes (fun _ => .fin 0) = .ok t → t.ret = true →
      .nan ∉ t.alpha := by
  intro hall
  have ht : (smoTrain hugeCfg noNodes (fun _ => .fin 0)).toOption.map (fun t => (t.ret, t.alpha)) =
      some (true, [.nan, .fin 9999, .nan]) := by decide +kernel
  cases he : smoTrain hugeCfg noNodes (fun _ => .fin 0) with
  | error e => rw [he] at ht; simp [Except.toOption] at ht
  | ok t =>
    rw [he] at ht
    simp only [Except.toOption, Option.map_some, Option.some.injEq, Prod.mk.injEq] at ht
    refine hall hugeCfg t (by decide) ?_ ?_ he ht.1 (by rw [ht.2]; simp)
    · intro i j
      rcases i with _ | _ | _ | i <;> rcases j with _ | _ | _ | j <;> rfl
    · intro i j
      simp only [hugeCfg]
      unfold hugeM
      split <;> refine ⟨_, rfl, ?_⟩ <;> (unfold IsDbl; decide +kernel)

/-- **C221 (refuted: separation)** Training on two different samples of different classes can report success with all multipliers
and the bias zero, so that both samples get the decision value zero and hence the same answer. -/
theorem C221_separates_refuted :
    ¬ ∀ (x1 x2 : ℚ) (epochs : Nat) (t : Trained Dbl), IsDbl x1 → IsDbl x2 → x1 ≠ x2 →
      smoTrain (lineCfg [(x1, 1), (x2, -1)] epochs) noNodes (fun _ => .fin 0) = .ok t → t.ret = true →
      ¬ ((∀ a ∈ t.alpha, a = .fin 0) ∧ t.bias = .fin 0) := by
  intro hall
  have ht : (smoTrain (lineCfg [(2 ^ 600, 1), (1, -1)] 50) noNodes (fun _ => .fin 0)).toOption.map (fun t => (t.ret, t.alpha, t.bias)) =
      some (true, [.fin 0, .fin 0], .fin 0) := by decide +kernel
  cases he : smoTrain (lineCfg [(2 ^ 600, 1), (1, -1)] 50) noNodes (fun _ => .fin 0) with
  | error e => rw [he] at ht; simp [Except.toOption] at ht
  | ok t =>
    rw [he] at ht
    simp only [Except.toOption, Option.map_some, Option.some.injEq, Prod.mk.injEq] at ht
    refine hall (2 ^ 600) 1 50 t (by unfold IsDbl; decide +kernel) (by unfold IsDbl; decide +kernel) (by decide +kernel) he ht.1 ⟨?_, ht.2.2⟩
    rw [ht.2.1]; simp

end MLTK.Props
