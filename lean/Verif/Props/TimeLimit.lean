import Verif.Model.TimeLimit
import Verif.Lemmas.Perceptron
import Verif.Lemmas.ImaDual
import Verif.Lemmas.Data
import Verif.Lemmas.AosRun
import Verif.Props.IMA
import Mathlib.Tactic.Ring
import Mathlib.Tactic.Linarith
/-!
# C205: time limits

`el k` is the reading of the timer at the `k`-th test of a training run, counted from 0.  The theorems bound
the number of passes by the first reading past the limit, whatever the other readings are, and say that a run
in which no reading passes the limit is the run without a limit.
-/
namespace MLTK.Props
open MLTK.TimeL MLTK.Perc MLTK.IMA
open MLTK.Data (Res_bind_ok Res_bind_error Res_pure)

private theorem iteOk {α : Type} {c : Prop} [Decidable c] {x : Fault} {y : Res α} {r : α}
    (h : (if c then .error x else y) = .ok r) : y = .ok r := by
  by_cases hc : c
  · rw [if_pos hc] at h; cases h
  · rwa [if_neg hc] at h

section
variable {K : Type} [Field K] [LinearOrder K]

/-- A loop whose `j`-th time test fails has made at most `j` passes. -/
theorem epochs_bound {σ : Type} (pass : σ → σ × Nat) (halt : σ → Bool) (clock : Nat → Bool) (steps : σ → Nat)
    (hstep : ∀ s, steps (pass s).1 = steps s + 1) {j : Nat} (hj : clock j = false) :
    ∀ (n k : Nat) (s : σ) (e : Nat), k ≤ j → steps (epochs pass halt clock n k s e).1 ≤ steps s + (j - k) := by
  intro n
  induction n with
  | zero =>
    intro k s e hk
    unfold epochs
    by_cases hc : clock k = true
    · have hne : k ≠ j := by rintro rfl; simp [hj] at hc
      have := hstep s
      simp only [hc, if_true]
      split <;> omega
    · simp [hc]
  | succ n ih =>
    intro k s e hk
    unfold epochs
    by_cases hc : clock k = true
    · have hne : k ≠ j := by rintro rfl; simp [hj] at hc
      have h1 := hstep s
      simp only [hc, if_true]
      split
      · omega
      · have := ih (k + 1) (pass s).1 (pass s).2 (by omega)
        omega
    · simp [hc]

theorem primalPass_steps (m : Libm K) (dim : Nat) (rate : K) (samples : List (Sample K)) (index : List Nat)
    (s : PState K) : (primalPass m dim rate samples index s).1.steps = s.steps + 1 := by
  have h : ∀ (l : List Nat) (s : PState K) (e : Nat), (primalScan m dim rate samples l s e).1.steps = s.steps := by
    intro l
    induction l with
    | nil => intro s e; rfl
    | cons i l ih =>
      intro s e
      simp only [primalScan]
      split
      · rw [ih]; rfl
      · split
        · rfl
        · exact ih s e
  simp [primalPass, h]

theorem dualPass_steps (m : Libm K) (rate : K) (kv : Nat → Nat → K) (samples : List (Sample K)) (s : DState K) :
    (dualPass m rate kv samples s).1.steps = s.steps + 1 := by
  have h : ∀ (l : List Nat) (s : DState K) (e : Nat), (dualScan m rate kv samples l s e).1.steps = s.steps := by
    intro l
    induction l with
    | nil => intro s e; rfl
    | cons i l ih =>
      intro s e
      simp only [dualScan]
      split
      · rw [ih]; rfl
      · split
        · rfl
        · exact ih s e
  simp [dualPass, h]

theorem fmPass_steps (m : Libm K) (c : FCfg K) (dim : Nat) (samples : List (Sample K)) (s : FState K) :
    (fmPass m c dim samples s).1.steps = s.steps + 1 := by
  have hu : ∀ (p : Sample K) (i idx e : Nat) (s : FState K), (fmUpdate m c dim p i idx e s).steps = s.steps := by
    intro p i idx e s
    simp only [fmUpdate, fmWeights]
    cases c.q <;> rfl
  have h : ∀ (l : List Nat) (s : FState K) (e : Nat), (fmScan m c dim samples l s e).1.steps = s.steps := by
    intro l
    induction l with
    | nil => intro s e; rfl
    | cons i l ih =>
      intro s e
      simp only [fmScan]
      split
      · rw [ih, hu]
      · split
        · rfl
        · exact ih s e
  simp [fmPass, h]

theorem gScan_steps (m : Libm K) (c : FCfg K) (kv : Nat → Nat → K) (samples : List (Sample K)) :
    ∀ (l : List Nat) (s : GState K) (e : Nat) (r : GState K × Nat), gScan m c kv samples l s e = .ok r →
      r.1.steps = s.steps := by
  intro l
  induction l with
  | nil => intro s e r h; simp only [gScan, Except.ok.injEq] at h; rw [← h]
  | cons i l ih =>
    intro s e r h
    simp only [gScan] at h
    split at h
    · split at h
      · cases h
      · rename_i s' hs
        rw [ih _ _ _ h]
        simp only [gUpdate] at hs
        have hs := iteOk (iteOk hs)
        simp only [Except.ok.injEq] at hs; rw [← hs]
    · split at h
      · simp only [Except.ok.injEq] at h; rw [← h]
      · exact ih _ _ _ h

theorem gLoop_bound (m : Libm K) (c : FCfg K) (kv : Nat → Nat → K) (samples : List (Sample K)) (clock : Nat → Bool)
    {j : Nat} (hj : clock j = false) :
    ∀ (n k : Nat) (s : GState K) (e : Nat) (r : GState K × Nat), k ≤ j →
      gLoop m c kv samples clock n k s e = .ok r → r.1.steps ≤ s.steps + (j - k) := by
  intro n
  induction n with
  | zero =>
    intro k s e r hk h
    unfold gLoop at h
    by_cases hc : clock k = true
    · have hne : k ≠ j := by rintro rfl; simp [hj] at hc
      rw [if_pos hc] at h
      cases hs : gScan m c kv samples (List.range samples.length) s 0 with
      | error x => simp [hs] at h
      | ok r1 =>
        have h1 := gScan_steps m c kv samples _ _ _ _ hs
        simp only [hs] at h
        have h' : r.1.steps = r1.1.steps + 1 := by
          split at h <;> · simp only [Except.ok.injEq] at h; rw [← h]
        omega
    · rw [if_neg hc] at h
      simp only [Except.ok.injEq] at h
      rw [← h]; simp
  | succ n ih =>
    intro k s e r hk h
    unfold gLoop at h
    by_cases hc : clock k = true
    · have hne : k ≠ j := by rintro rfl; simp [hj] at hc
      rw [if_pos hc] at h
      cases hs : gScan m c kv samples (List.range samples.length) s 0 with
      | error x => simp [hs] at h
      | ok r1 =>
        have h1 := gScan_steps m c kv samples _ _ _ _ hs
        simp only [hs] at h
        split at h
        · simp only [Except.ok.injEq] at h; rw [← h]; simp only; omega
        · have := ih _ _ _ _ (by omega) h
          simp only at this; omega
    · rw [if_neg hc] at h
      simp only [Except.ok.injEq] at h
      rw [← h]; simp

end

section
variable {K : Type} [Field K] [LinearOrder K] [IsStrictOrderedRing K]

omit [IsStrictOrderedRing K] in
theorem percClock_false [IsStrictOrderedRing K] {start limit : K} {el : Nat → K} {j : Nat} (h : start + limit < el j) :
    percClock start limit el j = false := by
  simp only [percClock, decide_eq_false_iff_not, not_le]; linarith

/-- **C205.** When the `j`-th reading is past the limit, training a primal perceptron has made at most `j`
passes over the samples. -/
theorem C205_primal {m : Libm K} {cfg : Cfg K} {start limit : K} {el : Nat → K} {dim : Nat}
    {samples : List (Sample K)} {index : List Nat} {s0 : PState K} {r : Bool × PState K} {j : Nat}
    (hj : start + limit < el j)
    (h : primalTrain m cfg (percClock start limit el) dim samples index s0 = .ok r) :
    r.2.steps ≤ s0.steps + j := by
  unfold primalTrain at h
  simp only at h
  have h := iteOk h
  simp only [Except.ok.injEq] at h
  rw [← h]
  exact epochs_bound _ _ _ PState.steps (primalPass_steps m dim cfg.rate samples index) (percClock_false hj) _ 0 _ _
      (Nat.zero_le j)

/-- **C205.** The same for the dual perceptron. -/
theorem C205_dual {m : Libm K} {cfg : Cfg K} {start limit : K} {el : Nat → K} {kv : Nat → Nat → K} {dim : Nat}
    {samples : List (Sample K)} {s0 : DState K} {r : Bool × DState K × List K} {j : Nat}
    (hj : start + limit < el j)
    (h : dualTrain m cfg (percClock start limit el) kv dim samples s0 = .ok r) :
    r.2.1.steps ≤ s0.steps + j := by
  unfold dualTrain at h
  simp only at h
  have h := iteOk h
  simp only [Except.ok.injEq] at h
  rw [← h]
  exact epochs_bound _ _ _ DState.steps (dualPass_steps m cfg.rate kv samples) (percClock_false hj) _ 0 _ _
      (Nat.zero_le j)

/-- **C205.** The same for the primal perceptron with fixed margin. -/
theorem C205_fixed_primal {m : Libm K} {c : FCfg K} {start limit : K} {el : Nat → K} {dim : Nat}
    {samples : List (Sample K)} {s0 : FState K} {r : Bool × FState K} {j : Nat}
    (hj : start + limit < el j)
    (h : fmTrain m c (percClock start limit el) dim samples s0 = .ok r) :
    r.2.steps ≤ s0.steps + j := by
  unfold fmTrain at h
  simp only at h
  have h := iteOk h
  simp only [Except.ok.injEq] at h
  rw [← h]
  exact epochs_bound _ _ _ FState.steps (fmPass_steps m c dim samples) (percClock_false hj) _ 0 _ _ (Nat.zero_le j)

/-- **C205.** The same for the dual perceptron with fixed margin. -/
theorem C205_fixed_dual {m : Libm K} {c : FCfg K} {start limit : K} {el : Nat → K} {kv : Nat → Nat → K}
    {samples : List (Sample K)} {s0 : GState K} {r : Bool × GState K} {j : Nat}
    (hj : start + limit < el j)
    (h : gTrain m c (percClock start limit el) kv samples s0 = .ok r) :
    r.2.steps ≤ s0.steps + j := by
  unfold gTrain at h
  simp only at h
  obtain ⟨q, hq, h⟩ := Aos.bind_inv (iteOk h)
  simp only [Res_pure, Except.ok.injEq] at h
  rw [← h]
  have := gLoop_bound m c kv samples _ (percClock_false hj) _ 0 _ _ _ (Nat.zero_le j) hq
  exact this

/-- **C205.** One run of the fixed-margin trainer inside the incremental margin algorithm: a reading at the
limit is enough to stop it. -/
theorem C205_ima_fixed (m : Libm K) (c : FCfg K) (start limit : K) (el : Nat → K) (dim : Nat)
    (samples : List (Sample K)) (s : FState K) {j : Nat} (hj : limit + start ≤ el j) :
    (imaFixed m c (imaClock start limit el) dim samples s).2.steps ≤ s.steps + j := by
  unfold imaFixed
  refine epochs_bound _ _ _ FState.steps (fmPass_steps m c dim samples) (j := j) ?_ _ 0 _ _ (Nat.zero_le j)
  simp only [imaClock, gt_iff_lt, decide_eq_false_iff_not, not_lt]; linarith

/-- **C205.** When no reading is past the limit, all four perceptrons give what they give without a limit. -/
theorem C205_within (m : Libm K) (cfg : Cfg K) (c : FCfg K) {start limit : K} {el : Nat → K}
    (hel : ∀ k, el k ≤ start + limit) (kv : Nat → Nat → K) (dim : Nat) (samples : List (Sample K))
    (index : List Nat) (p : PState K) (d : DState K) (f : FState K) (g : GState K) :
    primalTrain m cfg (percClock start limit el) dim samples index p =
      primalTrain m cfg (fun _ => true) dim samples index p ∧
    dualTrain m cfg (percClock start limit el) kv dim samples d = dualTrain m cfg (fun _ => true) kv dim samples d ∧
    fmTrain m c (percClock start limit el) dim samples f = fmTrain m c (fun _ => true) dim samples f ∧
    gTrain m c (percClock start limit el) kv samples g = gTrain m c (fun _ => true) kv samples g := by
  have hc : percClock start limit el = fun _ => true := by
    funext k
    have := hel k
    simp only [percClock, decide_eq_true_eq]; linarith
  rw [hc]
  exact ⟨rfl, rfl, rfl, rfl⟩

/-- **C205.** The regressor: when the reading after pass `j` (counted from 0) has reached the limit, pass `j`
is the last at most. -/
theorem C205_regressor {c : Regr.LCfg K} {limit : Nat} {el : Nat → K} {dim : Nat} {samples : List (Sample K)}
    {r0 : Regr.Regressor K} {r : Bool × Regr.Regressor K × Nat × K} {j : Nat} (hj : (limit : K) ≤ el j)
    (h : Regr.lmsTrain c (wholeLate limit el) dim samples r0 = .ok r) : r.2.2.1 ≤ j := by
  have hl : wholeLate limit el j = true := by
    simp only [wholeLate, decide_eq_true_eq]; linarith
  have key : ∀ (n k : Nat) (s : Regr.LState K) (prev : K) (q : Regr.LState K × Nat × K), k ≤ j →
      Regr.lmsLoop c (wholeLate limit el) dim samples n k s prev = .ok q → q.2.1 ≤ j := by
    intro n
    induction n with
    | zero =>
      intro k s prev q hk h
      simp only [Regr.lmsLoop, Except.ok.injEq] at h
      rw [← h]; exact hk
    | succ n ih =>
      intro k s prev q hk h
      simp only [Regr.lmsLoop] at h
      obtain ⟨a, -, h⟩ := Aos.bind_inv h
      split at h
      · simp only [Except.ok.injEq] at h; rw [← h]; exact hk
      · split at h
        · simp only [Except.ok.injEq] at h; rw [← h]; exact hk
        · rename_i hne
          have : k ≠ j := by rintro rfl; exact hne hl
          exact ih _ _ _ _ (by omega) h
  unfold Regr.lmsTrain at h
  obtain ⟨q, hq, h⟩ := Aos.bind_inv h
  simp only [Res_pure, Except.ok.injEq] at h
  have := key _ _ _ _ _ (Nat.zero_le j) hq
  rw [← h]
  exact this

omit [IsStrictOrderedRing K] in
/-- **C205.** The balanced perceptron: when the reading after epoch `j` (counted from 1) is past the limit,
training is training with at most `j` epochs. -/
theorem C205_balanced (c : Bal.BCfg K) {limit : K} {el : Nat → K} (samples : List (Sample K)) (w0 : List K)
    {j : Nat} (hj0 : 0 < j) (hj : limit < el j) :
    Bal.balTrain c (balLate limit el) samples w0 =
      Bal.balTrain { c with maxEpoch := min c.maxEpoch j } (balLate limit el) samples w0 := by
  have hl : balLate limit el j = true := by simpa [balLate] using hj
  have hsc : ∀ (n : Nat) (l : List (Sample K)) (s : Bal.BState K) (e : Nat),
      Bal.balScan { c with maxEpoch := n } l s e = Bal.balScan c l s e := by
    intro n l
    induction l with
    | nil => intro s e; rfl
    | cons p l ih => intro s e; simp only [Bal.balScan, ih]
  have hcc : ∀ (N n k : Nat) (s : Bal.BState K) (e : Nat),
      Bal.balLoop { c with maxEpoch := N } (balLate limit el) samples n k s e =
        Bal.balLoop c (balLate limit el) samples n k s e := by
    intro N n
    induction n with
    | zero => intro k s e; rfl
    | succ n ih => intro k s e; simp only [Bal.balLoop, hsc, ih]
  have key : ∀ (n k : Nat) (s : Bal.BState K) (e : Nat), k < j →
      Bal.balLoop c (balLate limit el) samples n k s e =
        Bal.balLoop c (balLate limit el) samples (min n (j - k)) k s e := by
    intro n
    induction n with
    | zero => intro k s e _; simp
    | succ n ih =>
      intro k s e hk
      obtain ⟨q, hq⟩ : ∃ q, j - k = q + 1 := ⟨j - k - 1, by omega⟩
      rw [hq, Nat.add_min_add_right]
      simp only [Bal.balLoop]
      cases hs : Bal.balScan c samples s 0 with
      | error x => rfl
      | ok r =>
        simp only [Res_bind_ok]
        by_cases hkj : k + 1 = j
        · have : balLate limit el (k + 1) = true := by rw [hkj]; exact hl
          simp [this]
        · split
          · rfl
          · rw [ih _ _ _ (by omega)]
            congr 1; omega
  unfold Bal.balTrain
  simp only [hcc]
  rw [key c.maxEpoch 0 _ _ hj0, Nat.sub_zero]

/-- **C205.** Clustering: when the reading of iteration `j` (counted from 0) has reached the limit, the loop is
over after `j + 1` iterations: allowing it more of them changes nothing. -/
theorem C205_kmeans (dist : List K → List K → Res K) (samples points : List (Pt K)) (eps : K) {limit : Nat}
    {el : Nat → K} {j : Nat} (hj : (limit : K) ≤ el j) (s : KMeans.KM K) (old : K) (more : Nat) :
    KMeans.trainLoop dist samples points eps (wholeLate limit el) (j + 1 + more) 0 s old =
      KMeans.trainLoop dist samples points eps (wholeLate limit el) (j + 1) 0 s old := by
  have hl : wholeLate limit el j = true := by
    simp only [wholeLate, decide_eq_true_eq]; linarith
  have key : ∀ (d k : Nat) (s : KMeans.KM K) (old : K), k + d = j →
      KMeans.trainLoop dist samples points eps (wholeLate limit el) (d + 1 + more) k s old =
        KMeans.trainLoop dist samples points eps (wholeLate limit el) (d + 1) k s old := by
    intro d
    induction d with
    | zero =>
      intro k s old hk
      obtain rfl : k = j := by omega
      rw [show 0 + 1 + more = more + 1 by omega]
      simp only [KMeans.trainLoop, hl, if_true]
    | succ d ih =>
      intro k s old hk
      rw [show d + 1 + 1 + more = (d + 1 + more) + 1 by omega]
      rw [KMeans.trainLoop, KMeans.trainLoop]
      simp only [ih (k + 1) _ _ (by omega)]
  exact key j 0 s old (by omega)

omit [IsStrictOrderedRing K] in
/-- The incremental margin algorithm makes at most `n` rounds when its test stops it at `n`. -/
theorem imaLoop_bound {m : Libm K} {c : ICfg K} {clock : Nat → Nat → Bool} {late : Nat → Bool} {dim : Nat}
    {samples : List (Sample K)} {n : Nat} (hn : late n = true) :
    ∀ (fuel : Nat) (st st' : IState K), st.it < n → loop m c clock late dim samples fuel st = .ok st' →
      st'.it ≤ n := by
  have hr : ∀ (s : FState K) (st : IState K), (round m c dim samples s st).it = st.it + 1 := fun _ _ => rfl
  intro fuel
  induction fuel with
  | zero =>
    intro st st' hit h
    unfold loop at h
    split at h
    · simp only [Except.ok.injEq] at h; rw [← h]; exact hit.le
    · split at h
      · cases h
      · simp only [hr] at h
        split at h <;>
        · simp only [Except.ok.injEq] at h
          rw [← h, hr]; omega
  | succ f ih =>
    intro st st' hit h
    unfold loop at h
    split at h
    · simp only [Except.ok.injEq] at h; rw [← h]; exact hit.le
    · split at h
      · cases h
      · simp only [hr] at h
        split at h
        · simp only [Except.ok.injEq] at h
          rw [← h, hr]; omega
        · rename_i hno
          have hne : st.it + 1 ≠ n := by
            intro he
            exact hno (Or.inr (by rw [he]; exact hn))
          exact ih _ _ (by rw [hr]; omega) h

theorem stime_ge {el : Nat → K} (h0 : ∀ k, 0 ≤ el k) (n : Nat) : el n ≤ stime el n := by
  have hs : ∀ n, 0 ≤ stime el n := by
    intro n
    induction n with
    | zero => exact h0 0
    | succ n ih => exact add_nonneg ih (h0 _)
  cases n with
  | zero => exact le_rfl
  | succ n => simp only [stime]; linarith [hs n]

omit [IsStrictOrderedRing K] in
theorem imaTrain_bound {m : Libm K} {c : ICfg K} {clock : Nat → Nat → Bool} {late : Nat → Bool} {dim : Nat}
    {samples : List (Sample K)} {index : List Nat} {hasInit : Bool} {margin : K} {r : Bool × IState K} {n : Nat}
    (hn0 : 0 < n) (hn : late n = true)
    (h : imaTrain m c clock late dim samples index hasInit margin = .ok r) : r.2.it ≤ n := by
  unfold imaTrain at h
  simp only at h
  obtain ⟨q, hq, h⟩ := Aos.bind_inv (iteOk (iteOk h))
  simp only [Res_pure, Except.ok.injEq] at h
  rw [← h]
  exact imaLoop_bound hn _ _ _ hn0 hq

/-- **C205.** The incremental margin algorithm: when the reading after round `n` has reached the limit, at most
`n` rounds are made. -/
theorem C205_ima {m : Libm K} {c : ICfg K} {clock : Nat → Nat → Bool} {limit : K} {el : Nat → K} {dim : Nat}
    {samples : List (Sample K)} {index : List Nat} {hasInit : Bool} {margin : K} {r : Bool × IState K} {n : Nat}
    (hn0 : 0 < n) (h0 : ∀ k, 0 ≤ el k) (hn : limit ≤ el n)
    (h : imaTrain m c clock (imaLate limit el) dim samples index hasInit margin = .ok r) : r.2.it ≤ n := by
  refine imaTrain_bound hn0 ?_ h
  simp only [imaLate, ge_iff_le, decide_eq_true_eq]
  exact hn.trans (stime_ge h0 n)

/-- **C205, negation for the incremental margin algorithm.** It adds up readings that already count from the
start: when every round takes at least `u`, at most `n` rounds are made as soon as `u · n(n+1)/2` reaches the
limit, although `n` rounds of `u` take `u · n`. -/
theorem C205_ima_early_refuted {m : Libm K} {c : ICfg K} {clock : Nat → Nat → Bool} {limit u : K} {el : Nat → K}
    {dim : Nat} {samples : List (Sample K)} {index : List Nat} {hasInit : Bool} {margin : K} {r : Bool × IState K}
    {n : Nat} (hn0 : 0 < n) (hel : ∀ k : Nat, (k : K) * u ≤ el k) (hn : limit ≤ u * ((n : K) * (n + 1) / 2))
    (h : imaTrain m c clock (imaLate limit el) dim samples index hasInit margin = .ok r) : r.2.it ≤ n := by
  have hs : ∀ n : Nat, u * ((n : K) * (n + 1) / 2) ≤ stime el n := by
    intro n
    induction n with
    | zero => have := hel 0; simpa [stime] using this
    | succ n ih =>
      have := hel (n + 1)
      simp only [stime]
      push_cast at this ⊢
      linarith [show u * (((n : K) + 1) * ((n : K) + 1 + 1) / 2) = u * ((n : K) * (n + 1) / 2) + ((n : K) + 1) * u by ring]
  refine imaTrain_bound hn0 ?_ h
  simp only [imaLate, ge_iff_le, decide_eq_true_eq]
  exact hn.trans (hs n)

end

private def tSamples : List (Sample ℚ) := [⟨[2, 1], 1⟩, ⟨[-1, 2], -1⟩, ⟨[3, -1], 1⟩]

/-- **C205, negation for the incremental margin algorithm.** Every reading stays below the limit, yet the run
ends after two rounds where the run without a limit makes a third. -/
theorem C205_ima_cut_refuted : ∃ (c : ICfg ℚ) (el : Nat → ℚ) (limit : ℚ),
    (∀ k, k ≤ 2 → el k < limit) ∧
    (imaTrain dummyLibm c (fun _ _ => true) (imaLate limit el) 2 tSamples [0, 1, 2] false 0).map
      (fun r => (r.1, r.2.it)) = .ok (true, 2) ∧
    (imaTrain dummyLibm c (fun _ _ => true) (fun _ => false) 2 tSamples [0, 1, 2] false 0).map
      (fun r => (r.1, r.2.it)) = .ok (true, 3) := by
  refine ⟨⟨0, 0, 1/1000, .one, 40, 60, 10^6⟩, fun k => k, 3, ?_, by decide +kernel, by decide +kernel⟩
  intro k hk
  have : (k : ℚ) ≤ 2 := by exact_mod_cast hk
  linarith

/-- **C205, negation.** A primal perceptron whose limit is already past at the first test reports success without
having looked at a sample, although its zero weights are wrong on one. -/
theorem C205_unstarted_refuted {K : Type} [Field K] [LinearOrder K] [IsStrictOrderedRing K] (m : Libm K)
    (cfg : Cfg K) {start limit : K} {el : Nat → K} (dim : Nat) (samples : List (Sample K)) (index : List Nat)
    (hel : start + limit < el 0) :
    primalTrain m cfg (percClock start limit el) dim samples index ⟨[], 0, 0, 0, 0⟩ =
      .ok (true, ⟨List.replicate dim 0, 0, 0, 0, 0⟩) := by
  have h0 : percClock start limit el 0 = false := percClock_false hel
  unfold primalTrain epochs
  simp [h0]

/-- The zero weights answer 1 for a sample labelled -1. -/
example : primalEvaluate (List.replicate 2 (0 : ℚ)) [-1, 0] 0 = 1 := by decide +kernel

/-- Runs cut by the limit exist: with readings 0, 1, 2, … and limit 0 one pass is made and the answer is `false`
(reading 1 is past the limit); with limit 10 the second pass succeeds. -/
example : (primalTrain dummyLibm ⟨1, 100, 100⟩ (percClock 0 0 (fun k => (k : ℚ))) 2 tSamples [0, 1, 2]
      ⟨[], 0, 0, 0, 0⟩).map (fun r => (r.1, r.2.steps)) = .ok (false, 1) ∧
    (primalTrain dummyLibm ⟨1, 100, 100⟩ (percClock 0 10 (fun k => (k : ℚ))) 2 tSamples [0, 1, 2]
      ⟨[], 0, 0, 0, 0⟩).map (fun r => (r.1, r.2.steps)) = .ok (true, 2) := by
  decide +kernel

/-- The same for the regressor: pass 0 is the last when its reading has reached the limit; without it pass 2 is. -/
example : (Regr.lmsTrain (⟨1 / 2, 1 / 10, 50⟩ : Regr.LCfg ℚ) (wholeLate 0 (fun k => (k : ℚ))) 1 [⟨[1], 1⟩]
      ⟨[0], 0, 0⟩).map (fun r => r.2.2.1) = .ok 0 ∧
    (Regr.lmsTrain (⟨1 / 2, 1 / 10, 50⟩ : Regr.LCfg ℚ) (wholeLate 50 (fun k => (k : ℚ))) 1 [⟨[1], 1⟩]
      ⟨[0], 0, 0⟩).map (fun r => r.2.2.1) = .ok 2 := by
  decide +kernel

end MLTK.Props
