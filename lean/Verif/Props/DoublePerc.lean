import Verif.Model.DoublePerc
import Verif.Lemmas.Double
import Verif.Props.Perceptron
/-!
# C219-C220: the perceptron in `double` arithmetic
-/
namespace MLTK.Props
open MLTK.Fp
open MLTK.Perc (Sample PState Cfg epochs)

attribute [local irreducible] Fp.rnd Fp.near Fp.huge Fp.two

/-! ## C219 -/

theorem dscan_zero (sqrt : Dbl → Dbl) (dim : Nat) (rate : Dbl) (samples : List (Sample Dbl)) (l : List Nat)
    (s s' : PState Dbl) (e : Nat) (h : Fp.primalScan sqrt dim rate samples l s e = (s', 0)) :
    e = 0 ∧ s' = s ∧ ∀ i ∈ l, ((samples.getD i ⟨[], .fin 0⟩).y.mul
      (Fp.decision dim s.w (samples.getD i ⟨[], .fin 0⟩).x s.bias)).le (.fin 0) = false := by
  have hmono : ∀ (l : List Nat) (s : PState Dbl) (e : Nat), e ≤ (Fp.primalScan sqrt dim rate samples l s e).2 := by
    intro l
    induction l with
    | nil => intro s e; simp [Fp.primalScan]
    | cons i l ih =>
      intro s e
      simp only [Fp.primalScan]
      split
      · exact le_trans (Nat.le_succ e) (ih _ _)
      · split
        · exact le_refl _
        · exact ih _ _
  induction l generalizing s e with
  | nil => simp [Fp.primalScan] at h; exact ⟨h.2, h.1.symm, by simp⟩
  | cons i l ih =>
    simp only [Fp.primalScan] at h
    split at h
    · have := hmono l (Fp.primalUpdate sqrt dim rate (samples.getD i ⟨[], .fin 0⟩) s) (e + 1)
      rw [h] at this; simp at this
    · rename_i hle
      split at h
      · rename_i h2
        simp only [Prod.mk.injEq] at h
        omega
      · obtain ⟨a, b, c⟩ := ih _ _ h
        refine ⟨a, b, ?_⟩
        intro k hk
        rcases List.mem_cons.mp hk with rfl | hk
        · simpa using hle
        · exact c k hk

theorem near_pos_inv {q : ℚ} (h : 0 < near q) : 0 < q := by
  by_contra hq
  have := near_mono (not_lt.mp hq)
  rw [near_zero] at this
  linarith

/-- If `y * f` is not at most zero and `f` is a number, `f` has the sign of `y`. -/
theorem sign_of_not_le {f : Dbl} (hf : f ≠ .nan) :
    (((Dbl.fin 1).mul f).le (.fin 0) = false → (Dbl.fin 0).le f = true) ∧
    (((Dbl.fin (-1)).mul f).le (.fin 0) = false → (Dbl.fin 0).le f = false) := by
  have hh := huge_pos
  have key : ∀ q : ℚ, (rnd q).le (.fin 0) = false → 0 < q := by
    intro q h
    apply near_pos_inv
    unfold Fp.rnd at h
    split_ifs at h with h1 h2
    · simp [Dbl.le] at h
    · linarith
    · simpa [Dbl.le] using h
  cases f with
  | nan => exact absurd rfl hf
  | inf s => cases s <;> simp [Dbl.mul, Dbl.le]
  | fin q =>
    refine ⟨fun h => ?_, fun h => ?_⟩
    · have h := key _ h
      simp only [Dbl.le, decide_eq_true_eq]; linarith
    · have h := key _ h
      simp only [Dbl.le, decide_eq_false_iff_not, not_le]; linarith

theorem dupdate_length (sqrt : Dbl → Dbl) (dim : Nat) (rate : Dbl) (p : Sample Dbl) (s : PState Dbl) :
    (Fp.primalUpdate sqrt dim rate p s).w.length = s.w.length := by simp [Fp.primalUpdate]

theorem dscan_length (sqrt : Dbl → Dbl) (dim : Nat) (rate : Dbl) (samples : List (Sample Dbl)) :
    ∀ (l : List Nat) (s : PState Dbl) (e : Nat), (Fp.primalScan sqrt dim rate samples l s e).1.w.length = s.w.length := by
  intro l
  induction l with
  | nil => intro s e; rfl
  | cons i l ih =>
    intro s e
    simp only [Fp.primalScan]
    split
    · rw [ih, dupdate_length]
    · split
      · rfl
      · exact ih _ _

/-- **C219** (partial: see the refutation for NaN) In `double` arithmetic, when `PerceptronPrimal::train` reports success,
`evaluate` answers every training sample labelled 1 or -1 by its label, unless the value it computes for the sample is NaN.  The
index is a permutation, every sample has `dim` features and so has an initial solution, and the timer let a pass
run. -/
theorem C219_answers_partial (sqrt : Dbl → Dbl) (cfg : Cfg Dbl) (clock : Nat → Bool) (dim : Nat)
    (samples : List (Sample Dbl)) (index : List Nat) (s0 s : PState Dbl)
    (hperm : index.Perm (List.range samples.length)) (hx : ∀ p ∈ samples, p.x.length = dim)
    (hw : s0.w = [] ∨ s0.w.length = dim) (hc : clock 0 = true)
    (h : Fp.primalTrain sqrt cfg clock dim samples index s0 = .ok (true, s)) :
    ∀ p ∈ samples, Fp.decision dim s.w p.x s.bias ≠ .nan →
      (p.y = .fin 1 → Fp.primalEvaluate s.w p.x s.bias = 1) ∧ (p.y = .fin (-1) → Fp.primalEvaluate s.w p.x s.bias = -1) := by
  unfold Fp.primalTrain at h
  have hlen : (if s0.w = [] then List.replicate dim (.fin 0) else s0.w).length = dim := by
    split
    · simp
    · rcases hw with hw | hw
      · contradiction
      · exact hw
  generalize (if s0.w = [] then List.replicate dim (.fin 0) else s0.w) = w at h hlen
  dsimp only at h
  split at h
  · simp at h
  · obtain ⟨s1, hP, hs1⟩ := Perc.epochs_last (Fp.primalPass sqrt dim cfg.rate samples index)
      (fun s => s.steps > cfg.maxIt ∨ s.ctot > cfg.maxUp) clock (fun t => t.w.length = dim)
      (fun t ht _ => by
        simp only [Fp.primalPass]
        rw [dscan_length]; exact ht)
      (cfg.maxIt + 1 - s0.steps) 0
      { s0 with w := w, bias := .fin 0, norm := .fin 0 } 0 hlen hc
    rw [hs1] at h
    simp only [Except.ok.injEq, Prod.mk.injEq, decide_eq_true_eq] at h
    obtain ⟨h0, h1⟩ := h
    simp only [Fp.primalPass] at h0 h1
    obtain ⟨_, e2, hall⟩ := dscan_zero sqrt dim cfg.rate samples (index.take samples.length) s1
      (Fp.primalScan sqrt dim cfg.rate samples (index.take samples.length) s1 0).1 0 (Prod.ext rfl h0)
    rw [e2] at h1
    have hsw : s.w = s1.w := by rw [← h1]
    have hsb : s.bias = s1.bias := by rw [← h1]
    intro p hp hnan
    obtain ⟨i, hi, rfl⟩ := List.getElem_of_mem hp
    have hmem : i ∈ index.take samples.length := by
      rw [List.take_of_length_le (by rw [hperm.length_eq]; simp)]
      exact hperm.mem_iff.mpr (by simpa using hi)
    have hle := hall i hmem
    rw [Perc.getD_lt _ _ _ hi] at hle
    rw [hsw, hsb] at hnan ⊢
    have hsg := sign_of_not_le hnan
    unfold Fp.primalEvaluate
    rw [if_neg (by rw [hx _ hp, hP]; simp), hP]
    refine ⟨fun hy1 => ?_, fun hy1 => ?_⟩
    · rw [hy1] at hle
      rw [if_pos (hsg.1 hle)]
    · rw [hy1] at hle
      rw [if_neg (by rw [hsg.2 hle]; simp)]

/-- A large `double`. -/
def big : ℚ := 2 ^ 1000

/-- Samples separated by the sign of their first feature. -/
def bigSamples : List (Sample Dbl) :=
  [⟨[.fin big, .fin (-big)], .fin 1⟩, ⟨[.fin big, .fin big], .fin 1⟩, ⟨[.fin (-big), .fin big], .fin (-1)⟩]

/-- **C219 refuted** in general: with features as large as 2^1000 the value computed for the second sample is NaN.  That
counts as no mistake, so success is reported; the sample, labelled 1, is answered -1, although the sign of the first feature
separates the samples. -/
theorem C219_nan_refuted : (Fp.primalTrain id ⟨.fin 1, 100, 100⟩ (fun _ => true) 2 bigSamples [0, 1, 2]
    ⟨[], .fin 0, .fin 0, 0, 0⟩).toOption.map (fun r => (r.1, bigSamples.map (fun p => (p.y, Fp.primalEvaluate r.2.w p.x r.2.bias)))) =
    some (true, [(.fin 1, 1), (.fin 1, -1), (.fin (-1), -1)]) := by decide +kernel

/-- Samples in the plane, in `double`s. -/
def planeD : List (Sample Dbl) :=
  [⟨[.fin 2, .fin 1], .fin 1⟩, ⟨[.fin (-1), .fin 1], .fin (-1)⟩, ⟨[.fin 1, .fin (-3)], .fin (-1)⟩]

example : (Fp.primalTrain id ⟨.fin (1 / 2), 100, 100⟩ (fun _ => true) 2 planeD [2, 0, 1]
    ⟨[], .fin 0, .fin 0, 0, 0⟩).toOption.map (fun r => (r.1, decide (1 < r.2.steps),
      planeD.map (fun p => Fp.primalEvaluate r.2.w p.x r.2.bias))) = some (true, true, [1, -1, -1]) := by decide +kernel

/-! ## C220 -/

/-- Two samples on a line, separated by every threshold between 1 and 2^60. -/
def farD : List (Sample Dbl) := [⟨[.fin (2 ^ 60)], .fin 1⟩, ⟨[.fin 1], .fin (-1)⟩]

/-- Where training of `farD` with rate 1 gets stuck: the weight is 2^60, the bias at most 1 and at least -2^53. -/
def Stuck (s : PState Dbl) : Prop := s.w = [.fin (2 ^ 60)] ∧ ∃ b : ℚ, s.bias = .fin b ∧ -2 ^ 53 ≤ b ∧ b ≤ 1

theorem near_bounds {a b q : ℚ} (ha : near a = a) (hb : near b = b) (h1 : a ≤ q) (h2 : q ≤ b) :
    a ≤ near q ∧ near q ≤ b := by
  have k1 := near_mono h1
  have k2 := near_mono h2
  rw [ha] at k1
  rw [hb] at k2
  exact ⟨k1, k2⟩

theorem rnd_bounds {a b q : ℚ} (ha : near a = a) (hb : near b = b) (h1 : a ≤ q) (h2 : q ≤ b) (h3 : -huge < a)
    (h4 : b < huge) : rnd q = .fin (near q) ∧ a ≤ near q ∧ near q ≤ b := by
  obtain ⟨k1, k2⟩ := near_bounds ha hb h1 h2
  exact ⟨rnd_fin (abs_lt.mpr ⟨by linarith, by linarith⟩), k1, k2⟩

/-- The second sample is always a mistake, and correcting it changes nothing but the bias. -/
theorem stuck_second (sqrt : Dbl → Dbl) (s : PState Dbl) (h : Stuck s) (hb1 : s.w = [.fin (2 ^ 60)]) :
    ((Dbl.fin (-1)).mul (Fp.decision 1 s.w [.fin 1] s.bias)).le (.fin 0) = true ∧
      Stuck (Fp.primalUpdate sqrt 1 (.fin 1) ⟨[.fin 1], .fin (-1)⟩ s) := by
  obtain ⟨_, b, hb, l, u⟩ := h
  have hw := hb1
  have hm : (Dbl.fin (2 ^ 60)).mul (.fin 1) = .fin (2 ^ 60) := by decide +kernel
  obtain ⟨e1, k1, k2⟩ := rnd_bounds (a := 2 ^ 59) (b := 2 ^ 61) (q := b + 2 ^ 60) (by decide +kernel) (by decide +kernel)
    (by linarith) (by linarith) (by decide +kernel) (by decide +kernel)
  constructor
  · have hd : Fp.decision 1 s.w [.fin 1] s.bias = .fin (near (b + 2 ^ 60)) := by
      rw [hw, hb]
      simp only [Fp.decision, List.range_succ, List.range_zero, List.nil_append, List.foldl_cons, List.foldl_nil,
        List.getD_cons_zero]
      rw [hm]
      simp only [Dbl.add]
      exact e1
    rw [hd]
    simp only [Dbl.mul]
    obtain ⟨e2, j1, j2⟩ := rnd_bounds (a := -2 ^ 61) (b := 0) (q := -1 * near (b + 2 ^ 60)) (by decide +kernel)
      (by decide +kernel) (by linarith) (by linarith) (by decide +kernel) (by decide +kernel)
    rw [e2]
    simp only [Dbl.le, decide_eq_true_eq]
    exact j2
  · have hr : (Dbl.fin 1).mul (.fin (-1)) = .fin (-1) := by decide +kernel
    have hr2 : (Dbl.fin (-1)).mul (.fin 1) = .fin (-1) := by decide +kernel
    have hr3 : (Dbl.fin (2 ^ 60)).add (.fin (-1)) = .fin (2 ^ 60) := by decide +kernel
    have j1 : -2 ^ 53 ≤ near (b + -1) := by
      have := near_mono (show (-2 ^ 53 - 1 : ℚ) ≤ b + -1 by linarith)
      rwa [show near (-2 ^ 53 - 1) = -2 ^ 53 by decide +kernel] at this
    have j2 : near (b + -1) ≤ 1 := by
      have := near_mono (show b + -1 ≤ (1 : ℚ) by linarith)
      rwa [show near 1 = 1 by decide +kernel] at this
    have e2 : rnd (b + -1) = .fin (near (b + -1)) := rnd_fin (by
      have : (2 ^ 53 : ℚ) < huge := by decide +kernel
      rw [abs_lt]; constructor <;> linarith)
    refine ⟨?_, near (b + -1), ?_, j1, j2⟩
    · simp only [Fp.primalUpdate, hw, List.mapIdx_cons, List.mapIdx_nil, Nat.zero_lt_one, if_true, List.getD_cons_zero]
      rw [hr, hr2, hr3]
    · simp only [Fp.primalUpdate, hb]
      rw [hr]
      simp only [Dbl.add]
      exact e2

/-- The first sample is never a mistake any more. -/
theorem stuck_first (s : PState Dbl) (h : Stuck s) :
    ((Dbl.fin 1).mul (Fp.decision 1 s.w [.fin (2 ^ 60)] s.bias)).le (.fin 0) = false := by
  obtain ⟨hw, b, hb, l, u⟩ := h
  have hm : (Dbl.fin (2 ^ 60)).mul (.fin (2 ^ 60)) = .fin (2 ^ 120) := by decide +kernel
  obtain ⟨e1, k1, k2⟩ := rnd_bounds (a := 2 ^ 119) (b := 2 ^ 121) (q := b + 2 ^ 120) (by decide +kernel) (by decide +kernel)
    (by linarith) (by linarith) (by decide +kernel) (by decide +kernel)
  have hd : Fp.decision 1 s.w [.fin (2 ^ 60)] s.bias = .fin (near (b + 2 ^ 120)) := by
    rw [hw, hb]
    simp only [Fp.decision, List.range_succ, List.range_zero, List.nil_append, List.foldl_cons, List.foldl_nil,
      List.getD_cons_zero]
    rw [hm]
    simp only [Dbl.add]
    exact e1
  rw [hd]
  simp only [Dbl.mul]
  obtain ⟨e2, j1, j2⟩ := rnd_bounds (a := 2 ^ 119) (b := 2 ^ 121) (q := 1 * near (b + 2 ^ 120)) (by decide +kernel)
    (by decide +kernel) (by linarith) (by linarith) (by decide +kernel) (by decide +kernel)
  rw [e2]
  simp only [Dbl.le, decide_eq_false_iff_not, not_le]
  linarith

theorem stuck_pass (sqrt : Dbl → Dbl) (s : PState Dbl) (h : Stuck s) :
    Stuck (Fp.primalPass sqrt 1 (.fin 1) farD [0, 1] s).1 ∧ (Fp.primalPass sqrt 1 (.fin 1) farD [0, 1] s).2 ≠ 0 := by
  have h1 := stuck_first s h
  have h2 := stuck_second sqrt s h h.1
  have e : Fp.primalScan sqrt 1 (.fin 1) farD [0, 1] s 0 =
      (Fp.primalUpdate sqrt 1 (.fin 1) ⟨[.fin 1], .fin (-1)⟩ s, 1) := by
    simp only [Fp.primalScan, farD, List.getD_cons_zero, List.getD_cons_succ]
    rw [h1, h2.1]
    simp
  have e' : Fp.primalPass sqrt 1 (.fin 1) farD [0, 1] s =
      ({ Fp.primalUpdate sqrt 1 (.fin 1) ⟨[.fin 1], .fin (-1)⟩ s with
        steps := (Fp.primalUpdate sqrt 1 (.fin 1) ⟨[.fin 1], .fin (-1)⟩ s).steps + 1 }, 1) := by
    unfold Fp.primalPass
    rw [show List.take farD.length [0, 1] = [0, 1] from rfl, e]
  rw [e']
  exact ⟨h2.2, by simp⟩

theorem start_pass (sqrt : Dbl → Dbl) (s : PState Dbl) (hw : s.w = [.fin 0]) (hb : s.bias = .fin 0) :
    Stuck (Fp.primalPass sqrt 1 (.fin 1) farD [0, 1] s).1 ∧ (Fp.primalPass sqrt 1 (.fin 1) farD [0, 1] s).2 ≠ 0 := by
  have h1 : ((Dbl.fin 1).mul (Fp.decision 1 s.w [.fin (2 ^ 60)] s.bias)).le (.fin 0) = true := by
    rw [hw, hb]; decide +kernel
  have h2 : Stuck (Fp.primalUpdate sqrt 1 (.fin 1) ⟨[.fin (2 ^ 60)], .fin 1⟩ s) := by
    refine ⟨?_, 1, ?_, by norm_num, le_refl _⟩
    · simp only [Fp.primalUpdate, hw, List.mapIdx_cons, List.mapIdx_nil, Nat.zero_lt_one, if_true, List.getD_cons_zero]
      decide +kernel
    · simp only [Fp.primalUpdate, hb]
      decide +kernel
  have h3 := stuck_second sqrt _ h2 h2.1
  have e : Fp.primalScan sqrt 1 (.fin 1) farD [0, 1] s 0 =
      (Fp.primalUpdate sqrt 1 (.fin 1) ⟨[.fin 1], .fin (-1)⟩
        (Fp.primalUpdate sqrt 1 (.fin 1) ⟨[.fin (2 ^ 60)], .fin 1⟩ s), 2) := by
    simp only [Fp.primalScan, farD, List.getD_cons_zero, List.getD_cons_succ]
    rw [h1, if_pos rfl, h3.1, if_pos rfl]
  have e' : Fp.primalPass sqrt 1 (.fin 1) farD [0, 1] s =
      ({ Fp.primalUpdate sqrt 1 (.fin 1) ⟨[.fin 1], .fin (-1)⟩
          (Fp.primalUpdate sqrt 1 (.fin 1) ⟨[.fin (2 ^ 60)], .fin 1⟩ s) with
        steps := (Fp.primalUpdate sqrt 1 (.fin 1) ⟨[.fin 1], .fin (-1)⟩
          (Fp.primalUpdate sqrt 1 (.fin 1) ⟨[.fin (2 ^ 60)], .fin 1⟩ s)).steps + 1 }, 2) := by
    unfold Fp.primalPass
    rw [show List.take farD.length [0, 1] = [0, 1] from rfl, e]
  rw [e']
  exact ⟨h3.2, by simp⟩

/-! ### integer features and a rate that is a power of one half -/

theorem rnd_scaled {m : ℤ} {k : ℕ} (hk : k ≤ 1074) (hm : |m| ≤ 2 ^ 53) :
    rnd ((m : ℚ) * (1 / 2) ^ k) = .fin ((m : ℚ) * (1 / 2) ^ k) := by
  have e : ((1 : ℚ) / 2) ^ k = two (-(k : ℤ)) := by
    rw [two_eq, zpow_neg, zpow_natCast, one_div, inv_pow]
  have h1 : near ((m : ℚ) * (1 / 2) ^ k) = (m : ℚ) * (1 / 2) ^ k :=
    near_of_grid ⟨m, -(k : ℤ), hm, by omega, by rw [e]⟩
  rw [rnd_fin, h1]
  rw [h1, abs_mul, abs_of_pos (show (0 : ℚ) < (1 / 2) ^ k by positivity)]
  have h2 : |(m : ℚ)| ≤ 2 ^ 53 := by exact_mod_cast hm
  have h3 : ((1 : ℚ) / 2) ^ k ≤ 1 := pow_le_one₀ (by norm_num) (by norm_num)
  have h4 : (2 ^ 53 : ℚ) < huge := by decide +kernel
  calc |(m : ℚ)| * (1 / 2) ^ k ≤ |(m : ℚ)| * 1 := mul_le_mul_of_nonneg_left h3 (abs_nonneg _)
    _ ≤ 2 ^ 53 := by rw [mul_one]; exact h2
    _ < huge := h4

/-- A sample with integer features, as the library stores it. -/
def Spec.intSample (p : Sample ℤ) : Sample Dbl := ⟨p.x.map (fun a : ℤ => .fin (a : ℚ)), .fin (p.y : ℚ)⟩

/-- The same sample over the reals. -/
noncomputable def Spec.realSample (p : Sample ℤ) : Sample ℝ := ⟨p.x.map (fun a : ℤ => (a : ℝ)), (p.y : ℝ)⟩

/-- The two trainers hold the same integers, scaled by the rate. -/
structure Sim (dim X k : ℕ) (gamma R : ℝ) (u : List ℝ) (ub : ℝ) (W : List ℤ) (B : ℤ) (s : PState Dbl) (t : PState ℝ) :
    Prop where
  len : W.length = dim
  sw : s.w = W.map (fun a : ℤ => .fin ((a : ℚ) * (1 / 2) ^ k))
  tw : t.w = W.map (fun a : ℤ => (a : ℝ) * (1 / 2) ^ k)
  sb : s.bias = .fin ((B : ℚ) * (1 / 2) ^ k)
  tb : t.bias = (B : ℝ) * (1 / 2) ^ k
  ctot : s.ctot = t.ctot
  steps : s.steps = t.steps
  wB : ∀ a ∈ W, |a| ≤ t.ctot * X
  bB : |B| ≤ t.ctot
  nov : Perc.NovInv dim ((1 / 2) ^ k) gamma (R ^ 2) u ub 0 t

theorem getD_map_fin (W : List ℤ) (g : ℤ → ℚ) (h0 : g 0 = 0) (j : ℕ) :
    (W.map (fun a : ℤ => Dbl.fin (g a))).getD j (.fin 0) = .fin (g (W.getD j 0)) := by
  rw [List.getD_eq_getElem?_getD, List.getD_eq_getElem?_getD, List.getElem?_map]
  cases W[j]? <;> simp [h0]

theorem getD_map_real (W : List ℤ) (g : ℤ → ℝ) (h0 : g 0 = 0) (j : ℕ) :
    (W.map g).getD j 0 = g (W.getD j 0) := by
  rw [List.getD_eq_getElem?_getD, List.getD_eq_getElem?_getD, List.getElem?_map]
  cases W[j]? <;> simp [h0]

theorem abs_getD_le {W : List ℤ} {b : ℤ} (hb : 0 ≤ b) (h : ∀ a ∈ W, |a| ≤ b) (j : ℕ) : |W.getD j 0| ≤ b := by
  rw [List.getD_eq_getElem?_getD]
  cases hj : W[j]? with
  | none => simpa using hb
  | some a => exact h a (List.mem_of_getElem? hj)

/-- The value both compute. -/
def intValue (dim : ℕ) (W : List ℤ) (B : ℤ) (x : List ℤ) : ℤ :=
  (List.range dim).foldl (fun f j => f + W.getD j 0 * x.getD j 0) B

theorem intValue_bound {X c : ℕ} {W x : List ℤ} {B : ℤ} (hW : ∀ a ∈ W, |a| ≤ c * X) (hB : |B| ≤ c)
    (hx : ∀ a ∈ x, |a| ≤ X) (n : ℕ) : |intValue n W B x| ≤ c * (1 + n * X ^ 2) := by
  induction n with
  | zero => simpa [intValue] using hB
  | succ n ih =>
    have e : intValue (n + 1) W B x = intValue n W B x + W.getD n 0 * x.getD n 0 := by
      simp [intValue, List.range_succ]
    have h1 : |W.getD n 0 * x.getD n 0| ≤ (c * X) * X := by
      rw [abs_mul]
      exact mul_le_mul (abs_getD_le (by positivity) hW n) (abs_getD_le (by positivity) hx n) (abs_nonneg _) (by positivity)
    rw [e]
    calc |intValue n W B x + W.getD n 0 * x.getD n 0| ≤ _ := abs_add_le _ _
      _ ≤ c * (1 + n * X ^ 2) + (c * X) * X := add_le_add ih h1
      _ = _ := by push_cast; ring

theorem decision_int {dim X c k : ℕ} (hk : k ≤ 1074) {W x : List ℤ} {B : ℤ} (hW : ∀ a ∈ W, |a| ≤ c * X) (hB : |B| ≤ c)
    (hx : ∀ a ∈ x, |a| ≤ X) (hc : c * (1 + dim * X ^ 2) ≤ 2 ^ 53) :
    Fp.decision dim (W.map (fun a : ℤ => .fin ((a : ℚ) * (1 / 2) ^ k))) (x.map (fun a : ℤ => .fin (a : ℚ)))
      (.fin ((B : ℚ) * (1 / 2) ^ k)) = .fin ((intValue dim W B x : ℚ) * (1 / 2) ^ k) := by
  induction dim with
  | zero => simp [Fp.decision, intValue]
  | succ n ih =>
    have hc' : c * (1 + n * X ^ 2) ≤ 2 ^ 53 := le_trans (Nat.mul_le_mul_left _ (by nlinarith [sq_nonneg X])) hc
    have e : intValue (n + 1) W B x = intValue n W B x + W.getD n 0 * x.getD n 0 := by
      simp [intValue, List.range_succ]
    have ih := ih hc'
    unfold Fp.decision at ih ⊢
    rw [List.range_succ, List.foldl_append, ih]
    simp only [List.foldl_cons, List.foldl_nil]
    rw [getD_map_fin W (fun a => (a : ℚ) * (1 / 2) ^ k) (by simp), getD_map_fin x (fun a => (a : ℚ)) (by simp)]
    have hp : |W.getD n 0 * x.getD n 0| ≤ 2 ^ 53 := by
      rw [abs_mul]
      have := mul_le_mul (abs_getD_le (by positivity) hW n) (abs_getD_le (b := X) (by positivity) hx n) (abs_nonneg _)
        (by positivity)
      refine le_trans this ?_
      have h2 : c * X * X ≤ 2 ^ 53 := le_trans (by nlinarith [Nat.zero_le (c * (1 + n * X ^ 2))]) hc
      exact_mod_cast h2
    have hv : |intValue (n + 1) W B x| ≤ 2 ^ 53 := by
      refine le_trans (intValue_bound hW hB hx (n + 1)) ?_
      exact_mod_cast hc
    have m1 : (Dbl.fin ((W.getD n 0 : ℚ) * (1 / 2) ^ k)).mul (.fin (x.getD n 0 : ℚ)) =
        .fin (((W.getD n 0 * x.getD n 0 : ℤ) : ℚ) * (1 / 2) ^ k) := by
      rw [← rnd_scaled hk hp]
      simp only [Dbl.mul]
      congr 1; push_cast; ring
    rw [m1, ← rnd_scaled hk hv, e]
    simp only [Dbl.add]
    congr 1; push_cast; ring

theorem decision_real {dim k : ℕ} {W x : List ℤ} {B : ℤ} :
    Perc.decision dim (W.map (fun a : ℤ => (a : ℝ) * (1 / 2) ^ k)) (x.map (fun a : ℤ => (a : ℝ))) ((B : ℝ) * (1 / 2) ^ k) =
      (intValue dim W B x : ℝ) * (1 / 2) ^ k := by
  induction dim with
  | zero => simp [Perc.decision, intValue]
  | succ n ih =>
    have e : intValue (n + 1) W B x = intValue n W B x + W.getD n 0 * x.getD n 0 := by
      simp [intValue, List.range_succ]
    unfold Perc.decision at ih ⊢
    rw [List.range_succ, List.foldl_append, ih]
    simp only [List.foldl_cons, List.foldl_nil]
    rw [getD_map_real W (fun a => (a : ℝ) * (1 / 2) ^ k) (by simp), getD_map_real x (fun a => (a : ℝ)) (by simp), e]
    push_cast; ring

section
variable {dim X k N : ℕ} {gamma R : ℝ} {u : List ℝ} {ub : ℝ}

theorem Sim.count {W : List ℤ} {B : ℤ} {s : PState Dbl} {t : PState ℝ} (h : Sim dim X k gamma R u ub W B s t)
    (hg : 0 < gamma) (hu : Spec.ip dim u u + ub ^ 2 = 1) (hN : (R / gamma) ^ 2 ≤ N) : t.ctot ≤ N := by
  have hb := h.nov.bound (by positivity) hg hu (sq_nonneg R)
  rw [Nat.cast_zero, sub_zero, ← le_div_iff₀ (by positivity), ← div_pow] at hb
  exact_mod_cast hb.trans hN

/-- Both find the same mistakes. -/
theorem Sim.mistake {W : List ℤ} {B : ℤ} {s : PState Dbl} {t : PState ℝ} (h : Sim dim X k gamma R u ub W B s t)
    (hk : k ≤ 1074) (hc : t.ctot * (1 + dim * X ^ 2) ≤ 2 ^ 53) (p : Sample ℤ) (hy : p.y = 1 ∨ p.y = -1)
    (hx : ∀ a ∈ p.x, |a| ≤ X) :
    (((Spec.intSample p).y.mul (Fp.decision dim s.w (Spec.intSample p).x s.bias)).le (.fin 0) = true ↔
      (Spec.realSample p).y * Perc.decision dim t.w (Spec.realSample p).x t.bias ≤ 0) ∧
    Fp.decision dim s.w (Spec.intSample p).x s.bias ≠ .nan := by
  have hd : Fp.decision dim s.w (Spec.intSample p).x s.bias = .fin ((intValue dim W B p.x : ℚ) * (1 / 2) ^ k) := by
    rw [h.sw, h.sb]
    exact decision_int hk h.wB h.bB hx hc
  have hv : |intValue dim W B p.x| ≤ 2 ^ 53 := by
    refine le_trans (intValue_bound h.wB h.bB hx dim) ?_
    exact_mod_cast hc
  have hpos : (0 : ℚ) < (1 / 2) ^ k := by positivity
  have hpos' : (0 : ℝ) < (1 / 2) ^ k := by positivity
  refine ⟨?_, by rw [hd]; simp⟩
  rw [hd, h.tw, h.tb]
  simp only [Spec.intSample, Spec.realSample]
  rw [decision_real]
  simp only [Dbl.mul]
  have hyv : |p.y * intValue dim W B p.x| ≤ 2 ^ 53 := by
    rw [abs_mul]
    rcases hy with e | e <;> rw [e] <;> simpa using hv
  have e1 : (p.y : ℚ) * ((intValue dim W B p.x : ℚ) * (1 / 2) ^ k) =
      ((p.y * intValue dim W B p.x : ℤ) : ℚ) * (1 / 2) ^ k := by push_cast; ring
  have e2 : (p.y : ℝ) * ((intValue dim W B p.x : ℝ) * (1 / 2) ^ k) =
      ((p.y * intValue dim W B p.x : ℤ) : ℝ) * (1 / 2) ^ k := by push_cast; ring
  rw [e1, e2, rnd_scaled hk hyv]
  simp only [Dbl.le, decide_eq_true_eq]
  constructor
  · intro h1
    have : (((p.y * intValue dim W B p.x : ℤ) : ℚ)) ≤ 0 := by
      by_contra hh
      have := mul_pos (not_le.mp hh) hpos
      linarith
    have h3 : p.y * intValue dim W B p.x ≤ 0 := by exact_mod_cast this
    exact mul_nonpos_of_nonpos_of_nonneg (by exact_mod_cast h3) hpos'.le
  · intro h1
    have : (((p.y * intValue dim W B p.x : ℤ) : ℝ)) ≤ 0 := by
      by_contra hh
      have := mul_pos (not_le.mp hh) hpos'
      linarith
    have h3 : p.y * intValue dim W B p.x ≤ 0 := by exact_mod_cast this
    exact mul_nonpos_of_nonpos_of_nonneg (by exact_mod_cast h3) hpos.le

/-- The weights after an update. -/
def intUpd (dim : ℕ) (p : Sample ℤ) (W : List ℤ) : List ℤ :=
  W.mapIdx (fun j a => if j < dim then a + p.y * p.x.getD j 0 else a)

theorem Sim.update (sqrt : Dbl → Dbl) {W : List ℤ} {B : ℤ} {s : PState Dbl} {t : PState ℝ}
    (h : Sim dim X k gamma R u ub W B s t) (hk : k ≤ 1074) (p : Sample ℤ) (hy : p.y = 1 ∨ p.y = -1)
    (hx : ∀ a ∈ p.x, |a| ≤ X) (hc : (t.ctot + 1) * (1 + dim * X ^ 2) ≤ 2 ^ 53)
    (hnov : Perc.NovInv dim ((1 / 2) ^ k) gamma (R ^ 2) u ub 0
      (Perc.primalUpdate Spec.realLibm dim ((1 / 2) ^ k) (Spec.realSample p) t)) :
    Sim dim X k gamma R u ub (intUpd dim p W) (B + p.y)
      (Fp.primalUpdate sqrt dim (.fin ((1 / 2) ^ k)) (Spec.intSample p) s)
      (Perc.primalUpdate Spec.realLibm dim ((1 / 2) ^ k) (Spec.realSample p) t) := by
  have hyabs : |p.y| = 1 := by rcases hy with e | e <;> rw [e] <;> simp
  have hrate : (Dbl.fin ((1 / 2) ^ k)).mul (.fin (p.y : ℚ)) = .fin ((p.y : ℚ) * (1 / 2) ^ k) := by
    simp only [Dbl.mul]
    rw [mul_comm, rnd_scaled hk (by rw [hyabs]; norm_num)]
  have hc1 : t.ctot + 1 ≤ 2 ^ 53 := le_trans (by nlinarith [Nat.zero_le (dim * X ^ 2)]) hc
  have hbB : |B + p.y| ≤ ((t.ctot + 1 : ℕ) : ℤ) := by
    refine le_trans (abs_add_le _ _) ?_
    rw [hyabs]; push_cast
    linarith [h.bB]
  have hwB : ∀ j, j < W.length → |W.getD j 0 + p.y * p.x.getD j 0| ≤ ((t.ctot + 1 : ℕ) : ℤ) * X := by
    intro j hj
    refine le_trans (abs_add_le _ _) ?_
    rw [abs_mul, hyabs, one_mul]
    have h1 := abs_getD_le (b := (t.ctot : ℤ) * X) (by positivity) h.wB j
    have h2 := abs_getD_le (b := (X : ℤ)) (by positivity) hx j
    push_cast; linarith
  have hX : dim ≠ 0 → ((t.ctot + 1 : ℕ) : ℤ) * X ≤ 2 ^ 53 := by
    intro hd
    have h1 : (t.ctot + 1) * X ≤ (t.ctot + 1) * (1 + dim * X ^ 2) := by
      apply Nat.mul_le_mul_left
      have : 1 ≤ dim := Nat.one_le_iff_ne_zero.mpr hd
      nlinarith [Nat.mul_le_mul_right (X ^ 2) this, sq_nonneg ((X : ℤ) - 1), Nat.le_self_pow (n := 2) (by norm_num) X]
    exact_mod_cast h1.trans hc
  refine ⟨by simp [intUpd, h.len], ?_, ?_, ?_, ?_, ?_, ?_, ?_, ?_, hnov⟩
  · simp only [Fp.primalUpdate]
    rw [h.sw]
    apply List.ext_getElem
    · simp [intUpd]
    · intro j h1 h2
      have hj : j < W.length := by simpa using h1
      have hjd : j < dim := by rw [← h.len]; exact hj
      simp only [intUpd, List.getElem_mapIdx, List.getElem_map, hjd, if_true, Spec.intSample]
      simp only [hrate]
      rw [getD_map_fin p.x (fun a => (a : ℚ)) (by simp)]
      have hxb : |p.y * p.x.getD j 0| ≤ 2 ^ 53 := by
        rw [abs_mul, hyabs, one_mul]
        refine le_trans (abs_getD_le (b := (X : ℤ)) (by positivity) hx j) (le_trans ?_ (hX (by omega)))
        push_cast; nlinarith
      have m1 : (Dbl.fin ((p.y : ℚ) * (1 / 2) ^ k)).mul (.fin (p.x.getD j 0 : ℚ)) =
          .fin (((p.y * p.x.getD j 0 : ℤ) : ℚ) * (1 / 2) ^ k) := by
        rw [← rnd_scaled hk hxb]
        simp only [Dbl.mul]
        congr 1; push_cast; ring
      rw [m1]
      have hw := hwB j hj
      rw [Perc.getD_lt _ _ _ hj] at hw
      refine Eq.trans ?_ (rnd_scaled hk (hw.trans (hX (by omega))))
      simp only [Dbl.add]
      congr 1; push_cast; ring
  · simp only [Perc.primalUpdate, Perc.updTo]
    rw [h.tw]
    apply List.ext_getElem
    · simp [intUpd]
    · intro j h1 h2
      have hj : j < W.length := by simpa using h1
      have hjd : j < dim := by rw [← h.len]; exact hj
      simp only [intUpd, List.getElem_mapIdx, List.getElem_map, hjd, if_true, Spec.realSample]
      rw [getD_map_real p.x (fun a => (a : ℝ)) (by simp)]
      push_cast; ring
  · simp only [Fp.primalUpdate]
    rw [h.sb]
    simp only [Spec.intSample]
    rw [hrate]
    refine Eq.trans ?_ (rnd_scaled hk (hbB.trans (by exact_mod_cast hc1)))
    simp only [Dbl.add]
    congr 1; push_cast; ring
  · simp only [Perc.primalUpdate]
    rw [h.tb]
    simp only [Spec.realSample]
    push_cast; ring
  · simp only [Fp.primalUpdate, Perc.primalUpdate, h.ctot]
  · simp only [Fp.primalUpdate, Perc.primalUpdate, h.steps]
  · intro a ha
    simp only [intUpd, List.mem_mapIdx] at ha
    obtain ⟨j, hj, rfl⟩ := ha
    have hjd : j < dim := by rw [← h.len]; exact hj
    rw [if_pos hjd]
    have := hwB j hj
    rw [Perc.getD_lt _ _ _ hj] at this
    simpa [Perc.primalUpdate] using this
  · simpa [Perc.primalUpdate] using hbB

theorem sim_scan (sqrt : Dbl → Dbl) (samples : List (Sample ℤ)) (hk : k ≤ 1074) (hg : 0 < gamma)
    (hl : ∀ p ∈ samples, p.y = 1 ∨ p.y = -1) (hx : ∀ p ∈ samples, ∀ a ∈ p.x, |a| ≤ X)
    (hm : Spec.Margin dim (samples.map Spec.realSample) u ub gamma)
    (hR : ∀ p ∈ samples, Spec.ip dim (Spec.realSample p).x (Spec.realSample p).x + 1 ≤ R ^ 2)
    (hN : (R / gamma) ^ 2 ≤ N) (hc : N * (1 + dim * X ^ 2) ≤ 2 ^ 53) :
    ∀ (l : List ℕ), (∀ i ∈ l, i < samples.length) → ∀ (W : List ℤ) (B : ℤ) (s : PState Dbl) (t : PState ℝ) (e : ℕ),
      Sim dim X k gamma R u ub W B s t →
      (∃ W' B', Sim dim X k gamma R u ub W' B'
        (Fp.primalScan sqrt dim (.fin ((1 / 2) ^ k)) (samples.map Spec.intSample) l s e).1
        (Perc.primalScan Spec.realLibm dim ((1 / 2) ^ k) (samples.map Spec.realSample) l t e).1) ∧
      (Fp.primalScan sqrt dim (.fin ((1 / 2) ^ k)) (samples.map Spec.intSample) l s e).2 =
        (Perc.primalScan Spec.realLibm dim ((1 / 2) ^ k) (samples.map Spec.realSample) l t e).2 := by
  intro l
  induction l with
  | nil => intro _ W B s t e h; exact ⟨⟨W, B, h⟩, rfl⟩
  | cons i l ih =>
    intro hi W B s t e h
    have ih := ih (fun j hj => hi j (List.mem_cons_of_mem _ hj))
    have hil : i < samples.length := hi i (by simp)
    have hmem : samples[i] ∈ samples := List.getElem_mem hil
    have hcnt := h.count hg hm.1 hN
    have hb : t.ctot * (1 + dim * X ^ 2) ≤ 2 ^ 53 := le_trans (Nat.mul_le_mul_right _ hcnt) hc
    have g1 : (samples.map Spec.intSample).getD i ⟨[], .fin 0⟩ = Spec.intSample samples[i] := by
      rw [Perc.getD_lt _ _ _ (by simpa using hil)]; simp
    have g2 : (samples.map Spec.realSample).getD i default = Spec.realSample samples[i] := by
      rw [Perc.getD_lt _ _ _ (by simpa using hil)]; simp
    have hmis := (h.mistake hk hb samples[i] (hl _ hmem) (hx _ hmem)).1
    simp only [Fp.primalScan, Perc.primalScan]
    rw [g1, g2]
    by_cases hmk : (Spec.realSample samples[i]).y * Perc.decision dim t.w (Spec.realSample samples[i]).x t.bias ≤ 0
    · rw [if_pos hmk, if_pos (hmis.mpr hmk)]
      have hnov : Perc.NovInv dim ((1 / 2) ^ k) gamma (R ^ 2) u ub 0
          (Perc.primalUpdate Spec.realLibm dim ((1 / 2) ^ k) (Spec.realSample samples[i]) t) :=
        h.nov.update _ (by positivity) _ (by
          rcases hl _ hmem with e | e <;> simp [Spec.realSample, e]) (hm.2 _ (List.mem_map_of_mem hmem)) (hR _ hmem) hmk
      have hcnt' : t.ctot + 1 ≤ N := by
        have hb := hnov.bound (by positivity) hg hm.1 (sq_nonneg R)
        rw [Nat.cast_zero, sub_zero, ← le_div_iff₀ (by positivity), ← div_pow] at hb
        exact_mod_cast hb.trans hN
      exact ih _ _ _ _ _ (h.update sqrt hk samples[i] (hl _ hmem) (hx _ hmem)
        (le_trans (Nat.mul_le_mul_right _ hcnt') hc) hnov)
    · rw [if_neg hmk, if_neg (fun hh => hmk (hmis.mp hh)), h.steps]
      split
      · exact ⟨⟨W, B, h⟩, rfl⟩
      · exact ih _ _ _ _ _ h

end

/-- **C220** (partial: integer features and a rate that is a power of one half, as the default 1/2 is; see the refutation)
When the features are integers of size at most `X`, labelled 1 or -1, separated by a unit hyperplane with margin `gamma`, of
augmented norm at most `R`, and `N`, at least `(R / gamma)²`, has `N * (1 + dim * X²) ≤ 2^53`, training in `double`
arithmetic with limits of at least `N` passes and updates and enough time reports success and answers every sample by its
label. -/
theorem C220_integer_partial (sqrt : Dbl → Dbl) (k N X dim maxIt maxUp : ℕ) (clock : ℕ → Bool)
    (samples : List (Sample ℤ)) (index : List ℕ) (u : List ℝ) (ub gamma R : ℝ) (hk : k ≤ 1074) (hg : 0 < gamma)
    (hl : ∀ p ∈ samples, p.y = 1 ∨ p.y = -1) (hd : ∀ p ∈ samples, p.x.length = dim) (hx : ∀ p ∈ samples, ∀ a ∈ p.x, |a| ≤ X)
    (hm : Spec.Margin dim (samples.map Spec.realSample) u ub gamma)
    (hR : ∀ p ∈ samples, Spec.ip dim (Spec.realSample p).x (Spec.realSample p).x + 1 ≤ R ^ 2)
    (hN : (R / gamma) ^ 2 ≤ N) (hc : N * (1 + dim * X ^ 2) ≤ 2 ^ 53)
    (hperm : index.Perm (List.range samples.length)) (hclock : ∀ i, clock i = true) (hIt : N ≤ maxIt) (hUp : N ≤ maxUp) :
    ∃ s, Fp.primalTrain sqrt ⟨.fin ((1 / 2) ^ k), maxIt, maxUp⟩ clock dim (samples.map Spec.intSample) index
        ⟨[], .fin 0, .fin 0, 0, 0⟩ = .ok (true, s) ∧
      ∀ p ∈ samples, Fp.primalEvaluate s.w (Spec.intSample p).x s.bias = p.y := by
  have hperm' : index.Perm (List.range (samples.map Spec.realSample).length) := by simpa using hperm
  have hperm'' : index.Perm (List.range (samples.map Spec.intSample).length) := by simpa using hperm
  have hidx : ∀ i ∈ index.take samples.length, i < samples.length := by
    intro i hi
    simpa using hperm.mem_iff.mp (List.mem_of_mem_take hi)
  obtain ⟨t, ht, -⟩ := C36_converges Spec.realLibm ⟨(1 / 2) ^ k, maxIt, maxUp⟩ clock dim (samples.map Spec.realSample) index
    u ub gamma R (by positivity) hg (by
      intro p hp
      obtain ⟨q, hq, rfl⟩ := List.mem_map.mp hp
      rcases hl q hq with e | e <;> simp [Spec.realSample, e]) hm (by
      intro p hp
      obtain ⟨q, hq, rfl⟩ := List.mem_map.mp hp
      exact hR q hq) (by
      intro p hp
      obtain ⟨q, hq, rfl⟩ := List.mem_map.mp hp
      simp [Spec.realSample, hd q hq]) hperm' hclock (hN.trans (by exact_mod_cast hIt)) (hN.trans (by exact_mod_cast hUp))
  have hstart : Sim dim X k gamma R u ub (List.replicate dim 0) 0 ⟨List.replicate dim (.fin 0), .fin 0, .fin 0, 0, 0⟩
      ⟨List.replicate dim 0, 0, 0, 0, 0⟩ := by
    have hn := nov_start dim ((1 / 2) ^ k : ℝ) gamma R u ub ⟨[], 0, 0, 0, 0⟩ (by simp) (by simp)
    simp only [if_true] at hn
    refine ⟨by simp, by simp, by simp, by simp, by simp, rfl, rfl, ?_, by simp, hn⟩
    intro a ha
    rw [List.eq_of_mem_replicate ha]; simp
  have hsim := Perc.epochs_sim
    (Fp.primalPass sqrt dim (.fin ((1 / 2) ^ k)) (samples.map Spec.intSample) index)
    (Perc.primalPass Spec.realLibm dim ((1 / 2) ^ k) (samples.map Spec.realSample) index)
    (fun s => s.steps > maxIt ∨ s.ctot > maxUp) (fun s => s.steps > maxIt ∨ s.ctot > maxUp) clock
    (fun s t => ∃ W B, Sim dim X k gamma R u ub W B s t)
    (by
      rintro s t ⟨W, B, h⟩
      obtain ⟨⟨W', B', h'⟩, he⟩ := sim_scan sqrt samples hk hg hl hx hm hR hN hc (index.take samples.length) hidx W B s t 0 h
      simp only [Fp.primalPass, Perc.primalPass, List.length_map]
      refine ⟨⟨W', B', ?_⟩, he⟩
      obtain ⟨a1, a2, a3, a4, a5, a6, a7, a8, a9, a10⟩ := h'
      exact ⟨a1, a2, a3, a4, a5, a6, congrArg (· + 1) a7, a8, a9, ⟨a10.len, a10.cnt, a10.lower, a10.upper⟩⟩)
    (by
      rintro s t ⟨W, B, h⟩
      simp only [h.steps, h.ctot])
    (maxIt + 1) 0 _ _ 0 0 ⟨_, _, hstart⟩ (Or.inl (hclock 0))
  obtain ⟨⟨W, B, hend⟩, he⟩ := hsim
  have ht' := (Perc.primalTrain_inv ht).2 _ rfl
  have hin : Fp.inRange dim (samples.map Spec.intSample) index (List.replicate dim (.fin 0)) = true := by
    simp only [Fp.inRange, decide_eq_true_eq, List.length_map, List.length_replicate]
    refine ⟨by rw [hperm.length_eq]; simp, hidx, ?_, le_refl _⟩
    intro p hp
    obtain ⟨q, hq, rfl⟩ := List.mem_map.mp hp
    simp [Spec.intSample, hd q hq]
  simp only [if_true] at ht'
  rw [Nat.sub_zero] at ht'
  obtain ⟨r, hr⟩ : ∃ r, epochs (Fp.primalPass sqrt dim (.fin ((1 / 2) ^ k)) (samples.map Spec.intSample) index)
      (fun s => s.steps > maxIt ∨ s.ctot > maxUp) clock (maxIt + 1) 0
      ⟨List.replicate dim (.fin 0), .fin 0, .fin 0, 0, 0⟩ 0 = r := ⟨_, rfl⟩
  rw [hr] at hend he
  have hrun : Fp.primalTrain sqrt ⟨.fin ((1 / 2) ^ k), maxIt, maxUp⟩ clock dim (samples.map Spec.intSample) index
      ⟨[], .fin 0, .fin 0, 0, 0⟩ = .ok (true, r.1) := by
    unfold Fp.primalTrain
    simp only [if_true, hin, Nat.sub_zero]
    rw [if_neg (by simp), hr]
    have := he.trans (of_decide_eq_true ht'.1)
    simp [this]
  refine ⟨r.1, hrun, ?_⟩
  intro p hp
  have hcnt := hend.count hg hm.1 hN
  have hmis := (hend.mistake hk (le_trans (Nat.mul_le_mul_right _ hcnt) hc) p (hl p hp) (hx p hp)).2
  have hans := C219_answers_partial sqrt _ clock dim _ index _ _ hperm'' (by
    intro q hq
    obtain ⟨q', hq', rfl⟩ := List.mem_map.mp hq
    simp [Spec.intSample, hd q' hq']) (Or.inl rfl) (hclock 0) hrun (Spec.intSample p) (List.mem_map_of_mem hp) hmis
  rcases hl p hp with e | e
  · rw [hans.1 (by simp [Spec.intSample, e]), e]
  · rw [hans.2 (by simp [Spec.intSample, e]), e]

/-- Integer samples in the plane: the hypotheses are met with the default rate 1/2 and `N = 9`. -/
example : ∃ s, Fp.primalTrain id ⟨.fin ((1 / 2) ^ 1), 100, 100⟩ (fun _ => true) 2
    (([⟨[2, 1], 1⟩, ⟨[-1, -1], -1⟩] : List (Sample ℤ)).map Spec.intSample) [1, 0] ⟨[], .fin 0, .fin 0, 0, 0⟩ = .ok (true, s) ∧
    ∀ p ∈ ([⟨[2, 1], 1⟩, ⟨[-1, -1], -1⟩] : List (Sample ℤ)),
      Fp.primalEvaluate s.w (Spec.intSample p).x s.bias = p.y := by
  refine C220_integer_partial id 1 9 2 2 100 100 _ _ _ [3 / 5, 4 / 5] 0 1 3 (by norm_num) (by norm_num) (by simp) (by simp)
    (by simp) ?_ ?_ (by norm_num) (by norm_num) (by decide) (fun _ => rfl) (by norm_num) (by norm_num)
  · simp [Spec.Margin, Spec.realSample, Spec.ip, Spec.affine, Finset.sum_range_succ]; norm_num
  · simp [Spec.realSample, Spec.ip, Finset.sum_range_succ]; norm_num

/-- **C220 refuted** in general: the samples 2^60 (label 1) and 1 (label -1) are separated by `x - 2`, but in `double`
arithmetic the perceptron never finds a separating solution, however many passes and updates it may make and however much
time it has: with a weight of 2^60, taking away 1 changes nothing. -/
theorem C220_converges_refuted :
    (∀ p ∈ ([⟨[2 ^ 60], 1⟩, ⟨[1], -1⟩] : List (Sample ℚ)), 0 < p.y * Spec.affine 1 [1] (-2) p.x) ∧
    ∀ (sqrt : Dbl → Dbl) (maxIt maxUp : Nat) (clock : Nat → Bool), clock 0 = true →
      ∃ s, Fp.primalTrain sqrt ⟨.fin 1, maxIt, maxUp⟩ clock 1 farD [0, 1] ⟨[], .fin 0, .fin 0, 0, 0⟩ = .ok (false, s) := by
  refine ⟨?_, ?_⟩
  · intro p hp
    simp only [List.mem_cons, List.not_mem_nil, or_false] at hp
    rcases hp with rfl | rfl <;> norm_num [Spec.affine, Spec.ip]
  · intro sqrt maxIt maxUp clock hc
    obtain ⟨s1, hP, hs1⟩ := Perc.epochs_last (Fp.primalPass sqrt 1 (.fin 1) farD [0, 1])
      (fun s => s.steps > maxIt ∨ s.ctot > maxUp) clock (fun t => Stuck t ∨ (t.w = [.fin 0] ∧ t.bias = .fin 0))
      (fun t ht _ => by
        rcases ht with ht | ⟨h1, h2⟩
        · exact Or.inl (stuck_pass sqrt t ht).1
        · exact Or.inl (start_pass sqrt t h1 h2).1)
      (maxIt + 1 - 0) 0 ⟨[.fin 0], .fin 0, .fin 0, 0, 0⟩ 0 (Or.inr ⟨rfl, rfl⟩) hc
    have hne : (Fp.primalPass sqrt 1 (.fin 1) farD [0, 1] s1).2 ≠ 0 := by
      rcases hP with ht | ⟨h1, h2⟩
      · exact (stuck_pass sqrt s1 ht).2
      · exact (start_pass sqrt s1 h1 h2).2
    refine ⟨(Fp.primalPass sqrt 1 (.fin 1) farD [0, 1] s1).1, ?_⟩
    unfold Fp.primalTrain
    simp only [if_true, List.replicate_one]
    rw [hs1, show Fp.inRange 1 farD [0, 1] [.fin 0] = true by decide +kernel]
    simp [hne]

end MLTK.Props
