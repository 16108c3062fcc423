import Verif.Model.DoubleDual
import Verif.Props.DoublePerc
/-!
# C227-C228: the dual perceptron in `double` arithmetic
-/
namespace MLTK.Props
open MLTK.Fp
open MLTK.Perc (Sample PState DState Cfg epochs SameModel)

attribute [local irreducible] Fp.rnd Fp.near Fp.huge Fp.two

/-! ## C227 -/

theorem dmul_comm (a b : Dbl) : a.mul b = b.mul a := by
  cases a with
  | fin p => cases b with
    | fin q => simp only [Dbl.mul, mul_comm]
    | inf s => simp [Dbl.mul]
    | nan => rfl
  | inf s => cases b with
    | fin q => simp [Dbl.mul]
    | inf t => simp [Dbl.mul, Bool.xor_comm]
    | nan => rfl
  | nan => cases b <;> rfl

theorem dneg_sub (a b : Dbl) : b.sub a = (a.sub b).neg := by
  cases a with
  | fin p => cases b with
    | fin q =>
      simp only [Dbl.sub, Dbl.neg, Dbl.add]
      rw [show q + -p = -(p + -q) by ring, rnd_neg]
      rfl
    | inf s => simp [Dbl.sub, Dbl.neg, Dbl.add]
    | nan => rfl
  | inf s => cases b with
    | fin q => simp [Dbl.sub, Dbl.neg, Dbl.add]
    | inf t => cases s <;> cases t <;> rfl
    | nan => rfl
  | nan => cases b <;> rfl

theorem dneg_square (a : Dbl) : a.neg.mul a.neg = a.mul a := by
  cases a with
  | fin q => simp only [Dbl.neg, Dbl.mul, neg_mul_neg]
  | inf s => cases s <;> rfl
  | nan => rfl

/-- **C227 (symmetry)** In `double` arithmetic the inner product, polynomial and Gaussian kernels of two points are the same in
both orders, whatever the values, the parameter, `pow` and `exp`. -/
theorem C227_kernel_symmetric (pow : Dbl → Dbl → Dbl) (exp : Dbl → Dbl) (type : Fp.KType) (param : Dbl) (dim : Nat)
    (a b : List Dbl) : Fp.kernel pow exp type param dim a b = Fp.kernel pow exp type param dim b a := by
  have h1 : Fp.dot dim a b = Fp.dot dim b a := by
    unfold Fp.dot
    simp only [dmul_comm]
  have h2 : Fp.sqDist dim a b = Fp.sqDist dim b a := by
    unfold Fp.sqDist
    congr 1
    funext s i
    simp only [dneg_sub (a.getD i (.fin 0)) (b.getD i (.fin 0)), dneg_square]
  unfold Fp.kernel
  rw [h1, h2]

theorem dualscan_zero (sqrt : Dbl → Dbl) (rate : Dbl) (kv : Nat → Nat → Dbl) (samples : List (Sample Dbl)) (l : List Nat)
    (s s' : DState Dbl) (e : Nat) (h : Fp.dualScan sqrt rate kv samples l s e = (s', 0)) :
    e = 0 ∧ s' = s ∧ ∀ i ∈ l, ((samples.getD i ⟨[], .fin 0⟩).y.mul
      (Fp.dualDecision samples.length s.alpha samples (kv i) s.bias)).le (.fin 0) = false := by
  have hmono : ∀ (l : List Nat) (s : DState Dbl) (e : Nat), e ≤ (Fp.dualScan sqrt rate kv samples l s e).2 := by
    intro l
    induction l with
    | nil => intro s e; simp [Fp.dualScan]
    | cons i l ih =>
      intro s e
      simp only [Fp.dualScan]
      split
      · exact le_trans (Nat.le_succ e) (ih _ _)
      · split
        · exact le_refl _
        · exact ih _ _
  induction l generalizing s e with
  | nil => simp [Fp.dualScan] at h; exact ⟨h.2, h.1.symm, by simp⟩
  | cons i l ih =>
    simp only [Fp.dualScan] at h
    split at h
    · have := hmono l (Fp.dualUpdate sqrt rate kv (samples.getD i ⟨[], .fin 0⟩) i
        (Fp.dualDecision samples.length s.alpha samples (kv i) s.bias) s) (e + 1)
      rw [h] at this; simp at this
    · rename_i hle
      split at h
      · rename_i h2
        simp only [Prod.mk.injEq] at h
        omega
      · obtain ⟨a, b, c⟩ := ih _ _ h
        refine ⟨a, b, ?_⟩
        intro k hk
        rcases List.mem_cons.mp hk with rfl | hk
        · simpa using hle
        · exact c k hk

theorem dualscan_length (sqrt : Dbl → Dbl) (rate : Dbl) (kv : Nat → Nat → Dbl) (samples : List (Sample Dbl)) :
    ∀ (l : List Nat) (s : DState Dbl) (e : Nat),
      (Fp.dualScan sqrt rate kv samples l s e).1.alpha.length = s.alpha.length := by
  intro l
  induction l with
  | nil => intro s e; rfl
  | cons i l ih =>
    intro s e
    simp only [Fp.dualScan]
    split
    · rw [ih]; simp [Fp.dualUpdate]
    · split
      · rfl
      · exact ih _ _

/-- The value `evaluate` computes for the point `x`. -/
def dualValue (k : List Dbl → List Dbl → Dbl) (samples : List (Sample Dbl)) (s : DState Dbl) (x : List Dbl) : Dbl :=
  Fp.dualDecision samples.length s.alpha samples (fun r => k x (samples.getD r ⟨[], .fin 0⟩).x) s.bias

theorem dual_answers (sqrt : Dbl → Dbl) (cfg : Cfg Dbl) (clock : Nat → Bool) (k : List Dbl → List Dbl → Dbl)
    (hsym : ∀ a b, k a b = k b a) (dim : Nat)
    (samples : List (Sample Dbl)) (s0 s : DState Dbl) (hx : ∀ p ∈ samples, p.x.length = dim) (hc : clock 0 = true)
    (h : Fp.dualTrain sqrt cfg clock k dim samples s0 = .ok (true, s)) :
    ∀ p ∈ samples, dualValue k samples s p.x ≠ .nan →
      (p.y = .fin 1 → Fp.dualEvaluate k dim s.alpha samples s.bias p.x = .ok 1) ∧
      (p.y = .fin (-1) → Fp.dualEvaluate k dim s.alpha samples s.bias p.x = .ok (-1)) := by
  unfold Fp.dualTrain at h
  generalize (if s0.alpha = [] then List.replicate samples.length (.fin 0) else s0.alpha) = al at h
  dsimp only at h
  split at h
  · simp at h
  · rename_i hok
    have hal : samples.length ≤ al.length := by
      by_contra hh; exact hok (Or.inl (not_le.mp hh))
    obtain ⟨s1, hP, hs1⟩ := Perc.epochs_last (Fp.dualPass sqrt cfg.rate (Fp.matrix k samples) samples)
      (fun s => s.steps > cfg.maxIt ∨ s.ctot > cfg.maxUp) clock (fun t => samples.length ≤ t.alpha.length)
      (fun t ht _ => by
        simp only [Fp.dualPass]
        rw [dualscan_length]; exact ht)
      (cfg.maxIt + 1 - s0.steps) 0 { s0 with alpha := al } 1 hal hc
    rw [hs1] at h
    simp only [Except.ok.injEq, Prod.mk.injEq, decide_eq_true_eq] at h
    obtain ⟨h0, h1⟩ := h
    simp only [Fp.dualPass] at h0 h1
    obtain ⟨_, e2, hall⟩ := dualscan_zero sqrt cfg.rate (Fp.matrix k samples) samples (List.range samples.length) s1
      (Fp.dualScan sqrt cfg.rate (Fp.matrix k samples) samples (List.range samples.length) s1 0).1 0 (Prod.ext rfl h0)
    rw [e2] at h1
    have hsa : s.alpha = s1.alpha := by rw [← h1]
    have hsb : s.bias = s1.bias := by rw [← h1]
    intro p hp hnan
    obtain ⟨i, hi, rfl⟩ := List.getElem_of_mem hp
    have hle := hall i (by simpa using hi)
    have hmat : Fp.matrix k samples i = fun r => k samples[i].x (samples.getD r ⟨[], .fin 0⟩).x := by
      funext r
      unfold Fp.matrix
      rw [Perc.getD_lt _ _ _ hi]
      split
      · rfl
      · exact hsym _ _
    rw [Perc.getD_lt _ _ _ hi, hmat] at hle
    unfold dualValue at hnan
    rw [hsa, hsb] at hnan ⊢
    have hsg := sign_of_not_le hnan
    unfold Fp.dualEvaluate
    rw [if_neg (by rw [hx _ hp]; simp), if_neg (by omega)]
    refine ⟨fun hy1 => ?_, fun hy1 => ?_⟩
    · rw [hy1] at hle
      rw [if_pos (hsg.1 hle)]
    · rw [hy1] at hle
      rw [if_neg (by rw [hsg.2 hle]; simp)]

/-- **C227** (partial: see the refutation for NaN) In `double` arithmetic, when `PerceptronDual::train` with one of the library's kernels
reports success, `evaluate` answers every training sample labelled 1 or -1 by its label, unless the value it computes for the
sample is NaN.  Every sample has `dim` features and the timer let a pass run; the starting state is any. -/
theorem C227_answers_partial (sqrt exp : Dbl → Dbl) (pow : Dbl → Dbl → Dbl) (type : Fp.KType) (param : Dbl) (cfg : Cfg Dbl)
    (clock : Nat → Bool) (dim : Nat) (samples : List (Sample Dbl)) (s0 s : DState Dbl)
    (hx : ∀ p ∈ samples, p.x.length = dim) (hc : clock 0 = true)
    (h : Fp.dualTrain sqrt cfg clock (Fp.kernel pow exp type param dim) dim samples s0 = .ok (true, s)) :
    ∀ p ∈ samples, dualValue (Fp.kernel pow exp type param dim) samples s p.x ≠ .nan →
      (p.y = .fin 1 → Fp.dualEvaluate (Fp.kernel pow exp type param dim) dim s.alpha samples s.bias p.x = .ok 1) ∧
      (p.y = .fin (-1) → Fp.dualEvaluate (Fp.kernel pow exp type param dim) dim s.alpha samples s.bias p.x = .ok (-1)) :=
  dual_answers sqrt cfg clock _ (C227_kernel_symmetric pow exp type param dim) dim samples s0 s hx hc h

example : (Fp.dualTrain id ⟨.fin (1 / 2), 100, 100⟩ (fun _ => true) (Fp.kernel (fun a _ => a) id .innerProduct (.fin 0) 2) 2 planeD
    ⟨[], .fin 0, .fin 0, 0, 0⟩).toOption.map (fun r => (r.1, decide (1 < r.2.steps),
      planeD.map (fun p => (Fp.dualEvaluate (Fp.kernel (fun a _ => a) id .innerProduct (.fin 0) 2) 2 r.2.alpha planeD r.2.bias
        p.x).toOption))) = some (true, true, [some 1, some (-1), some (-1)]) := by decide +kernel

/-- **C227 refuted** in general: with features as large as 2^1000 the values computed are NaN.  That counts as no mistake, so
success is reported; samples labelled 1 are answered -1, although the sign of the first feature separates them. -/
theorem C227_nan_refuted : (Fp.dualTrain id ⟨.fin 1, 100, 100⟩ (fun _ => true)
    (Fp.kernel (fun a _ => a) id .innerProduct (.fin 0) 2) 2 bigSamples
    ⟨[], .fin 0, .fin 0, 0, 0⟩).toOption.map (fun r => (r.1, bigSamples.map (fun p => (p.y, (Fp.dualEvaluate
      (Fp.kernel (fun a _ => a) id .innerProduct (.fin 0) 2) 2 r.2.alpha bigSamples r.2.bias p.x).toOption)))) =
    some (true, [(.fin 1, some (-1)), (.fin 1, some (-1)), (.fin (-1), some (-1))]) := by decide +kernel

/-! ## C228 -/

/-- The inner product of integers. -/
def intDot (dim : ℕ) (a b : List ℤ) : ℤ := (List.range dim).foldl (fun s i => s + a.getD i 0 * b.getD i 0) 0

theorem intDot_succ (n : ℕ) (a b : List ℤ) : intDot (n + 1) a b = intDot n a b + a.getD n 0 * b.getD n 0 := by
  simp [intDot, List.range_succ]

theorem intDot_bound {X : ℕ} {a b : List ℤ} (ha : ∀ z ∈ a, |z| ≤ X) (hb : ∀ z ∈ b, |z| ≤ X) (n : ℕ) :
    |intDot n a b| ≤ n * X ^ 2 := by
  induction n with
  | zero => simp [intDot]
  | succ n ih =>
    rw [intDot_succ]
    have h1 : |a.getD n 0 * b.getD n 0| ≤ (X : ℤ) * X := by
      rw [abs_mul]
      exact mul_le_mul (abs_getD_le (by positivity) ha n) (abs_getD_le (by positivity) hb n) (abs_nonneg _) (by positivity)
    calc _ ≤ |intDot n a b| + |a.getD n 0 * b.getD n 0| := abs_add_le _ _
      _ ≤ n * X ^ 2 + (X : ℤ) * X := add_le_add ih h1
      _ = _ := by push_cast; ring

theorem rnd_whole {m : ℤ} (hm : |m| ≤ 2 ^ 53) : rnd (m : ℚ) = .fin (m : ℚ) := by
  have := rnd_scaled (k := 0) (by norm_num) hm
  simpa using this

theorem dot_int {X dim : ℕ} {a b : List ℤ} (ha : ∀ z ∈ a, |z| ≤ X) (hb : ∀ z ∈ b, |z| ≤ X) (hc : dim * X ^ 2 ≤ 2 ^ 53) :
    Fp.dot dim (a.map (fun z : ℤ => .fin (z : ℚ))) (b.map (fun z : ℤ => .fin (z : ℚ))) = .fin (intDot dim a b : ℚ) := by
  induction dim with
  | zero => simp [Fp.dot, intDot]
  | succ n ih =>
    have hc' : n * X ^ 2 ≤ 2 ^ 53 := le_trans (Nat.mul_le_mul_right _ (Nat.le_succ n)) hc
    have ih := ih hc'
    unfold Fp.dot at ih ⊢
    rw [List.range_succ, List.foldl_append, ih]
    simp only [List.foldl_cons, List.foldl_nil]
    rw [getD_map_fin a (fun z => (z : ℚ)) (by simp), getD_map_fin b (fun z => (z : ℚ)) (by simp)]
    have hp : |a.getD n 0 * b.getD n 0| ≤ 2 ^ 53 := by
      rw [abs_mul]
      have := mul_le_mul (abs_getD_le (b := X) (by positivity) ha n) (abs_getD_le (b := X) (by positivity) hb n)
        (abs_nonneg _) (by positivity)
      refine le_trans this ?_
      have h2 : X * X ≤ 2 ^ 53 := le_trans (by nlinarith [Nat.zero_le (n * X ^ 2)]) hc
      exact_mod_cast h2
    have hv : |intDot (n + 1) a b| ≤ 2 ^ 53 := by
      refine le_trans (intDot_bound ha hb (n + 1)) ?_
      exact_mod_cast hc
    have m1 : (Dbl.fin (a.getD n 0 : ℚ)).mul (.fin (b.getD n 0 : ℚ)) = .fin ((a.getD n 0 * b.getD n 0 : ℤ) : ℚ) := by
      rw [← rnd_whole hp]
      simp only [Dbl.mul]
      congr 1; push_cast; ring
    rw [m1, ← rnd_whole hv, intDot_succ]
    simp only [Dbl.add]
    congr 1; push_cast; ring

theorem dot_real (dim : ℕ) (a b : List ℤ) :
    Spec.ip dim (a.map (fun z : ℤ => (z : ℝ))) (b.map (fun z : ℤ => (z : ℝ))) = (intDot dim a b : ℝ) := by
  induction dim with
  | zero => simp [Spec.ip, intDot]
  | succ n ih =>
    rw [intDot_succ]
    unfold Spec.ip at ih ⊢
    rw [Finset.sum_range_succ, ih, getD_map_real a (fun z => (z : ℝ)) (by simp), getD_map_real b (fun z => (z : ℝ)) (by simp)]
    push_cast; ring

/-- The value both dual trainers compute. -/
def intDual (n : ℕ) (A : List ℕ) (ys : ℕ → ℤ) (ks : ℕ → ℤ) (B : ℤ) : ℤ :=
  (List.range n).foldl (fun f r => f + (A.getD r 0 : ℤ) * ys r * ks r) B

theorem intDual_succ (n : ℕ) (A : List ℕ) (ys ks : ℕ → ℤ) (B : ℤ) :
    intDual (n + 1) A ys ks B = intDual n A ys ks B + (A.getD n 0 : ℤ) * ys n * ks n := by
  simp [intDual, List.range_succ]

theorem sum_take_succ (A : List ℕ) (n : ℕ) : (A.take (n + 1)).sum = (A.take n).sum + A.getD n 0 := by
  rw [List.take_add_one, List.sum_append, List.getD_eq_getElem?_getD]
  cases A[n]? <;> simp

theorem sum_take_le (A : List ℕ) (n : ℕ) : (A.take n).sum ≤ A.sum := by
  conv_rhs => rw [← List.take_append_drop n A]
  rw [List.sum_append]; omega

theorem intDual_bound {M : ℕ} {A : List ℕ} {ys ks : ℕ → ℤ} {B : ℤ} {n : ℕ} (hy : ∀ r < n, |ys r| = 1) (hk : ∀ r < n, |ks r| ≤ M) :
    |intDual n A ys ks B| ≤ |B| + (A.take n).sum * M := by
  induction n with
  | zero => simp [intDual]
  | succ n ih =>
    have ih := ih (fun r hr => hy r (by omega)) (fun r hr => hk r (by omega))
    rw [intDual_succ, sum_take_succ]
    have h1 : |(A.getD n 0 : ℤ) * ys n * ks n| ≤ (A.getD n 0 : ℤ) * M := by
      rw [abs_mul, abs_mul, hy n (by omega), mul_one, abs_of_nonneg (by positivity : (0 : ℤ) ≤ (A.getD n 0 : ℤ))]
      exact mul_le_mul_of_nonneg_left (hk n (by omega)) (by positivity)
    calc _ ≤ |intDual n A ys ks B| + |(A.getD n 0 : ℤ) * ys n * ks n| := abs_add_le _ _
      _ ≤ (|B| + (A.take n).sum * M) + (A.getD n 0 : ℤ) * M := add_le_add ih h1
      _ = _ := by push_cast; ring

theorem getD_map_nat (A : List ℕ) (k j : ℕ) :
    (A.map (fun a : ℕ => Dbl.fin ((a : ℚ) * (1 / 2) ^ k))).getD j (.fin 0) = .fin ((A.getD j 0 : ℚ) * (1 / 2) ^ k) := by
  rw [List.getD_eq_getElem?_getD, List.getD_eq_getElem?_getD, List.getElem?_map]
  cases A[j]? <;> simp

theorem getD_map_natR (A : List ℕ) (k j : ℕ) :
    (A.map (fun a : ℕ => (a : ℝ) * (1 / 2) ^ k)).getD j 0 = (A.getD j 0 : ℝ) * (1 / 2) ^ k := by
  rw [List.getD_eq_getElem?_getD, List.getD_eq_getElem?_getD, List.getElem?_map]
  cases A[j]? <;> simp

theorem dual_int {c k M : ℕ} (hk : k ≤ 1074) {A : List ℕ} {B : ℤ} {samples : List (Sample ℤ)} {ks : ℕ → ℤ}
    (hl : ∀ p ∈ samples, p.y = 1 ∨ p.y = -1) (hA : A.sum = c) (hB : |B| ≤ c) (hM : ∀ r < samples.length, |ks r| ≤ M)
    (hc : c * (1 + M) ≤ 2 ^ 53) {n : ℕ} (hn : n ≤ samples.length) :
    Fp.dualDecision n (A.map (fun a : ℕ => .fin ((a : ℚ) * (1 / 2) ^ k))) (samples.map Spec.intSample)
      (fun r => .fin (ks r : ℚ)) (.fin ((B : ℚ) * (1 / 2) ^ k)) =
      .fin ((intDual n A (fun r => (samples.getD r ⟨[], 0⟩).y) ks B : ℚ) * (1 / 2) ^ k) := by
  have hy : ∀ r < samples.length, |(samples.getD r ⟨[], 0⟩).y| = 1 := by
    intro r hr
    rw [Perc.getD_lt _ _ _ hr]
    rcases hl _ (List.getElem_mem hr) with e | e <;> rw [e] <;> simp
  induction n with
  | zero => simp [Fp.dualDecision, intDual]
  | succ n ih =>
    have ih := ih (by omega)
    have hnl : n < samples.length := by omega
    have hAn : A.getD n 0 ≤ c := by
      have := sum_take_succ A n
      have := sum_take_le A (n + 1)
      omega
    unfold Fp.dualDecision at ih ⊢
    rw [List.range_succ, List.foldl_append, ih]
    simp only [List.foldl_cons, List.foldl_nil]
    have hc1 : c ≤ 2 ^ 53 := le_trans (by nlinarith [Nat.zero_le (c * M)]) hc
    have g1 : ((samples.map Spec.intSample).getD n ⟨[], .fin 0⟩).y = .fin ((samples.getD n ⟨[], 0⟩).y : ℚ) := by
      rw [Perc.getD_lt _ _ _ (by simpa using hnl), Perc.getD_lt _ _ _ hnl]; simp [Spec.intSample]
    rw [getD_map_nat, g1]
    have b1 : |(A.getD n 0 : ℤ) * (samples.getD n ⟨[], 0⟩).y| ≤ c := by
      rw [abs_mul, hy n hnl, mul_one, abs_of_nonneg (by positivity)]
      exact_mod_cast hAn
    have b2 : |(A.getD n 0 : ℤ) * (samples.getD n ⟨[], 0⟩).y * ks n| ≤ c * M := by
      rw [abs_mul]
      exact mul_le_mul b1 (hM n hnl) (abs_nonneg _) (by positivity)
    have b3 : |intDual (n + 1) A (fun r => (samples.getD r ⟨[], 0⟩).y) ks B| ≤ 2 ^ 53 := by
      refine le_trans (intDual_bound (M := M) (fun r hr => hy r (by omega)) (fun r hr => hM r (by omega))) ?_
      have h1 := sum_take_le A (n + 1)
      have h2 : ((A.take (n + 1)).sum : ℤ) * M ≤ c * M := by
        refine mul_le_mul_of_nonneg_right ?_ (by positivity)
        exact_mod_cast h1.trans_eq hA
      have h3 : ((c * (1 + M) : ℕ) : ℤ) ≤ 2 ^ 53 := by exact_mod_cast hc
      push_cast at h3 h2 ⊢
      linarith
    have m1 : (Dbl.fin ((A.getD n 0 : ℚ) * (1 / 2) ^ k)).mul (.fin ((samples.getD n ⟨[], 0⟩).y : ℚ)) =
        .fin (((((A.getD n 0 : ℤ) * (samples.getD n ⟨[], 0⟩).y : ℤ)) : ℚ) * (1 / 2) ^ k) := by
      rw [← rnd_scaled hk (b1.trans (by exact_mod_cast hc1))]
      simp only [Dbl.mul]
      congr 1; push_cast; ring
    have m2 : (Dbl.fin (((((A.getD n 0 : ℤ) * (samples.getD n ⟨[], 0⟩).y : ℤ)) : ℚ) * (1 / 2) ^ k)).mul (.fin (ks n : ℚ)) =
        .fin (((((A.getD n 0 : ℤ) * (samples.getD n ⟨[], 0⟩).y * ks n : ℤ)) : ℚ) * (1 / 2) ^ k) := by
      rw [← rnd_scaled hk (b2.trans (by
        have : c * M ≤ 2 ^ 53 := le_trans (by nlinarith) hc
        exact_mod_cast this))]
      simp only [Dbl.mul]
      congr 1; push_cast; ring
    rw [m1, m2, ← rnd_scaled hk b3, intDual_succ]
    simp only [Dbl.add]
    congr 1; push_cast; ring

theorem dual_real {k : ℕ} {A : List ℕ} {B : ℤ} {samples : List (Sample ℤ)} {ks : ℕ → ℤ} {n : ℕ} (hn : n ≤ samples.length) :
    Perc.dualDecision n (A.map (fun a : ℕ => (a : ℝ) * (1 / 2) ^ k)) (samples.map Spec.realSample)
      (fun r => (ks r : ℝ)) ((B : ℝ) * (1 / 2) ^ k) =
      (intDual n A (fun r => (samples.getD r ⟨[], 0⟩).y) ks B : ℝ) * (1 / 2) ^ k := by
  induction n with
  | zero => simp [Perc.dualDecision, intDual]
  | succ n ih =>
    have ih := ih (by omega)
    have hnl : n < samples.length := by omega
    unfold Perc.dualDecision at ih ⊢
    rw [List.range_succ, List.foldl_append, ih]
    simp only [List.foldl_cons, List.foldl_nil]
    have g1 : ((samples.map Spec.realSample).getD n default).y = ((samples.getD n ⟨[], 0⟩).y : ℝ) := by
      rw [Perc.getD_lt _ _ _ (by simpa using hnl), Perc.getD_lt _ _ _ hnl]; simp [Spec.realSample]
    rw [getD_map_natR, g1, intDual_succ]
    push_cast; ring

/-- The two dual trainers hold the same counts, scaled by the rate, and the primal trainer the same solution. -/
structure DSim (samples : List (Sample ℤ)) (dim k : ℕ) (gamma R : ℝ) (u : List ℝ) (ub : ℝ) (A : List ℕ) (B : ℤ)
    (s : DState Dbl) (t : DState ℝ) (p : PState ℝ) : Prop where
  len : A.length = samples.length
  sa : s.alpha = A.map (fun a : ℕ => .fin ((a : ℚ) * (1 / 2) ^ k))
  ta : t.alpha = A.map (fun a : ℕ => (a : ℝ) * (1 / 2) ^ k)
  sb : s.bias = .fin ((B : ℚ) * (1 / 2) ^ k)
  tb : t.bias = (B : ℝ) * (1 / 2) ^ k
  ctot : s.ctot = t.ctot
  steps : s.steps = t.steps
  sum : A.sum = t.ctot
  bB : |B| ≤ t.ctot
  same : SameModel dim (samples.map Spec.realSample) p t
  nov : Perc.NovInv dim ((1 / 2) ^ k) gamma (R ^ 2) u ub 0 p

section
variable {samples : List (Sample ℤ)} {dim X k N : ℕ} {gamma R : ℝ} {u : List ℝ} {ub : ℝ}

theorem DSim.count {A : List ℕ} {B : ℤ} {s : DState Dbl} {t : DState ℝ} {p : PState ℝ}
    (h : DSim samples dim k gamma R u ub A B s t p)
    (hg : 0 < gamma) (hu : Spec.ip dim u u + ub ^ 2 = 1) (hN : (R / gamma) ^ 2 ≤ N) : t.ctot ≤ N := by
  have hb := h.nov.bound (by positivity) hg hu (sq_nonneg R)
  rw [Nat.cast_zero, sub_zero, ← le_div_iff₀ (by positivity), ← div_pow, h.same.ctot] at hb
  exact_mod_cast hb.trans hN

/-- The kernel matrix of the integer samples. -/
def intGram (dim : ℕ) (samples : List (Sample ℤ)) (i r : ℕ) : ℤ :=
  intDot dim (samples.getD i ⟨[], 0⟩).x (samples.getD r ⟨[], 0⟩).x

theorem gram_bound (hx : ∀ p ∈ samples, ∀ a ∈ p.x, |a| ≤ X) {i r : ℕ} (hi : i < samples.length) (hr : r < samples.length) :
    |intGram dim samples i r| ≤ ((dim * X ^ 2 : ℕ) : ℤ) := by
  unfold intGram
  rw [Perc.getD_lt _ _ _ hi, Perc.getD_lt _ _ _ hr]
  have := intDot_bound (hx _ (List.getElem_mem hi)) (hx _ (List.getElem_mem hr)) dim
  push_cast; exact this

theorem gram_double (hx : ∀ p ∈ samples, ∀ a ∈ p.x, |a| ≤ X) (hc : dim * X ^ 2 ≤ 2 ^ 53) {i r : ℕ} (hi : i < samples.length)
    (hr : r < samples.length) :
    Fp.matrix (Fp.dot dim) (samples.map Spec.intSample) i r = .fin (intGram dim samples i r : ℚ) := by
  have g : ∀ j (hj : j < samples.length), ((samples.map Spec.intSample).getD j ⟨[], .fin 0⟩).x =
      samples[j].x.map (fun z : ℤ => .fin (z : ℚ)) := by
    intro j hj
    rw [Perc.getD_lt _ _ _ (by simpa using hj)]; simp [Spec.intSample]
  have hcomm : intGram dim samples r i = intGram dim samples i r := by
    unfold intGram intDot
    simp only [mul_comm]
  unfold Fp.matrix
  rw [g i hi, g r hr]
  split
  · rw [dot_int (hx _ (List.getElem_mem hi)) (hx _ (List.getElem_mem hr)) hc]
    unfold intGram
    rw [Perc.getD_lt _ _ _ hi, Perc.getD_lt _ _ _ hr]
  · rw [dot_int (hx _ (List.getElem_mem hr)) (hx _ (List.getElem_mem hi)) hc, ← hcomm]
    unfold intGram
    rw [Perc.getD_lt _ _ _ hi, Perc.getD_lt _ _ _ hr]

theorem gram_real {i r : ℕ} (hi : i < samples.length) (hr : r < samples.length) :
    Perc.linKernel dim (samples.map Spec.realSample) i r = (intGram dim samples i r : ℝ) := by
  have g : ∀ j (hj : j < samples.length), ((samples.map Spec.realSample).getD j default).x =
      samples[j].x.map (fun z : ℤ => (z : ℝ)) := by
    intro j hj
    rw [Perc.getD_lt _ _ _ (by simpa using hj)]; simp [Spec.realSample]
  unfold Perc.linKernel intGram
  rw [g i hi, g r hr, dot_real, Perc.getD_lt _ _ _ hi, Perc.getD_lt _ _ _ hr]

theorem foldl_range_congr {α : Type} {f g : α → ℕ → α} {n : ℕ} {a : α} (h : ∀ s r, r < n → f s r = g s r) :
    (List.range n).foldl f a = (List.range n).foldl g a := by
  induction n with
  | zero => rfl
  | succ n ih =>
    rw [List.range_succ, List.foldl_append, List.foldl_append, ih (fun s r hr => h s r (by omega))]
    simp only [List.foldl_cons, List.foldl_nil]
    exact h _ _ (by omega)

/-- The values both dual trainers compute for sample `i`. -/
theorem DSim.value {A : List ℕ} {B : ℤ} {s : DState Dbl} {t : DState ℝ} {p : PState ℝ}
    (h : DSim samples dim k gamma R u ub A B s t p) (hk : k ≤ 1074) (hl : ∀ p ∈ samples, p.y = 1 ∨ p.y = -1)
    (hx : ∀ p ∈ samples, ∀ a ∈ p.x, |a| ≤ X) (hc : t.ctot * (1 + dim * X ^ 2) ≤ 2 ^ 53) (hd : dim * X ^ 2 ≤ 2 ^ 53)
    {i : ℕ} (hi : i < samples.length) : ∃ v : ℤ, |v| ≤ 2 ^ 53 ∧
    Fp.dualDecision samples.length s.alpha (samples.map Spec.intSample)
      (Fp.matrix (Fp.dot dim) (samples.map Spec.intSample) i) s.bias = .fin ((v : ℚ) * (1 / 2) ^ k) ∧
    Perc.dualDecision samples.length t.alpha (samples.map Spec.realSample)
      (Perc.linKernel dim (samples.map Spec.realSample) i) t.bias = (v : ℝ) * (1 / 2) ^ k := by
  refine ⟨intDual samples.length A (fun r => (samples.getD r ⟨[], 0⟩).y) (intGram dim samples i) B, ?_, ?_, ?_⟩
  · refine le_trans (intDual_bound (M := dim * X ^ 2) ?_ (fun r hr => gram_bound hx hi hr)) ?_
    · intro r hr
      rw [Perc.getD_lt _ _ _ hr]
      rcases hl _ (List.getElem_mem hr) with e | e <;> rw [e] <;> simp
    · have h1 := sum_take_le A samples.length
      rw [h.sum] at h1
      have h2 : ((A.take samples.length).sum : ℤ) * ((dim * X ^ 2 : ℕ) : ℤ) ≤ t.ctot * ((dim * X ^ 2 : ℕ) : ℤ) :=
        mul_le_mul_of_nonneg_right (by exact_mod_cast h1) (by positivity)
      have h3 : ((t.ctot * (1 + dim * X ^ 2) : ℕ) : ℤ) ≤ 2 ^ 53 := by exact_mod_cast hc
      have h4 := h.bB
      push_cast at h2 h3 ⊢
      linarith
  · rw [h.sa, h.sb, ← dual_int hk hl h.sum h.bB (fun r hr => gram_bound hx hi hr) hc (le_refl _)]
    unfold Fp.dualDecision
    apply foldl_range_congr
    intro f r hr
    rw [gram_double hx hd hi hr]
  · rw [h.ta, h.tb, ← dual_real (le_refl _)]
    unfold Perc.dualDecision
    apply foldl_range_congr
    intro f r hr
    rw [gram_real hi hr]

theorem mistake_iff {v y : ℤ} {k : ℕ} (hk : k ≤ 1074) (hv : |v| ≤ 2 ^ 53) (hy : y = 1 ∨ y = -1) :
    ((Dbl.fin (y : ℚ)).mul (.fin ((v : ℚ) * (1 / 2) ^ k))).le (.fin 0) = true ↔ (y : ℝ) * ((v : ℝ) * (1 / 2) ^ k) ≤ 0 := by
  have hpos : (0 : ℚ) < (1 / 2) ^ k := by positivity
  have hpos' : (0 : ℝ) < (1 / 2) ^ k := by positivity
  simp only [Dbl.mul]
  have hyv : |y * v| ≤ 2 ^ 53 := by
    rw [abs_mul]
    rcases hy with e | e <;> rw [e] <;> simpa using hv
  have e1 : (y : ℚ) * ((v : ℚ) * (1 / 2) ^ k) = ((y * v : ℤ) : ℚ) * (1 / 2) ^ k := by push_cast; ring
  have e2 : (y : ℝ) * ((v : ℝ) * (1 / 2) ^ k) = ((y * v : ℤ) : ℝ) * (1 / 2) ^ k := by push_cast; ring
  rw [e1, e2, rnd_scaled hk hyv]
  simp only [Dbl.le, decide_eq_true_eq]
  constructor
  · intro h1
    have : (((y * v : ℤ) : ℚ)) ≤ 0 := by
      by_contra hh
      have := mul_pos (not_le.mp hh) hpos
      linarith
    have h3 : y * v ≤ 0 := by exact_mod_cast this
    exact mul_nonpos_of_nonpos_of_nonneg (by exact_mod_cast h3) hpos'.le
  · intro h1
    have : (((y * v : ℤ) : ℝ)) ≤ 0 := by
      by_contra hh
      have := mul_pos (not_le.mp hh) hpos'
      linarith
    have h3 : y * v ≤ 0 := by exact_mod_cast this
    exact mul_nonpos_of_nonpos_of_nonneg (by exact_mod_cast h3) hpos.le

theorem sum_set_succ (A : List ℕ) {i : ℕ} (hi : i < A.length) : (A.set i (A.getD i 0 + 1)).sum = A.sum + 1 := by
  induction A generalizing i with
  | nil => simp at hi
  | cons a A ih =>
    cases i with
    | zero => simp; omega
    | succ i =>
      simp only [List.length_cons, Nat.add_lt_add_iff_right] at hi
      have := ih hi
      simp only [List.set_cons_succ, List.sum_cons, List.getD_cons_succ]
      omega

theorem DSim.update (sqrt : Dbl → Dbl) (kv : ℕ → ℕ → Dbl) (f : Dbl) {A : List ℕ} {B : ℤ} {s : DState Dbl} {t : DState ℝ}
    {p : PState ℝ} (h : DSim samples dim k gamma R u ub A B s t p) (hk : k ≤ 1074)
    (hl : ∀ p ∈ samples, p.y = 1 ∨ p.y = -1) {i : ℕ} (hi : i < samples.length) (hc : t.ctot + 1 ≤ 2 ^ 53)
    (hnov : Perc.NovInv dim ((1 / 2) ^ k) gamma (R ^ 2) u ub 0
      (Perc.primalUpdate Spec.realLibm dim ((1 / 2) ^ k) (Spec.realSample samples[i]) p)) :
    DSim samples dim k gamma R u ub (A.set i (A.getD i 0 + 1)) (B + samples[i].y)
      (Fp.dualUpdate sqrt (.fin ((1 / 2) ^ k)) kv (Spec.intSample samples[i]) i f s)
      (Perc.dualUpdate Spec.realLibm ((1 / 2) ^ k) (Perc.linKernel dim (samples.map Spec.realSample))
        (Spec.realSample samples[i]) i (Perc.dualDecision samples.length t.alpha (samples.map Spec.realSample)
          (Perc.linKernel dim (samples.map Spec.realSample) i) t.bias) t)
      (Perc.primalUpdate Spec.realLibm dim ((1 / 2) ^ k) (Spec.realSample samples[i]) p) := by
  have hy := hl _ (List.getElem_mem hi)
  have hyabs : |samples[i].y| = 1 := by rcases hy with e | e <;> rw [e] <;> simp
  have hiA : i < A.length := by rw [h.len]; exact hi
  have hrate : (Dbl.fin ((1 / 2) ^ k)).mul (.fin (samples[i].y : ℚ)) = .fin ((samples[i].y : ℚ) * (1 / 2) ^ k) := by
    simp only [Dbl.mul]
    rw [mul_comm, rnd_scaled hk (by rw [hyabs]; norm_num)]
  have hbB : |B + samples[i].y| ≤ ((t.ctot + 1 : ℕ) : ℤ) := by
    refine le_trans (abs_add_le _ _) ?_
    rw [hyabs]; push_cast
    linarith [h.bB]
  have hAi : A.getD i 0 + 1 ≤ t.ctot + 1 := by
    have := sum_take_succ A i
    have := sum_take_le A (i + 1)
    have := h.sum
    omega
  have g2 : (samples.map Spec.realSample).getD i default = Spec.realSample samples[i] := by
    rw [Perc.getD_lt _ _ _ (by simpa using hi)]; simp
  have hsame := h.same.update ((1 / 2) ^ k) i (by simpa using hi) (by
    rw [g2]; rcases hy with e | e <;> simp [Spec.realSample, e])
  rw [g2, List.length_map] at hsame
  refine ⟨by simp [h.len], ?_, ?_, ?_, ?_, ?_, ?_, ?_, ?_, hsame, hnov⟩
  · simp only [Fp.dualUpdate]
    rw [h.sa, getD_map_nat, List.map_set]
    congr 1
    have hb : |((A.getD i 0 + 1 : ℕ) : ℤ)| ≤ 2 ^ 53 := by
      rw [abs_of_nonneg (by positivity)]
      exact_mod_cast hAi.trans hc
    have := rnd_scaled hk hb
    rw [Int.cast_natCast] at this
    simp only [Dbl.add]
    rw [← this]
    congr 1; push_cast; ring
  · simp only [Perc.dualUpdate]
    rw [h.ta, getD_map_natR, List.map_set]
    congr 1
    push_cast; ring
  · simp only [Fp.dualUpdate, Spec.intSample]
    rw [h.sb, hrate]
    refine Eq.trans ?_ (rnd_scaled hk (hbB.trans (by exact_mod_cast hc)))
    simp only [Dbl.add]
    congr 1; push_cast; ring
  · simp only [Perc.dualUpdate, Spec.realSample]
    rw [h.tb]
    push_cast; ring
  · simp only [Fp.dualUpdate, Perc.dualUpdate, h.ctot]
  · simp only [Fp.dualUpdate, Perc.dualUpdate, h.steps]
  · simp only [Perc.dualUpdate]
    rw [sum_set_succ A hiA, h.sum]
  · simpa [Perc.dualUpdate] using hbB

theorem dsim_scan (sqrt : Dbl → Dbl) (hk : k ≤ 1074) (hg : 0 < gamma)
    (hl : ∀ p ∈ samples, p.y = 1 ∨ p.y = -1) (hx : ∀ p ∈ samples, ∀ a ∈ p.x, |a| ≤ X)
    (hm : Spec.Margin dim (samples.map Spec.realSample) u ub gamma)
    (hR : ∀ p ∈ samples, Spec.ip dim (Spec.realSample p).x (Spec.realSample p).x + 1 ≤ R ^ 2)
    (hN : (R / gamma) ^ 2 ≤ N) (hc : N * (1 + dim * X ^ 2) ≤ 2 ^ 53) (hd : dim * X ^ 2 ≤ 2 ^ 53) :
    ∀ (l : List ℕ), (∀ i ∈ l, i < samples.length) → ∀ (A : List ℕ) (B : ℤ) (s : DState Dbl) (t : DState ℝ) (p : PState ℝ)
      (e : ℕ), DSim samples dim k gamma R u ub A B s t p →
      (∃ A' B' p', DSim samples dim k gamma R u ub A' B'
        (Fp.dualScan sqrt (.fin ((1 / 2) ^ k)) (Fp.matrix (Fp.dot dim) (samples.map Spec.intSample))
          (samples.map Spec.intSample) l s e).1
        (Perc.dualScan Spec.realLibm ((1 / 2) ^ k) (Perc.linKernel dim (samples.map Spec.realSample))
          (samples.map Spec.realSample) l t e).1 p') ∧
      (Fp.dualScan sqrt (.fin ((1 / 2) ^ k)) (Fp.matrix (Fp.dot dim) (samples.map Spec.intSample))
          (samples.map Spec.intSample) l s e).2 =
        (Perc.dualScan Spec.realLibm ((1 / 2) ^ k) (Perc.linKernel dim (samples.map Spec.realSample))
          (samples.map Spec.realSample) l t e).2 := by
  intro l
  induction l with
  | nil => intro _ A B s t p e h; exact ⟨⟨A, B, p, h⟩, rfl⟩
  | cons i l ih =>
    intro hi A B s t p e h
    have ih := ih (fun j hj => hi j (List.mem_cons_of_mem _ hj))
    have hil : i < samples.length := hi i (by simp)
    have hmem : samples[i] ∈ samples := List.getElem_mem hil
    have hcnt := h.count hg hm.1 hN
    have hb : t.ctot * (1 + dim * X ^ 2) ≤ 2 ^ 53 := le_trans (Nat.mul_le_mul_right _ hcnt) hc
    have g1 : (samples.map Spec.intSample).getD i ⟨[], .fin 0⟩ = Spec.intSample samples[i] := by
      rw [Perc.getD_lt _ _ _ (by simpa using hil)]; simp
    have g2 : (samples.map Spec.realSample).getD i default = Spec.realSample samples[i] := by
      rw [Perc.getD_lt _ _ _ (by simpa using hil)]; simp
    obtain ⟨v, hv, v1, v2⟩ := h.value hk hl hx hb hd hil
    have hmis : ((Spec.intSample samples[i]).y.mul (.fin ((v : ℚ) * (1 / 2) ^ k))).le (.fin 0) = true ↔
        (Spec.realSample samples[i]).y * ((v : ℝ) * (1 / 2) ^ k) ≤ 0 := mistake_iff hk hv (hl _ hmem)
    simp only [Fp.dualScan, Perc.dualScan, List.length_map]
    rw [g1, g2, v2]
    rw [v1]
    by_cases hmk : (Spec.realSample samples[i]).y * ((v : ℝ) * (1 / 2) ^ k) ≤ 0
    · rw [if_pos hmk, if_pos (hmis.mpr hmk)]
      have hdec : Perc.decision dim p.w (Spec.realSample samples[i]).x p.bias = (v : ℝ) * (1 / 2) ^ k := by
        rw [← h.same.decision, ← v2, List.length_map]
        unfold Perc.linKernel
        rw [g2]
      have hnov : Perc.NovInv dim ((1 / 2) ^ k) gamma (R ^ 2) u ub 0
          (Perc.primalUpdate Spec.realLibm dim ((1 / 2) ^ k) (Spec.realSample samples[i]) p) :=
        h.nov.update _ (by positivity) _ (by
          rcases hl _ hmem with e | e <;> simp [Spec.realSample, e]) (hm.2 _ (List.mem_map_of_mem hmem)) (hR _ hmem)
          (by rw [hdec]; exact hmk)
      have hcnt' : t.ctot + 1 ≤ N := by
        have hb := hnov.bound (by positivity) hg hm.1 (sq_nonneg R)
        rw [Nat.cast_zero, sub_zero, ← le_div_iff₀ (by positivity), ← div_pow] at hb
        have hb := hb.trans hN
        simp only [Perc.primalUpdate, h.same.ctot] at hb
        exact_mod_cast hb
      have hu := h.update sqrt (Fp.matrix (Fp.dot dim) (samples.map Spec.intSample)) (.fin ((v : ℚ) * (1 / 2) ^ k)) hk hl hil
        (le_trans (le_trans hcnt' (by nlinarith [Nat.zero_le (N * (dim * X ^ 2))])) hc) hnov
      rw [v2] at hu
      exact ih _ _ _ _ _ _ hu
    · rw [if_neg hmk, if_neg (fun hh => hmk (hmis.mp hh)), h.steps]
      split
      · exact ⟨⟨A, B, p, h⟩, rfl⟩
      · exact ih _ _ _ _ _ _ h

end

/-- **C228** (partial: the inner product kernel, integer features and a rate that is a power of one half, as the default 1/2 is; see
the refutation)  When the features are integers of size at most `X`, labelled 1 or -1, separated by a unit hyperplane with
margin `gamma`, of augmented norm at most `R`, and `N`, at least `(R / gamma)²`, has `N * (1 + dim * X²) ≤ 2^53`, training
the dual perceptron in `double` arithmetic with limits of at least `N` passes and updates and enough time reports success and
answers every sample by its label. -/
theorem C228_integer_partial (sqrt exp : Dbl → Dbl) (pow : Dbl → Dbl → Dbl) (param : Dbl) (k N X dim maxIt maxUp : ℕ)
    (clock : ℕ → Bool) (samples : List (Sample ℤ)) (u : List ℝ) (ub gamma R : ℝ) (hk : k ≤ 1074) (hg : 0 < gamma)
    (hl : ∀ p ∈ samples, p.y = 1 ∨ p.y = -1) (hd : ∀ p ∈ samples, p.x.length = dim) (hx : ∀ p ∈ samples, ∀ a ∈ p.x, |a| ≤ X)
    (hm : Spec.Margin dim (samples.map Spec.realSample) u ub gamma)
    (hR : ∀ p ∈ samples, Spec.ip dim (Spec.realSample p).x (Spec.realSample p).x + 1 ≤ R ^ 2)
    (hN : (R / gamma) ^ 2 ≤ N) (hc : N * (1 + dim * X ^ 2) ≤ 2 ^ 53)
    (hclock : ∀ i, clock i = true) (hIt : N ≤ maxIt) (hUp : N ≤ maxUp) :
    ∃ s, Fp.dualTrain sqrt ⟨.fin ((1 / 2) ^ k), maxIt, maxUp⟩ clock (Fp.kernel pow exp .innerProduct param dim) dim
        (samples.map Spec.intSample) ⟨[], .fin 0, .fin 0, 0, 0⟩ = .ok (true, s) ∧
      ∀ p ∈ samples, Fp.dualEvaluate (Fp.kernel pow exp .innerProduct param dim) dim s.alpha (samples.map Spec.intSample) s.bias
        (Spec.intSample p).x = .ok p.y := by
  obtain ⟨X, hx, hc, hdx⟩ : ∃ X : ℕ, (∀ p ∈ samples, ∀ a ∈ p.x, |a| ≤ X) ∧ N * (1 + dim * X ^ 2) ≤ 2 ^ 53 ∧
      dim * X ^ 2 ≤ 2 ^ 53 := by
    rcases samples with _ | ⟨q, l⟩
    · exact ⟨0, by simp, by nlinarith [Nat.zero_le (N * (dim * X ^ 2))], by simp⟩
    · have h1 := hR q (by simp)
      have h2 : 0 ≤ Spec.ip dim (Spec.realSample q).x (Spec.realSample q).x :=
        Finset.sum_nonneg (fun i _ => mul_self_nonneg _)
      have h3 : 0 < (R / gamma) ^ 2 := by
        rw [div_pow]
        exact div_pos (by linarith) (by positivity)
      have h4 : 0 < N := by exact_mod_cast lt_of_lt_of_le h3 hN
      exact ⟨X, hx, hc, le_trans (by nlinarith [Nat.zero_le (dim * X ^ 2)]) hc⟩
  have hker : Fp.kernel pow exp .innerProduct param dim = Fp.dot dim := by
    funext a b; rfl
  rw [hker]
  have hpm : Spec.PlusMinus (samples.map Spec.realSample) := by
    intro p hp
    obtain ⟨q, hq, rfl⟩ := List.mem_map.mp hp
    rcases hl q hq with e | e <;> simp [Spec.realSample, e]
  have hxr : ∀ p ∈ samples.map Spec.realSample, dim ≤ p.x.length := by
    intro p hp
    obtain ⟨q, hq, rfl⟩ := List.mem_map.mp hp
    simp [Spec.realSample, hd q hq]
  have hRr : ∀ p ∈ samples.map Spec.realSample, Spec.ip dim p.x p.x + 1 ≤ R ^ 2 := by
    intro p hp
    obtain ⟨q, hq, rfl⟩ := List.mem_map.mp hp
    exact hR q hq
  obtain ⟨tp, htp, -⟩ := C36_converges Spec.realLibm ⟨(1 / 2) ^ k, maxIt, maxUp⟩ clock dim (samples.map Spec.realSample)
    (List.range (samples.map Spec.realSample).length) u ub gamma R (by positivity) hg hpm hm hRr hxr (List.Perm.refl _) hclock
    (hN.trans (by exact_mod_cast hIt)) (hN.trans (by exact_mod_cast hUp))
  obtain ⟨ok, tp', td, h1, h2, -⟩ := C37_train_agree ⟨(1 / 2) ^ k, maxIt, maxUp⟩ clock dim (samples.map Spec.realSample) hpm hxr
    (hclock 0) 0 0 0 0
  rw [htp] at h1
  obtain ⟨rfl, rfl⟩ := Prod.mk.inj (Except.ok.inj h1)
  have hstart : DSim samples dim k gamma R u ub (List.replicate samples.length 0) 0
      ⟨List.replicate samples.length (.fin 0), .fin 0, .fin 0, 0, 0⟩ ⟨List.replicate samples.length 0, 0, 0, 0, 0⟩
      ⟨List.replicate dim 0, 0, 0, 0, 0⟩ := by
    have hn := nov_start dim ((1 / 2) ^ k : ℝ) gamma R u ub ⟨[], 0, 0, 0, 0⟩ (by simp) (by simp)
    simp only [if_true] at hn
    have z : ∀ n j, (List.replicate n (0:ℝ)).getD j 0 = 0 := by
      intro n j
      simp only [List.getD_eq_getElem?_getD, List.getElem?_replicate]
      split <;> rfl
    refine ⟨by simp, by simp, by simp, by simp, by simp, rfl, rfl, by simp, by simp, ?_, hn⟩
    refine ⟨?_, by simp, by simp, rfl, rfl, ?_, rfl, rfl⟩
    · intro j hj
      rw [z]
      symm
      simp only [Spec.combo, z]
      simp
    · rw [Perc.ip_zero _ _ _ (fun a ha => List.eq_of_mem_replicate ha)]; simp
  have hsim := Perc.epochs_sim
    (Fp.dualPass sqrt (.fin ((1 / 2) ^ k)) (Fp.matrix (Fp.dot dim) (samples.map Spec.intSample)) (samples.map Spec.intSample))
    (Perc.dualPass Spec.realLibm ((1 / 2) ^ k) (Perc.linKernel dim (samples.map Spec.realSample)) (samples.map Spec.realSample))
    (fun s => s.steps > maxIt ∨ s.ctot > maxUp) (fun s => s.steps > maxIt ∨ s.ctot > maxUp) clock
    (fun s t => ∃ A B p, DSim samples dim k gamma R u ub A B s t p)
    (by
      rintro s t ⟨A, B, p, h⟩
      obtain ⟨⟨A', B', p', h'⟩, he⟩ := dsim_scan sqrt hk hg hl hx hm hR hN hc hdx (List.range samples.length) (by simp)
        A B s t p 0 h
      simp only [Fp.dualPass, Perc.dualPass, List.length_map]
      refine ⟨⟨A', B', { p' with steps := p'.steps + 1 }, ?_⟩, he⟩
      obtain ⟨a1, a2, a3, a4, a5, a6, a7, a8, a9, a10, a11⟩ := h'
      obtain ⟨b1, b2, b3, b4, b5, b6, b7, b8⟩ := a10
      exact ⟨a1, a2, a3, a4, a5, a6, congrArg (· + 1) a7, a8, a9, ⟨b1, b2, b3, b4, b5, b6, b7, congrArg (· + 1) b8⟩,
        ⟨a11.len, a11.cnt, a11.lower, a11.upper⟩⟩)
    (by
      rintro s t ⟨A, B, p, h⟩
      simp only [h.steps, h.ctot])
    (maxIt + 1) 0 _ _ 1 1 ⟨_, _, _, hstart⟩ (Or.inl (hclock 0))
  obtain ⟨⟨A, B, p, hend⟩, he⟩ := hsim
  obtain ⟨r, hr⟩ : ∃ r, epochs (Fp.dualPass sqrt (.fin ((1 / 2) ^ k)) (Fp.matrix (Fp.dot dim) (samples.map Spec.intSample))
      (samples.map Spec.intSample)) (fun s => s.steps > maxIt ∨ s.ctot > maxUp) clock (maxIt + 1) 0
      ⟨List.replicate samples.length (.fin 0), .fin 0, .fin 0, 0, 0⟩ 1 = r := ⟨_, rfl⟩
  rw [hr] at hend he
  have hreal : (epochs (Perc.dualPass Spec.realLibm ((1 / 2) ^ k) (Perc.linKernel dim (samples.map Spec.realSample))
      (samples.map Spec.realSample)) (fun s => s.steps > maxIt ∨ s.ctot > maxUp) clock (maxIt + 1) 0
      ⟨List.replicate samples.length 0, 0, 0, 0, 0⟩ 1).2 = 0 := by
    unfold Perc.dualTrain at h2
    simp only [if_true] at h2
    split at h2
    · simp at h2
    · simp only [Except.ok.injEq, Prod.mk.injEq, decide_eq_true_eq, List.length_map, Nat.sub_zero] at h2
      exact h2.1
  have hrun : Fp.dualTrain sqrt ⟨.fin ((1 / 2) ^ k), maxIt, maxUp⟩ clock (Fp.dot dim) dim (samples.map Spec.intSample)
      ⟨[], .fin 0, .fin 0, 0, 0⟩ = .ok (true, r.1) := by
    unfold Fp.dualTrain
    simp only [if_true, List.length_map, List.length_replicate, Nat.sub_zero]
    rw [if_neg, hr]
    · simp [he.trans hreal]
    · rintro (hh | hh)
      · exact absurd hh (lt_irrefl _)
      · apply hh
        intro p hp
        obtain ⟨q, hq, rfl⟩ := List.mem_map.mp hp
        simp [Spec.intSample, hd q hq]
  refine ⟨r.1, hrun, ?_⟩
  intro q hq
  have hcnt := hend.count hg hm.1 hN
  obtain ⟨i, hi, rfl⟩ := List.getElem_of_mem hq
  obtain ⟨v, hv, v1, -⟩ := hend.value hk hl hx (le_trans (Nat.mul_le_mul_right _ hcnt) hc) hdx hi
  have hsym : ∀ a b, Fp.dot dim a b = Fp.dot dim b a := C227_kernel_symmetric pow exp .innerProduct param dim
  have hval : dualValue (Fp.dot dim) (samples.map Spec.intSample) r.1 (Spec.intSample samples[i]).x ≠ .nan := by
    have : dualValue (Fp.dot dim) (samples.map Spec.intSample) r.1 (Spec.intSample samples[i]).x =
        .fin ((v : ℚ) * (1 / 2) ^ k) := by
      rw [← v1]
      unfold dualValue
      rw [List.length_map]
      congr 1
      funext j
      unfold Fp.matrix
      rw [show (samples.map Spec.intSample).getD i ⟨[], .fin 0⟩ = Spec.intSample samples[i] by
        rw [Perc.getD_lt _ _ _ (by simpa using hi)]; simp]
      split
      · rfl
      · exact hsym _ _
    rw [this]; simp
  have hans := dual_answers sqrt _ clock _ hsym dim _ _ _ (by
    intro q hq
    obtain ⟨q', hq', rfl⟩ := List.mem_map.mp hq
    simp [Spec.intSample, hd q' hq']) (hclock 0) hrun (Spec.intSample samples[i]) (List.mem_map_of_mem hq) hval
  rcases hl _ hq with e | e
  · rw [hans.1 (by simp [Spec.intSample, e]), e]
  · rw [hans.2 (by simp [Spec.intSample, e]), e]

/-- Integer samples in the plane: the hypotheses are met with the default rate 1/2 and `N = 9`. -/
example : ∃ s, Fp.dualTrain id ⟨.fin ((1 / 2) ^ 1), 100, 100⟩ (fun _ => true) (Fp.kernel (fun a _ => a) id .innerProduct (.fin 0) 2) 2
    (([⟨[2, 1], 1⟩, ⟨[-1, -1], -1⟩] : List (Sample ℤ)).map Spec.intSample) ⟨[], .fin 0, .fin 0, 0, 0⟩ = .ok (true, s) ∧
    ∀ p ∈ ([⟨[2, 1], 1⟩, ⟨[-1, -1], -1⟩] : List (Sample ℤ)),
      Fp.dualEvaluate (Fp.kernel (fun a _ => a) id .innerProduct (.fin 0) 2) 2 s.alpha
        (([⟨[2, 1], 1⟩, ⟨[-1, -1], -1⟩] : List (Sample ℤ)).map Spec.intSample) s.bias (Spec.intSample p).x = .ok p.y := by
  refine C228_integer_partial id id (fun a _ => a) (.fin 0) 1 9 2 2 100 100 _ _ [3 / 5, 4 / 5] 0 1 3 (by norm_num) (by norm_num)
    (by simp) (by simp) (by simp) ?_ ?_ (by norm_num) (by norm_num) (fun _ => rfl) (by norm_num) (by norm_num)
  · simp [Spec.Margin, Spec.realSample, Spec.ip, Spec.affine, Finset.sum_range_succ]; norm_num
  · simp [Spec.realSample, Spec.ip, Finset.sum_range_succ]; norm_num

/-- Where dual training of `farD` with rate 1 gets stuck. -/
def DualStuck (s : DState Dbl) : Prop :=
  ∃ a b : ℚ, s.alpha = [.fin 1, .fin a] ∧ 0 ≤ a ∧ a ≤ 2 ^ 53 ∧ s.bias = .fin b ∧ -2 ^ 53 ≤ b ∧ b ≤ 1

/-- The value of a sample of `farD` whose kernel values are `c` and `d`. -/
theorem stuck_value {s : DState Dbl} (h : DualStuck s) {c d lo : ℚ} {k : ℕ → Dbl} (h0 : k 0 = .fin c) (h1 : k 1 = .fin d)
    (hc : near c = c) (hd0 : 0 ≤ d) (n1 : near (2 ^ 53 * d) = 2 ^ 53 * d) (hlo : near lo = lo)
    (nc : near (c / 2) = c / 2) (nc2 : near (2 * c) = 2 * c)
    (hb : 2 ^ 54 ≤ c) (hcd : lo ≤ c / 2 - 2 ^ 53 * d) (hlo0 : 0 < lo) (hh : 2 * c < huge) (hd2 : 2 ^ 53 * d < c) :
    ∃ v, Fp.dualDecision farD.length s.alpha farD k s.bias = .fin v ∧ lo ≤ v ∧ v ≤ 2 * c := by
  obtain ⟨a, b, ha, a0, a1, hbias, b0, b1⟩ := h
  have hm1 : (Dbl.fin 1).mul (.fin 1) = .fin 1 := by decide +kernel
  have hm2 : (Dbl.fin 1).mul (.fin c) = .fin c := by
    simp only [Dbl.mul, one_mul]
    rw [rnd_fin (by rw [hc, abs_of_pos (by linarith)]; linarith), hc]
  obtain ⟨e1, k1, k2⟩ := rnd_bounds (a := -2 ^ 53) (b := 0) (q := a * -1) (by decide +kernel) (by decide +kernel)
    (by linarith) (by linarith) (by decide +kernel) (by decide +kernel)
  have nneg : near (-(2 ^ 53 * d)) = -(2 ^ 53 * d) := by rw [near_neg, n1]
  have hpos : 0 < huge := huge_pos
  obtain ⟨e2, j1, j2⟩ := rnd_bounds (a := -(2 ^ 53 * d)) (b := 0) (q := near (a * -1) * d) nneg (by decide +kernel)
    (by nlinarith) (by nlinarith) (by linarith) hpos
  obtain ⟨e3, l1, l2⟩ := rnd_bounds (a := c / 2) (b := 2 * c) (q := b + c) nc nc2 (by linarith) (by linarith) (by linarith) hh
  obtain ⟨e4, m1, m2⟩ := rnd_bounds (a := lo) (b := 2 * c) (q := near (b + c) + near (near (a * -1) * d)) hlo nc2
    (by linarith) (by linarith) (by linarith) hh
  refine ⟨_, ?_, m1, m2⟩
  rw [ha, hbias]
  simp only [Fp.dualDecision, farD, List.length_cons, List.length_nil, List.range_succ, List.range_zero, List.nil_append,
    List.foldl_append, List.foldl_cons, List.foldl_nil, List.getD_cons_zero, List.getD_cons_succ, Nat.zero_add]
  rw [h0, h1, hm1, hm2]
  simp only [Dbl.mul, Dbl.add]
  rw [e1, e3]
  simp only
  rw [e2]
  simp only
  exact e4

theorem far_matrix : Fp.matrix (Fp.dot 1) farD 0 0 = .fin (2 ^ 120) ∧ Fp.matrix (Fp.dot 1) farD 0 1 = .fin (2 ^ 60) ∧
    Fp.matrix (Fp.dot 1) farD 1 0 = .fin (2 ^ 60) ∧ Fp.matrix (Fp.dot 1) farD 1 1 = .fin 1 := by decide +kernel

theorem dstuck_first (s : DState Dbl) (h : DualStuck s) :
    ((Dbl.fin 1).mul (Fp.dualDecision farD.length s.alpha farD (Fp.matrix (Fp.dot 1) farD 0) s.bias)).le (.fin 0) = false := by
  obtain ⟨v, hv, v1, v2⟩ := stuck_value h (lo := 2 ^ 118) far_matrix.1 far_matrix.2.1 (by decide +kernel) (by norm_num)
    (by decide +kernel) (by decide +kernel) (by decide +kernel) (by decide +kernel) (by norm_num) (by norm_num) (by norm_num)
    (by decide +kernel) (by norm_num)
  rw [hv]
  simp only [Dbl.mul]
  obtain ⟨e2, j1, j2⟩ := rnd_bounds (a := 2 ^ 118) (b := 2 ^ 121) (q := 1 * v) (by decide +kernel)
    (by decide +kernel) (by linarith) (by linarith) (by decide +kernel) (by decide +kernel)
  rw [e2]
  simp only [Dbl.le, decide_eq_false_iff_not, not_le]
  linarith

theorem dstuck_second (sqrt : Dbl → Dbl) (s : DState Dbl) (h : DualStuck s) (f : Dbl) :
    ((Dbl.fin (-1)).mul (Fp.dualDecision farD.length s.alpha farD (Fp.matrix (Fp.dot 1) farD 1) s.bias)).le (.fin 0) = true ∧
      DualStuck (Fp.dualUpdate sqrt (.fin 1) (Fp.matrix (Fp.dot 1) farD) ⟨[.fin 1], .fin (-1)⟩ 1 f s) := by
  constructor
  · obtain ⟨v, hv, v1, v2⟩ := stuck_value h (lo := 2 ^ 58) far_matrix.2.2.1 far_matrix.2.2.2 (by decide +kernel) (by norm_num)
      (by decide +kernel) (by decide +kernel) (by decide +kernel) (by decide +kernel) (by norm_num) (by norm_num) (by norm_num)
      (by decide +kernel) (by norm_num)
    rw [hv]
    simp only [Dbl.mul]
    obtain ⟨e2, j1, j2⟩ := rnd_bounds (a := -2 ^ 61) (b := 0) (q := -1 * v) (by decide +kernel)
      (by decide +kernel) (by linarith) (by linarith) (by decide +kernel) (by decide +kernel)
    rw [e2]
    simp only [Dbl.le, decide_eq_true_eq]
    exact j2
  · obtain ⟨a, b, ha, a0, a1, hbias, b0, b1⟩ := h
    have hr : (Dbl.fin 1).mul (.fin (-1)) = .fin (-1) := by decide +kernel
    have hbig : (2 ^ 54 : ℚ) < huge := by decide +kernel
    have i1 : 0 ≤ near (a + 1) := by
      have := near_mono (show (0 : ℚ) ≤ a + 1 by linarith)
      rwa [near_zero] at this
    have i2 : near (a + 1) ≤ 2 ^ 53 := by
      have := near_mono (show a + 1 ≤ (2 ^ 53 + 1 : ℚ) by linarith)
      rwa [show near (2 ^ 53 + 1) = 2 ^ 53 by decide +kernel] at this
    have j1 : -2 ^ 53 ≤ near (b + -1) := by
      have := near_mono (show (-2 ^ 53 - 1 : ℚ) ≤ b + -1 by linarith)
      rwa [show near (-2 ^ 53 - 1) = -2 ^ 53 by decide +kernel] at this
    have j2 : near (b + -1) ≤ 1 := by
      have := near_mono (show b + -1 ≤ (1 : ℚ) by linarith)
      rwa [show near 1 = 1 by decide +kernel] at this
    refine ⟨near (a + 1), near (b + -1), ?_, i1, i2, ?_, j1, j2⟩
    · simp only [Fp.dualUpdate, ha, List.set_cons_succ, List.set_cons_zero, List.getD_cons_succ, List.getD_cons_zero, Dbl.add]
      rw [rnd_fin (by rw [abs_lt]; constructor <;> linarith)]
    · simp only [Fp.dualUpdate, hbias]
      rw [hr]
      simp only [Dbl.add]
      exact rnd_fin (by rw [abs_lt]; constructor <;> linarith)

theorem dstuck_pass (sqrt : Dbl → Dbl) (s : DState Dbl) (h : DualStuck s) :
    DualStuck (Fp.dualPass sqrt (.fin 1) (Fp.matrix (Fp.dot 1) farD) farD s).1 ∧
      (Fp.dualPass sqrt (.fin 1) (Fp.matrix (Fp.dot 1) farD) farD s).2 ≠ 0 := by
  have h1 := dstuck_first s h
  have h2 := dstuck_second sqrt s h (Fp.dualDecision farD.length s.alpha farD (Fp.matrix (Fp.dot 1) farD 1) s.bias)
  have e : Fp.dualScan sqrt (.fin 1) (Fp.matrix (Fp.dot 1) farD) farD [0, 1] s 0 =
      (Fp.dualUpdate sqrt (.fin 1) (Fp.matrix (Fp.dot 1) farD) ⟨[.fin 1], .fin (-1)⟩ 1
        (Fp.dualDecision farD.length s.alpha farD (Fp.matrix (Fp.dot 1) farD 1) s.bias) s, 1) := by
    have f0 : farD.getD 0 ⟨[], .fin 0⟩ = ⟨[.fin (2 ^ 60)], .fin 1⟩ := rfl
    have f1 : farD.getD 1 ⟨[], .fin 0⟩ = ⟨[.fin 1], .fin (-1)⟩ := rfl
    simp only [Fp.dualScan, f0, f1]
    rw [h1, h2.1]
    simp
  unfold Fp.dualPass
  rw [show List.range farD.length = [0, 1] from rfl, e]
  obtain ⟨-, a, b, r1, r2, r3, r4, r5, r6⟩ := h2
  exact ⟨⟨a, b, r1, r2, r3, r4, r5, r6⟩, by simp⟩

theorem dstart_pass (sqrt : Dbl → Dbl) (s : DState Dbl) (ha : s.alpha = [.fin 0, .fin 0]) (hb : s.bias = .fin 0) :
    DualStuck (Fp.dualPass sqrt (.fin 1) (Fp.matrix (Fp.dot 1) farD) farD s).1 ∧
      (Fp.dualPass sqrt (.fin 1) (Fp.matrix (Fp.dot 1) farD) farD s).2 ≠ 0 := by
  have h1 : ((Dbl.fin 1).mul (Fp.dualDecision farD.length s.alpha farD (Fp.matrix (Fp.dot 1) farD 0) s.bias)).le (.fin 0) = true := by
    rw [ha, hb]; decide +kernel
  generalize hf : Fp.dualDecision farD.length s.alpha farD (Fp.matrix (Fp.dot 1) farD 0) s.bias = f at h1
  have h2 : DualStuck (Fp.dualUpdate sqrt (.fin 1) (Fp.matrix (Fp.dot 1) farD) ⟨[.fin (2 ^ 60)], .fin 1⟩ 0 f s) := by
    refine ⟨0, 1, ?_, le_refl _, by norm_num, ?_, by norm_num, le_refl _⟩
    · simp only [Fp.dualUpdate, ha, List.set_cons_zero, List.getD_cons_zero]
      decide +kernel
    · simp only [Fp.dualUpdate, hb]
      decide +kernel
  generalize hs' : Fp.dualUpdate sqrt (.fin 1) (Fp.matrix (Fp.dot 1) farD) ⟨[.fin (2 ^ 60)], .fin 1⟩ 0 f s = s' at h2
  have h3 := dstuck_second sqrt s' h2 (Fp.dualDecision farD.length s'.alpha farD (Fp.matrix (Fp.dot 1) farD 1) s'.bias)
  have e : Fp.dualScan sqrt (.fin 1) (Fp.matrix (Fp.dot 1) farD) farD [0, 1] s 0 =
      (Fp.dualUpdate sqrt (.fin 1) (Fp.matrix (Fp.dot 1) farD) ⟨[.fin 1], .fin (-1)⟩ 1
        (Fp.dualDecision farD.length s'.alpha farD (Fp.matrix (Fp.dot 1) farD 1) s'.bias) s', 2) := by
    have f0 : farD.getD 0 ⟨[], .fin 0⟩ = ⟨[.fin (2 ^ 60)], .fin 1⟩ := rfl
    have f1 : farD.getD 1 ⟨[], .fin 0⟩ = ⟨[.fin 1], .fin (-1)⟩ := rfl
    simp only [Fp.dualScan, f0, f1]
    rw [hf, h1, if_pos rfl, hs', h3.1, if_pos rfl]
  unfold Fp.dualPass
  rw [show List.range farD.length = [0, 1] from rfl, e]
  obtain ⟨-, a, b, r1, r2, r3, r4, r5, r6⟩ := h3
  exact ⟨⟨a, b, r1, r2, r3, r4, r5, r6⟩, by simp⟩

/-- **C228 refuted** in general: the samples 2^60 (label 1) and 1 (label -1) are separated by `x - 2`, but in `double`
arithmetic the dual perceptron never finds a separating solution, however many passes and updates it may make and however
much time it has: the multiplier of the second sample stops at 2^53 and the bias at -2^53. -/
theorem C228_converges_refuted :
    (∀ p ∈ ([⟨[2 ^ 60], 1⟩, ⟨[1], -1⟩] : List (Sample ℚ)), 0 < p.y * Spec.affine 1 [1] (-2) p.x) ∧
    ∀ (sqrt exp : Dbl → Dbl) (pow : Dbl → Dbl → Dbl) (param : Dbl) (maxIt maxUp : Nat) (clock : Nat → Bool), clock 0 = true →
      ∃ s, Fp.dualTrain sqrt ⟨.fin 1, maxIt, maxUp⟩ clock (Fp.kernel pow exp .innerProduct param 1) 1 farD
        ⟨[], .fin 0, .fin 0, 0, 0⟩ = .ok (false, s) := by
  refine ⟨C220_converges_refuted.1, ?_⟩
  intro sqrt exp pow param maxIt maxUp clock hc
  have hker : Fp.kernel pow exp .innerProduct param 1 = Fp.dot 1 := by
    funext a b; rfl
  rw [hker]
  obtain ⟨s1, hP, hs1⟩ := Perc.epochs_last (Fp.dualPass sqrt (.fin 1) (Fp.matrix (Fp.dot 1) farD) farD)
    (fun s => s.steps > maxIt ∨ s.ctot > maxUp) clock (fun t => DualStuck t ∨ (t.alpha = [.fin 0, .fin 0] ∧ t.bias = .fin 0))
    (fun t ht _ => by
      rcases ht with ht | ⟨h1, h2⟩
      · exact Or.inl (dstuck_pass sqrt t ht).1
      · exact Or.inl (dstart_pass sqrt t h1 h2).1)
    (maxIt + 1 - 0) 0 ⟨[.fin 0, .fin 0], .fin 0, .fin 0, 0, 0⟩ 1 (Or.inr ⟨rfl, rfl⟩) hc
  have hne : (Fp.dualPass sqrt (.fin 1) (Fp.matrix (Fp.dot 1) farD) farD s1).2 ≠ 0 := by
    rcases hP with ht | ⟨h1, h2⟩
    · exact (dstuck_pass sqrt s1 ht).2
    · exact (dstart_pass sqrt s1 h1 h2).2
  refine ⟨(Fp.dualPass sqrt (.fin 1) (Fp.matrix (Fp.dot 1) farD) farD s1).1, ?_⟩
  unfold Fp.dualTrain
  simp only [if_true, show List.replicate farD.length (Dbl.fin 0) = [.fin 0, .fin 0] from rfl]
  rw [hs1, if_neg]
  · simp [hne]
  · simp [farD]

end MLTK.Props
