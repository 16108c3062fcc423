import Mathlib.Algebra.Order.BigOperators.Ring.Finset
import Mathlib.Tactic.Ring
import Mathlib.Tactic.Linarith
import Mathlib.Tactic.FieldSimp
import Verif.Spec.Perceptron
import Verif.Lemmas.Util
/-!
# Lemmas about the perceptron trainers
-/
namespace MLTK.Perc
open MLTK.Spec

/-! ### the outer loop -/

theorem getD_lt {α : Type} (l : List α) (d : α) (i : Nat) (h : i < l.length) : l.getD i d = l[i] := by
  simp [h]

theorem epochs_last {σ : Type} (pass : σ → σ × Nat) (halt : σ → Bool) (clock : Nat → Bool)
    (P : σ → Prop) (hp : ∀ s, P s → (pass s).2 ≠ 0 → P (pass s).1) :
    ∀ (n k : Nat) (s : σ) (e : Nat), P s → clock k = true →
      ∃ s1, P s1 ∧ epochs pass halt clock n k s e = pass s1 := by
  intro n
  induction n with
  | zero =>
    intro k s e h0 hc
    refine ⟨s, h0, ?_⟩
    rw [epochs]; simp [hc]
  | succ n ih =>
    intro k s e h0 hc
    rw [epochs]
    simp only [hc, if_true]
    by_cases hs : ((pass s).2 = 0 || halt (pass s).1) = true
    · exact ⟨s, h0, by rw [if_pos (by simpa using hs)]⟩
    · rw [if_neg (by simpa using hs)]
      have hne : (pass s).2 ≠ 0 := by
        intro h; simp [h] at hs
      by_cases hk : clock (k+1) = true
      · exact ih (k+1) _ _ (hp s h0 hne) hk
      · refine ⟨s, h0, ?_⟩
        cases n <;> (rw [epochs]; simp [hk])

/-- The bound on the number of passes is never what stops the loop. -/
theorem epochs_fuel {σ : Type} (pass : σ → σ × Nat) (halt : σ → Bool) (clock : Nat → Bool)
    (steps : σ → Nat) (maxIt : Nat) (hstep : ∀ s, steps (pass s).1 = steps s + 1)
    (hhalt : ∀ s, steps s > maxIt → halt s = true) :
    ∀ (n n' k : Nat) (s : σ) (e : Nat), maxIt + 1 - steps s ≤ n → maxIt + 1 - steps s ≤ n' →
      epochs pass halt clock n k s e = epochs pass halt clock n' k s e := by
  intro n
  induction n with
  | zero =>
    intro n' k s e h1 h2
    have hh : halt (pass s).1 = true := hhalt _ (by rw [hstep]; omega)
    rw [epochs]
    cases n' with
    | zero => rw [epochs]
    | succ n' => rw [epochs]; simp [hh]
  | succ n ih =>
    intro n' k s e h1 h2
    cases n' with
    | zero =>
      have hh : halt (pass s).1 = true := hhalt _ (by rw [hstep]; omega)
      rw [epochs, epochs]; simp [hh]
    | succ n' =>
      rw [epochs, epochs]
      split
      · dsimp only
        split
        · rfl
        · exact ih n' (k+1) _ _ (by rw [hstep]; omega) (by rw [hstep]; omega)
      · rfl

/-- With a clock that never expires the loop ends because a pass made no mistake or a limit was hit. -/
theorem epochs_halt {σ : Type} (pass : σ → σ × Nat) (halt : σ → Bool) (clock : Nat → Bool)
    (hclock : ∀ k, clock k = true) (steps : σ → Nat) (maxIt : Nat)
    (hstep : ∀ s, steps (pass s).1 = steps s + 1) (hhalt : ∀ s, steps s > maxIt → halt s = true)
    (P : σ → Prop) (hp : ∀ s, P s → (pass s).2 ≠ 0 → P (pass s).1) :
    ∀ (n k : Nat) (s : σ) (e : Nat), P s → maxIt + 1 - steps s ≤ n →
      ∃ s1, P s1 ∧ epochs pass halt clock n k s e = pass s1 ∧
        ((pass s1).2 = 0 ∨ halt (pass s1).1 = true) := by
  intro n
  induction n with
  | zero =>
    intro k s e h0 hn
    have hh : halt (pass s).1 = true := hhalt _ (by rw [hstep]; omega)
    refine ⟨s, h0, ?_, Or.inr hh⟩
    rw [epochs]; simp [hclock]
  | succ n ih =>
    intro k s e h0 hn
    rw [epochs]
    simp only [hclock, if_true]
    by_cases hs : ((pass s).2 = 0 || halt (pass s).1) = true
    · refine ⟨s, h0, by rw [if_pos (by simpa using hs)], ?_⟩
      simpa using hs
    · rw [if_neg (by simpa using hs)]
      exact ih (k+1) _ _ (hp s h0 (by intro h; simp [h] at hs)) (by rw [hstep]; omega)

section
variable {K : Type} [Field K] [LinearOrder K]

theorem foldl_range_sum {M : Type} [AddCommMonoid M] (n : Nat) (f : Nat → M) (b : M) :
    (List.range n).foldl (fun s j => s + f j) b = b + ∑ j ∈ Finset.range n, f j := by
  induction n with
  | zero => simp
  | succ n ih => rw [List.range_succ, List.foldl_append, ih, Finset.sum_range_succ]; simp [add_assoc]

omit [LinearOrder K] in
theorem decision_eq (dim : Nat) (w x : List K) (b : K) : decision dim w x b = affine dim w b x := by
  rw [decision, foldl_range_sum, affine, ip, add_comm]

omit [LinearOrder K] in
theorem sumTo_eq (dim : Nat) (h : K → K) (w : List K) :
    sumTo dim h w = ∑ j ∈ Finset.range dim, h (w.getD j 0) := by
  rw [sumTo, foldl_range_sum, zero_add]

omit [Field K] [LinearOrder K] in
@[simp] theorem updTo_length (dim : Nat) (g : Nat → K → K) (w : List K) :
    (updTo dim g w).length = w.length := by simp [updTo]

omit [LinearOrder K] in
theorem updTo_getD (dim : Nat) (g : Nat → K → K) (w : List K) (j : Nat) (hj : j < dim)
    (hw : dim ≤ w.length) : (updTo dim g w).getD j 0 = g j (w.getD j 0) := by
  have : j < w.length := by omega
  simp [updTo, this, hj]

end

section
variable {K : Type} [Field K] [LinearOrder K]

/-! ### primal perceptron -/

theorem primalScan_zero (m : Libm K) (dim : Nat) (rate : K) (samples : List (Sample K)) (l : List Nat)
    (s s' : PState K) (e : Nat) (h : primalScan m dim rate samples l s e = (s', 0)) :
    e = 0 ∧ s' = s ∧ ∀ i ∈ l, ¬ ((samples.getD i default).y *
      decision dim s.w (samples.getD i default).x s.bias ≤ 0) := by
  have hmono : ∀ (l : List Nat) (s : PState K) (e : Nat), e ≤ (primalScan m dim rate samples l s e).2 := by
    intro l
    induction l with
    | nil => intro s e; simp [primalScan]
    | cons i l ih =>
      intro s e
      simp only [primalScan]
      split
      · exact le_trans (Nat.le_succ e) (ih _ _)
      · split
        · exact le_refl _
        · exact ih _ _
  induction l generalizing s e with
  | nil => simp [primalScan] at h; exact ⟨h.2, h.1.symm, by simp⟩
  | cons i l ih =>
    simp only [primalScan] at h
    split at h
    · have := hmono l (primalUpdate m dim rate (samples.getD i default) s) (e+1)
      rw [h] at this
      simp at this
    · rename_i hm
      split at h
      · rename_i hb; simp at h; omega
      · obtain ⟨h1, h2, h3⟩ := ih _ _ h
        refine ⟨h1, h2, ?_⟩
        intro j hj
        rcases List.mem_cons.mp hj with rfl | hj
        · exact hm
        · exact h3 j hj

/-- An invariant of updates is an invariant of a scan; the number of updates of a scan is its `e`. -/
theorem primalScan_inv (m : Libm K) (dim : Nat) (rate : K) (samples : List (Sample K)) (l : List Nat)
    (P : PState K → Prop)
    (hP : ∀ s, ∀ i ∈ l, P s → (samples.getD i default).y *
      decision dim s.w (samples.getD i default).x s.bias ≤ 0 →
      P (primalUpdate m dim rate (samples.getD i default) s)) :
    ∀ (s : PState K) (e : Nat), P s →
      P (primalScan m dim rate samples l s e).1 ∧
      (primalScan m dim rate samples l s e).1.steps = s.steps ∧
      (primalScan m dim rate samples l s e).1.ctot + e = s.ctot + (primalScan m dim rate samples l s e).2 := by
  induction l with
  | nil => intro s e h; simp [primalScan, h]
  | cons i l ih =>
    intro s e h
    have ih' := ih (fun s j hj => hP s j (by simp [hj]))
    simp only [primalScan]
    split
    · rename_i hm
      obtain ⟨h1, h2, h3⟩ := ih' _ (e+1) (hP s i (by simp) h hm)
      refine ⟨h1, by rw [h2]; rfl, ?_⟩
      simp only [primalUpdate] at h3 ⊢
      omega
    · split
      · exact ⟨h, rfl, rfl⟩
      · exact ih' s e h

omit [Field K] [LinearOrder K] in
theorem inRange_iff (dim : Nat) (samples : List (Sample K)) (index : List Nat) (w : List K) :
    inRange dim samples index w = true ↔ samples.length ≤ index.length ∧
      (∀ i ∈ index.take samples.length, i < samples.length) ∧
      (∀ p ∈ samples, dim ≤ p.x.length) ∧ dim ≤ w.length := by
  simp [inRange]

end

section
variable {K : Type} [Field K] [LinearOrder K] [IsStrictOrderedRing K]

/-! ### Novikoff's bound -/

omit [LinearOrder K] [IsStrictOrderedRing K] in
theorem ip_upd_left (dim : Nat) (w x u : List K) (c : K) (hw : dim ≤ w.length) :
    ip dim (updTo dim (fun j a => a + c * x.getD j 0) w) u = ip dim w u + c * ip dim x u := by
  unfold ip
  rw [Finset.mul_sum, ← Finset.sum_add_distrib]
  refine Finset.sum_congr rfl (fun j hj => ?_)
  rw [updTo_getD _ _ _ _ (Finset.mem_range.mp hj) hw]; ring

omit [LinearOrder K] [IsStrictOrderedRing K] in
theorem ip_comm (dim : Nat) (w x : List K) : ip dim w x = ip dim x w := by
  unfold ip; exact Finset.sum_congr rfl (fun j _ => mul_comm _ _)

theorem ip_self_nonneg (dim : Nat) (w : List K) : 0 ≤ ip dim w w :=
  Finset.sum_nonneg (fun _ _ => mul_self_nonneg _)

omit [LinearOrder K] [IsStrictOrderedRing K] in
theorem ip_zero (dim : Nat) (w u : List K) (h : ∀ a ∈ w, a = 0) : ip dim w u = 0 := by
  refine Finset.sum_eq_zero (fun j _ => ?_)
  have : w.getD j 0 = 0 := by
    rw [List.getD_eq_getElem?_getD]
    cases hj : w[j]? with
    | none => rfl
    | some a => exact h a (List.mem_of_getElem? hj)
  rw [this, zero_mul]

/-- Cauchy-Schwarz for bias-augmented vectors. -/
theorem cauchy (dim : Nat) (u w : List K) (ub b : K) :
    (ip dim u w + ub * b) ^ 2 ≤ (ip dim u u + ub ^ 2) * (ip dim w w + b ^ 2) := by
  have h := Finset.sum_mul_sq_le_sq_mul_sq (Finset.range (dim+1))
    (fun j => if j < dim then u.getD j 0 else ub) (fun j => if j < dim then w.getD j 0 else b)
  have e : ∀ (f : Nat → K) (c : K), ∑ j ∈ Finset.range (dim+1), (if j < dim then f j else c)
      = ∑ j ∈ Finset.range dim, f j + c := by
    intro f c
    rw [Finset.sum_range_succ]
    simp only [lt_irrefl, if_false]
    congr 1
    exact Finset.sum_congr rfl (fun j hj => by simp [Finset.mem_range.mp hj])
  have e1 : ∑ j ∈ Finset.range (dim+1), ((if j < dim then u.getD j 0 else ub) *
      (if j < dim then w.getD j 0 else b)) = ip dim u w + ub * b := by
    rw [ip, ← e]
    exact Finset.sum_congr rfl (fun j _ => by split <;> rfl)
  have e2 : ∀ (v : List K) (c : K), ∑ j ∈ Finset.range (dim+1), (if j < dim then v.getD j 0 else c) ^ 2
      = ip dim v v + c ^ 2 := by
    intro v c
    rw [ip, ← e]
    exact Finset.sum_congr rfl (fun j _ => by split <;> simp [sq])
  rw [e1, e2, e2] at h
  exact h

/-- The quantities Novikoff's argument follows. -/
structure NovInv (dim : Nat) (rate gamma R2 : K) (u : List K) (ub : K) (c0 : Nat) (s : PState K) : Prop where
  len : dim ≤ s.w.length
  cnt : c0 ≤ s.ctot
  lower : ((s.ctot : K) - c0) * (rate * gamma) ≤ ip dim u s.w + ub * s.bias
  upper : ip dim s.w s.w + s.bias ^ 2 ≤ ((s.ctot : K) - c0) * (rate ^ 2 * R2)

theorem NovInv.update (m : Libm K) {dim : Nat} {rate gamma R2 : K} {u : List K} {ub : K} {c0 : Nat}
    {s : PState K} (h : NovInv dim rate gamma R2 u ub c0 s) (hr : 0 ≤ rate) (p : Sample K)
    (hy : p.y ^ 2 = 1) (hg : gamma ≤ p.y * affine dim u ub p.x) (hR : ip dim p.x p.x + 1 ≤ R2)
    (hm : p.y * decision dim s.w p.x s.bias ≤ 0) :
    NovInv dim rate gamma R2 u ub c0 (primalUpdate m dim rate p s) := by
  obtain ⟨h1, h2, h3, h4⟩ := h
  rw [decision_eq, affine] at hm
  rw [affine] at hg
  refine ⟨by simpa [primalUpdate] using h1, by simp [primalUpdate]; omega, ?_, ?_⟩
  · simp only [primalUpdate]
    rw [ip_comm, ip_upd_left _ _ _ _ _ h1, ip_comm dim s.w u, ip_comm dim p.x u]
    have := mul_le_mul_of_nonneg_left hg hr
    push_cast
    nlinarith
  · simp only [primalUpdate]
    rw [ip_upd_left _ _ _ _ _ h1, ip_comm dim s.w, ip_comm dim p.x, ip_upd_left _ _ _ _ _ h1,
      ip_upd_left _ _ _ _ _ h1, ip_comm dim p.x s.w]
    have a1 : rate * (p.y * (ip dim s.w p.x + s.bias)) ≤ 0 :=
      mul_nonpos_of_nonneg_of_nonpos hr hm
    have a2 : rate ^ 2 * (ip dim p.x p.x + 1) ≤ rate ^ 2 * R2 :=
      mul_le_mul_of_nonneg_left hR (sq_nonneg _)
    have e : ip dim s.w s.w + rate * p.y * ip dim s.w p.x +
        rate * p.y * (ip dim s.w p.x + rate * p.y * ip dim p.x p.x) + (s.bias + rate * p.y) ^ 2
        = (ip dim s.w s.w + s.bias ^ 2) + 2 * (rate * (p.y * (ip dim s.w p.x + s.bias))) +
          rate ^ 2 * p.y ^ 2 * (ip dim p.x p.x + 1) := by ring
    rw [e, hy, mul_one]
    push_cast
    linarith

theorem NovInv.bound {dim : Nat} {rate gamma R2 : K} {u : List K} {ub : K} {c0 : Nat}
    {s : PState K} (h : NovInv dim rate gamma R2 u ub c0 s) (hr : 0 < rate) (hg : 0 < gamma)
    (hu : ip dim u u + ub ^ 2 = 1) (hR : 0 ≤ R2) : ((s.ctot : K) - c0) * gamma ^ 2 ≤ R2 := by
  obtain ⟨h1, h2, h3, h4⟩ := h
  have hk : (0 : K) ≤ (s.ctot : K) - c0 := sub_nonneg.mpr (Nat.cast_le.mpr h2)
  generalize (s.ctot : K) - c0 = k at *
  rcases hk.eq_or_lt with rfl | hk
  · simpa using hR
  have c := cauchy dim u s.w ub s.bias
  rw [hu, one_mul] at c
  have h0 : 0 ≤ k * (rate * gamma) := by positivity
  have s1 : (k * (rate * gamma)) ^ 2 ≤ (ip dim u s.w + ub * s.bias) ^ 2 := pow_le_pow_left₀ h0 h3 2
  have s2 : (k * (rate * gamma)) ^ 2 ≤ k * (rate ^ 2 * R2) := s1.trans (c.trans h4)
  have hp : 0 < k * rate ^ 2 := by positivity
  have s3 : (k * rate ^ 2) * (k * gamma ^ 2) ≤ (k * rate ^ 2) * R2 := by
    calc _ = (k * (rate * gamma)) ^ 2 := by ring
      _ ≤ _ := s2
      _ = _ := by ring
  exact le_of_mul_le_mul_left s3 hp

end

/-! ### dual perceptron with the linear kernel -/

section
variable {K : Type} [Field K] [LinearOrder K]

/-- Kernel matrix of the inner product. -/
def linKernel (dim : Nat) (samples : List (Sample K)) (i j : Nat) : K :=
  ip dim (samples.getD i default).x (samples.getD j default).x

omit [LinearOrder K] in
theorem dualDecision_eq (alpha : List K) (samples : List (Sample K)) (k : Nat → K) (b : K) :
    dualDecision samples.length alpha samples k b =
      b + ∑ r ∈ Finset.range samples.length, alpha.getD r 0 * (samples.getD r default).y * k r := by
  rw [dualDecision, foldl_range_sum]

omit [LinearOrder K] in
/-- The dual decision value is the affine value of any weight vector equal to `Σ αᵢ yᵢ xᵢ`. -/
theorem dualDecision_linear (dim : Nat) (alpha : List K) (samples : List (Sample K)) (x w : List K) (b : K)
    (hw : ∀ j, j < dim → w.getD j 0 = combo alpha samples j) :
    dualDecision samples.length alpha samples (fun r => ip dim x (samples.getD r default).x) b =
      affine dim w b x := by
  rw [dualDecision_eq, affine, add_comm b]
  congr 1
  have : ip dim w x = ∑ j ∈ Finset.range dim, combo alpha samples j * x.getD j 0 :=
    Finset.sum_congr rfl (fun j hj => by rw [hw j (Finset.mem_range.mp hj)])
  rw [this]
  simp only [combo, ip, Finset.mul_sum, Finset.sum_mul]
  rw [Finset.sum_comm]
  exact Finset.sum_congr rfl (fun j _ => Finset.sum_congr rfl (fun i _ => by ring))

omit [LinearOrder K] in
theorem dualWeights_getD (dim : Nat) (alpha : List K) (samples : List (Sample K)) (j : Nat) (hj : j < dim) :
    (dualWeights dim alpha samples).getD j 0 = combo alpha samples j := by
  simp only [dualWeights, List.getD_eq_getElem?_getD, List.getElem?_map, List.getElem?_range hj,
    Option.map_some, Option.getD_some]
  rw [foldl_range_sum, zero_add, combo]
  simp only [List.getD_eq_getElem?_getD]

omit [LinearOrder K] in
theorem set_getD_ite (l : List K) (i j : Nat) (v : K) (hi : i < l.length) :
    (l.set i v).getD j 0 = if j = i then v else l.getD j 0 := by
  simp only [List.getD_eq_getElem?_getD, List.getElem?_set]
  by_cases h : i = j
  · subst h; simp [hi]
  · rw [if_neg h, if_neg (fun hh => h hh.symm)]

omit [LinearOrder K] in
theorem combo_update (alpha : List K) (samples : List (Sample K)) (i j : Nat) (r : K)
    (hi : i < samples.length) (ha : samples.length ≤ alpha.length) :
    combo (alpha.set i (alpha.getD i 0 + r)) samples j =
      combo alpha samples j + r * (samples.getD i default).y * (samples.getD i default).x.getD j 0 := by
  unfold combo
  have e : ∀ k, (alpha.set i (alpha.getD i 0 + r)).getD k 0 * (samples.getD k default).y *
      (samples.getD k default).x.getD j 0 = alpha.getD k 0 * (samples.getD k default).y *
      (samples.getD k default).x.getD j 0 +
      (if k = i then r * (samples.getD i default).y * (samples.getD i default).x.getD j 0 else 0) := by
    intro k
    rw [set_getD_ite _ _ _ _ (by omega)]
    by_cases h : k = i
    · subst h; rw [if_pos rfl, if_pos rfl]; ring
    · rw [if_neg h, if_neg h]; ring
  rw [Finset.sum_congr rfl (fun k _ => e k), Finset.sum_add_distrib]
  congr 1
  rw [Finset.sum_ite_eq']
  simp [hi]

end

/-- A primal and a dual state describing the same linear model. -/
structure SameModel (dim : Nat) (samples : List (Sample ℝ)) (p : PState ℝ) (d : DState ℝ) : Prop where
  weights : ∀ j, j < dim → p.w.getD j 0 = combo d.alpha samples j
  plen : p.w.length = dim
  dlen : samples.length ≤ d.alpha.length
  bias : p.bias = d.bias
  norm : p.norm = d.norm
  euclid : d.norm = Real.sqrt (ip dim p.w p.w)
  ctot : p.ctot = d.ctot
  steps : p.steps = d.steps

theorem SameModel.decision {dim : Nat} {samples : List (Sample ℝ)} {p : PState ℝ} {d : DState ℝ}
    (h : SameModel dim samples p d) (x : List ℝ) :
    dualDecision samples.length d.alpha samples (fun r => ip dim x (samples.getD r default).x) d.bias =
      Perc.decision dim p.w x p.bias := by
  rw [decision_eq, h.bias, dualDecision_linear dim _ _ _ p.w _ h.weights]

theorem SameModel.update {dim : Nat} {samples : List (Sample ℝ)} {p : PState ℝ} {d : DState ℝ}
    (h : SameModel dim samples p d) (rate : ℝ) (i : Nat) (hi : i < samples.length)
    (hy : (samples.getD i default).y ^ 2 = 1) :
    SameModel dim samples (primalUpdate realLibm dim rate (samples.getD i default) p)
      (dualUpdate realLibm rate (linKernel dim samples) (samples.getD i default) i
        (dualDecision samples.length d.alpha samples (linKernel dim samples i) d.bias) d) := by
  have hd := h.decision (samples.getD i default).x
  obtain ⟨h1, h2, h3, h4, h5, h6, h7, h8⟩ := h
  set q := samples.getD i default with hq
  have hlen : dim ≤ p.w.length := by omega
  set w' := updTo dim (fun j a => a + rate * q.y * q.x.getD j 0) p.w with hw'
  have hip : ip dim w' w' = ip dim p.w p.w + 2 * rate * q.y * ip dim p.w q.x + rate * rate * ip dim q.x q.x := by
    rw [hw', ip_upd_left _ _ _ _ _ hlen, ip_comm dim p.w, ip_comm dim q.x, ip_upd_left _ _ _ _ _ hlen,
      ip_upd_left _ _ _ _ _ hlen, ip_comm dim q.x p.w]
    linear_combination rate ^ 2 * ip dim q.x q.x * hy
  have hn : (realLibm.sqrt (d.norm * d.norm + 2 * rate * q.y *
      (dualDecision samples.length d.alpha samples (linKernel dim samples i) d.bias - d.bias) +
      rate * rate * linKernel dim samples i i)) = Real.sqrt (ip dim w' w') := by
    have e1 : dualDecision samples.length d.alpha samples (linKernel dim samples i) d.bias
        = Perc.decision dim p.w q.x p.bias := hd
    have e2 : d.norm * d.norm = ip dim p.w p.w := by
      rw [h6]; exact Real.mul_self_sqrt (ip_self_nonneg _ _)
    rw [e1, e2, decision_eq, affine, h4, add_sub_cancel_right, hip]
    rfl
  have hs : sumTo dim (fun a => a * a) w' = ip dim w' w' := by rw [sumTo_eq, ip]
  refine ⟨?_, ?_, ?_, ?_, ?_, ?_, ?_, ?_⟩
  · intro j hj
    simp only [primalUpdate, dualUpdate]
    rw [updTo_getD _ _ _ _ hj hlen, combo_update _ _ _ _ _ hi h3, h1 j hj]
  · simp [primalUpdate, h2]
  · simp [dualUpdate, h3]
  · simp [primalUpdate, dualUpdate, h4]
  · simp only [primalUpdate, dualUpdate]
    rw [hn, ← hw', hs]; rfl
  · simp only [primalUpdate, dualUpdate]
    rw [hn]
  · simp [primalUpdate, dualUpdate, h7]
  · simp [primalUpdate, dualUpdate, h8]

theorem SameModel.scan {dim : Nat} {samples : List (Sample ℝ)} (rate : ℝ) (hy : PlusMinus samples)
    (l : List Nat) (hl : ∀ i ∈ l, i < samples.length) :
    ∀ (p : PState ℝ) (d : DState ℝ) (e : Nat), SameModel dim samples p d →
      SameModel dim samples (primalScan realLibm dim rate samples l p e).1
        (dualScan realLibm rate (linKernel dim samples) samples l d e).1 ∧
      (primalScan realLibm dim rate samples l p e).2 =
        (dualScan realLibm rate (linKernel dim samples) samples l d e).2 := by
  induction l with
  | nil => intro p d e h; exact ⟨h, rfl⟩
  | cons i l ih =>
    intro p d e h
    have hi := hl i (by simp)
    have ih' := ih (fun j hj => hl j (by simp [hj]))
    have hd : dualDecision samples.length d.alpha samples (linKernel dim samples i) d.bias
        = Perc.decision dim p.w (samples.getD i default).x p.bias := h.decision (samples.getD i default).x
    have hy' : (samples.getD i default).y ^ 2 = 1 := by
      have hm : samples.getD i default ∈ samples := by
        rw [getD_lt _ _ _ hi]; exact List.getElem_mem hi
      rcases hy _ hm with h | h <;> rw [h] <;> norm_num
    simp only [primalScan, dualScan, hd]
    split
    · have hu := h.update rate i hi hy'
      rw [hd] at hu
      exact ih' _ _ _ hu
    · rw [h.steps]
      split
      · exact ⟨h, rfl⟩
      · exact ih' _ _ _ h

theorem epochs_sim {σ τ : Type} (f : σ → σ × Nat) (g : τ → τ × Nat) (hf : σ → Bool) (hg : τ → Bool)
    (clock : Nat → Bool) (R : σ → τ → Prop)
    (hp : ∀ s t, R s t → R (f s).1 (g t).1 ∧ (f s).2 = (g t).2) (hh : ∀ s t, R s t → hf s = hg t) :
    ∀ (n k : Nat) (s : σ) (t : τ) (e e' : Nat), R s t → (clock k = true ∨ e = e') →
      R (epochs f hf clock n k s e).1 (epochs g hg clock n k t e').1 ∧
      (epochs f hf clock n k s e).2 = (epochs g hg clock n k t e').2 := by
  intro n
  induction n with
  | zero =>
    intro k s t e e' h hc
    rw [epochs, epochs]
    by_cases hk : clock k = true
    · simp only [hk, if_true, (hp s t h).2, hh _ _ (hp s t h).1]
      split
      · exact ⟨(hp s t h).1, (hp s t h).2⟩
      · exact ⟨(hp s t h).1, (hp s t h).2⟩
    · simp only [hk]
      exact ⟨h, by simpa [hk] using hc⟩
  | succ n ih =>
    intro k s t e e' h hc
    rw [epochs, epochs]
    by_cases hk : clock k = true
    · simp only [hk, if_true, (hp s t h).2, hh _ _ (hp s t h).1]
      split
      · exact ⟨(hp s t h).1, (hp s t h).2⟩
      · exact ih _ _ _ _ _ (hp s t h).1 (Or.inr rfl)
    · simp only [hk]
      exact ⟨h, by simpa [hk] using hc⟩

/-! ### fixed-margin perceptron -/

section
variable {K : Type} [Field K] [LinearOrder K]

theorem fmScan_zero (m : Libm K) (c : FCfg K) (dim : Nat) (samples : List (Sample K)) (l : List Nat)
    (s s' : FState K) (e : Nat) (h : fmScan m c dim samples l s e = (s', 0)) :
    e = 0 ∧ s' = s ∧ ∀ i ∈ l, c.gamma * s.norm - s.alphas.getD (s.index.getD i 0) 0 * c.flexible <
      (samples.getD (s.index.getD i 0) default).y *
      decision dim s.w (samples.getD (s.index.getD i 0) default).x s.bias := by
  have hmono : ∀ (l : List Nat) (s : FState K) (e : Nat), e ≤ (fmScan m c dim samples l s e).2 := by
    intro l
    induction l with
    | nil => intro s e; simp [fmScan]
    | cons i l ih =>
      intro s e
      simp only [fmScan]
      split
      · exact le_trans (Nat.le_succ e) (ih _ _)
      · split
        · exact le_refl _
        · exact ih _ _
  induction l generalizing s e with
  | nil => simp [fmScan] at h; exact ⟨h.2, h.1.symm, by simp⟩
  | cons i l ih =>
    simp only [fmScan] at h
    split at h
    · have := hmono l (fmUpdate m c dim (samples.getD (s.index.getD i 0) default) i (s.index.getD i 0) e s) (e+1)
      rw [h] at this
      simp at this
    · rename_i hm
      split at h
      · rename_i hb; simp at h; omega
      · obtain ⟨h1, h2, h3⟩ := ih _ _ h
        refine ⟨h1, h2, ?_⟩
        intro j hj
        rcases List.mem_cons.mp hj with rfl | hj
        · exact not_le.mp hm
        · exact h3 j hj

theorem swap_perm (l : List Nat) (k i : Nat) (hk : k ≤ i) (hi : i < l.length) :
    ((l.set k (l.getD i 0)).set i (l.getD k 0)).Perm l := by
  have h := List.set_set_perm (as := l) (i := k) (j := i) (by omega) hi
  rwa [← getD_lt l 0, ← getD_lt l 0] at h

theorem fmUpdate_index (m : Libm K) (c : FCfg K) (dim : Nat) (p : Sample K) (i e : Nat) (s : FState K)
    (he : e ≤ i) (hi : i < s.index.length) :
    (fmUpdate m c dim p i (s.index.getD i 0) e s).index.Perm s.index := by
  simp only [fmUpdate]
  exact swap_perm _ _ _ (by split <;> omega) hi

/-- Invariants of a pass: `P` is kept by every update; the order stays a permutation. -/
theorem fmScan_inv (m : Libm K) (c : FCfg K) (dim : Nat) (samples : List (Sample K)) (P : FState K → Prop)
    (hP : ∀ (s : FState K) (p : Sample K) (i idx e : Nat), P s → P (fmUpdate m c dim p i idx e s)) :
    ∀ (n i : Nat) (s : FState K) (e : Nat), P s → e ≤ i → i + n ≤ s.index.length →
      P (fmScan m c dim samples (List.range' i n) s e).1 ∧
      (fmScan m c dim samples (List.range' i n) s e).1.index.Perm s.index := by
  intro n
  induction n with
  | zero => intro i s e h _ _; simp [fmScan, h]
  | succ n ih =>
    intro i s e h he hi
    rw [List.range'_succ]
    simp only [fmScan]
    split
    · have hperm := fmUpdate_index m c dim (samples.getD (s.index.getD i 0) default) i e s he (by omega)
      obtain ⟨h1, h2⟩ := ih (i+1) _ (e+1) (hP s (samples.getD (s.index.getD i 0) default) i
        (s.index.getD i 0) e h) (by omega) (by rw [hperm.length_eq]; omega)
      exact ⟨h1, h2.trans hperm⟩
    · split
      · exact ⟨h, List.Perm.refl _⟩
      · exact ih (i+1) s e h (by omega) (by omega)

/-! ### dual fixed-margin perceptron -/

/-- What the cached function values should be. -/
def FuncOK (kv : Nat → Nat → K) (samples : List (Sample K)) (s : GState K) : Prop :=
  ∀ r, r < samples.length → s.func.getD r 0 = s.bias +
    ∑ i ∈ Finset.range samples.length, s.alphas.getD i 0 * (samples.getD i default).y * kv i r

structure GInv (kv : Nat → Nat → K) (samples : List (Sample K)) (s : GState K) : Prop where
  func : FuncOK kv samples s
  flen : samples.length ≤ s.func.length
  alen : samples.length ≤ s.alphas.length
  perm : s.index.Perm (List.range samples.length)

theorem GInv.update (m : Libm K) (c : FCfg K) {kv : Nat → Nat → K} {samples : List (Sample K)}
    {s s' : GState K} (h : GInv kv samples s) (i e : Nat) (he : e ≤ i) (hi : i < samples.length)
    (hu : gUpdate m c kv (samples.getD (s.index.getD i 0) default) i (s.index.getD i 0) e s = .ok s') :
    GInv kv samples s' := by
  obtain ⟨h1, h2, h3, h4⟩ := h
  have hil : i < s.index.length := by rw [h4.length_eq]; simpa using hi
  have hidx : s.index.getD i 0 < samples.length := by
    have : s.index.getD i 0 ∈ s.index := by rw [getD_lt _ _ _ hil]; exact List.getElem_mem hil
    simpa using h4.mem_iff.mp this
  unfold gUpdate at hu
  split at hu
  · cases hu
  simp only at hu
  generalize (if c.gamma ≠ 0 then 1 - c.rate * c.gamma / s.norm else 1) = lam at hu
  split at hu
  · cases hu
  cases hu
  refine ⟨?_, by simpa using h2, by simpa using h3, ?_⟩
  · intro r hr
    simp only
    have e1 : ∀ (g : Nat → K → K), (s.func.mapIdx g).getD r 0 = g r (s.func.getD r 0) := by
      intro g
      have : r < s.func.length := by omega
      simp [this]
    rw [e1, h1 r hr]
    have e2 : ∀ k, ((s.alphas.map (fun a => a * lam)).set (s.index.getD i 0)
        ((s.alphas.map (fun a => a * lam)).getD (s.index.getD i 0) 0 + c.rate)).getD k 0 *
        (samples.getD k default).y * kv k r =
        lam * (s.alphas.getD k 0 * (samples.getD k default).y * kv k r) +
        (if k = s.index.getD i 0 then c.rate * (samples.getD (s.index.getD i 0) default).y *
          kv (s.index.getD i 0) r else 0) := by
      intro k
      have em : ∀ k, (s.alphas.map (fun a => a * lam)).getD k 0 = s.alphas.getD k 0 * lam := by
        intro k
        simp only [List.getD_eq_getElem?_getD, List.getElem?_map]
        cases s.alphas[k]? <;> simp
      rw [set_getD_ite _ _ _ _ (by rw [List.length_map]; omega), em, em]
      by_cases hk : k = s.index.getD i 0
      · rw [if_pos hk, if_pos hk, hk]; ring
      · rw [if_neg hk, if_neg hk]; ring
    rw [Finset.sum_congr rfl (fun k _ => e2 k), Finset.sum_add_distrib, ← Finset.mul_sum,
      Finset.sum_ite_eq', if_pos (Finset.mem_range.mpr hidx)]
    ring
  · exact (swap_perm _ _ _ (by split <;> omega) hil).trans h4

theorem GInv.scan (m : Libm K) (c : FCfg K) {kv : Nat → Nat → K} {samples : List (Sample K)} :
    ∀ (n i : Nat) (s s' : GState K) (e e' : Nat), GInv kv samples s → e ≤ i → i + n ≤ samples.length →
      gScan m c kv samples (List.range' i n) s e = .ok (s', e') → GInv kv samples s' := by
  intro n
  induction n with
  | zero => intro i s s' e e' h _ _ hr; simp [gScan] at hr; rw [← hr.1]; exact h
  | succ n ih =>
    intro i s s' e e' h he hi hr
    rw [List.range'_succ] at hr
    simp only [gScan] at hr
    split at hr
    · split at hr
      · cases hr
      · rename_i s1 hu
        exact ih (i+1) _ _ _ _ (h.update m c i e he (by omega) hu) (by omega) (by omega) hr
    · split at hr
      · cases hr; exact h
      · exact ih (i+1) _ _ _ _ h (by omega) (by omega) hr

theorem gScan_zero (m : Libm K) (c : FCfg K) (kv : Nat → Nat → K) (samples : List (Sample K)) (l : List Nat)
    (s s' : GState K) (e : Nat) (h : gScan m c kv samples l s e = .ok (s', 0)) :
    e = 0 ∧ s' = s ∧ ∀ i ∈ l, 0 < (samples.getD (s.index.getD i 0) default).y *
      s.func.getD (s.index.getD i 0) 0 - c.gamma * s.norm := by
  have hmono : ∀ (l : List Nat) (s s' : GState K) (e e' : Nat), gScan m c kv samples l s e = .ok (s', e') → e ≤ e' := by
    intro l
    induction l with
    | nil => intro s s' e e' h; simp [gScan] at h; omega
    | cons i l ih =>
      intro s s' e e' h
      simp only [gScan] at h
      split at h
      · split at h
        · cases h
        · exact le_trans (Nat.le_succ e) (ih _ _ _ _ h)
      · split at h
        · cases h; exact le_refl _
        · exact ih _ _ _ _ h
  induction l generalizing s e with
  | nil => simp [gScan] at h; exact ⟨h.2, h.1.symm, by simp⟩
  | cons i l ih =>
    simp only [gScan] at h
    split at h
    · split at h
      · cases h
      · exact absurd (hmono _ _ _ _ _ h) (by omega)
    · rename_i hm
      split at h
      · rename_i hb; simp at h; omega
      · obtain ⟨h1, h2, h3⟩ := ih _ _ h
        refine ⟨h1, h2, ?_⟩
        intro j hj
        rcases List.mem_cons.mp hj with rfl | hj
        · exact not_le.mp hm
        · exact h3 j hj

/-- The loop ends in a state produced by a pass started from an invariant state. -/
theorem gLoop_last (m : Libm K) (c : FCfg K) (kv : Nat → Nat → K) (samples : List (Sample K))
    (clock : Nat → Bool) :
    ∀ (n k : Nat) (s s' : GState K) (e e' : Nat), GInv kv samples s → clock k = true →
      gLoop m c kv samples clock n k s e = .ok (s', e') →
      ∃ s1 s2, GInv kv samples s1 ∧ gScan m c kv samples (List.range samples.length) s1 0 = .ok (s2, e') ∧
        s' = { s2 with steps := s2.steps + 1 } := by
  intro n
  induction n with
  | zero =>
    intro k s s' e e' h hc hr
    rw [gLoop] at hr
    simp only [hc, if_true] at hr
    split at hr
    · cases hr
    · rename_i s1 e1 hs
      split at hr <;> (cases hr; exact ⟨s, s1, h, hs, rfl⟩)
  | succ n ih =>
    intro k s s' e e' h hc hr
    rw [gLoop] at hr
    simp only [hc, if_true] at hr
    split at hr
    · cases hr
    · rename_i s1 e1 hs
      split at hr
      · cases hr; exact ⟨s, s1, h, hs, rfl⟩
      · have hg : GInv kv samples s1 :=
          GInv.scan m c samples.length 0 s s1 0 e1 h (le_refl _) (by omega) (by rw [← List.range_eq_range']; exact hs)
        by_cases hk : clock (k+1) = true
        · exact ih (k+1) { s1 with steps := s1.steps + 1 } _ _ _ ⟨hg.func, hg.flen, hg.alen, hg.perm⟩ hk hr
        · have : gLoop m c kv samples clock n (k+1) { s1 with steps := s1.steps + 1 } e1
              = .ok ({ s1 with steps := s1.steps + 1 }, e1) := by
            cases n <;> (rw [gLoop]; simp [hk])
          rw [this] at hr
          cases hr
          exact ⟨s, s1, h, hs, rfl⟩

end

section
variable {K : Type} [Field K] [LinearOrder K]

theorem primalTrain_inv {m : Libm K} {cfg : Cfg K} {clock : Nat → Bool} {dim : Nat}
    {samples : List (Sample K)} {index : List Nat} {s0 s : PState K} {ok : Bool}
    (h : primalTrain m cfg clock dim samples index s0 = .ok (ok, s)) :
    ¬ (clock 0 = true ∧ inRange dim samples index (if s0.w = [] then List.replicate dim 0 else s0.w) = false) ∧
    ∀ r, epochs (primalPass m dim cfg.rate samples index)
      (fun s => s.steps > cfg.maxIt ∨ s.ctot > cfg.maxUp) clock (cfg.maxIt + 1 - s0.steps) 0
      { s0 with w := if s0.w = [] then List.replicate dim 0 else s0.w, bias := 0, norm := 0 } 0 = r →
    decide (r.2 = 0) = ok ∧ r.1 = s := by
  unfold primalTrain at h
  simp only at h
  generalize (if s0.w = [] then List.replicate dim 0 else s0.w) = w at h ⊢
  by_cases hc : clock 0 = true ∧ inRange dim samples index w = false
  · rw [if_pos hc] at h; cases h
  · rw [if_neg hc] at h
    refine ⟨hc, ?_⟩
    rintro r rfl
    exact Prod.mk.inj (Except.ok.inj h)

theorem fmTrain_inv {m : Libm K} {c : FCfg K} {clock : Nat → Bool} {dim : Nat}
    {samples : List (Sample K)} {s0 s : FState K} {ok : Bool}
    (h : fmTrain m c clock dim samples s0 = .ok (ok, s)) :
    ∀ r, epochs (fmPass m c dim samples) (fun s => s.steps > c.maxIt ∨ s.ctot > c.maxUp) clock
      (c.maxIt + 1 - s0.steps) 0
      { s0 with w := if s0.w = [] then List.replicate dim 0 else s0.w, s := 0, largw := 0, n := dim } 0 = r →
    decide (r.2 = 0) = ok ∧ r.1 = s := by
  unfold fmTrain at h
  simp only at h
  generalize (if s0.w = [] then List.replicate dim 0 else s0.w) = w at h ⊢
  by_cases hc : clock 0 = true ∧ (inRange dim samples s0.index w = false ∨ s0.alphas.length < samples.length)
  · rw [if_pos hc] at h; cases h
  · rw [if_neg hc] at h
    rintro r rfl
    exact Prod.mk.inj (Except.ok.inj h)

end

/-- Reading off an existential from an evaluation. -/
theorem ok_of_check {σ : Type} {r : Res (Bool × σ)} (P : σ → Prop) [DecidablePred P]
    (h : (match r with | .ok (true, s) => decide (P s) | _ => false) = true) :
    ∃ s, r = .ok (true, s) ∧ P s := by
  match r, h with
  | .ok (true, s), h => exact ⟨s, rfl, by simpa using h⟩

end MLTK.Perc
