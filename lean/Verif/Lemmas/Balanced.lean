import Mathlib.Tactic.Ring
import Mathlib.Tactic.Linarith
import Mathlib.Tactic.LinearCombination
import Verif.Model.Balanced
import Verif.Lemmas.Util
import Verif.Lemmas.Point
import Verif.Lemmas.Perceptron
/-!
# Lemmas about the balanced perceptron
-/
namespace MLTK.Bal
open MLTK.Perc MLTK.Spec
open MLTK.Data (Res_bind_ok Res_bind_error Res_pure)

section
variable {K : Type} [Field K]

theorem zipWith_sum_ip (w x : List K) (h : w.length = x.length) :
    (List.zipWith (· * ·) w x).sum = ip w.length w x := by
  induction w generalizing x with
  | nil => simp [ip]
  | cons a w ih =>
    cases x with
    | nil => simp at h
    | cons b x =>
      simp only [List.zipWith_cons_cons, List.sum_cons, List.length_cons]
      rw [ih x (by simpa using h), ip, ip, Finset.sum_range_succ', add_comm]
      simp

theorem dot_ok {dim : Nat} {w x : List K} (hw : w.length = dim) (hx : x.length = dim) :
    PointM.dot w x = .ok (ip dim w x) := by
  rw [PointM.dot, if_pos (by omega), PointM.dotLoop_eq, zero_add, zipWith_sum_ip w x (by omega), hw]

/-- The weights after a correction. -/
def moved (rate : K) (p : Sample K) (w : List K) : List K := List.zipWith (fun a x => a + rate * x * p.y) w p.x

theorem moved_length {dim : Nat} {rate : K} {p : Sample K} {w : List K} (hw : w.length = dim) (hx : p.x.length = dim) :
    (moved rate p w).length = dim := by simp [moved, hw, hx]

theorem balUpdate_ok {dim : Nat} {rate : K} {p : Sample K} {s : BState K} (hw : s.w.length = dim)
    (hx : p.x.length = dim) : balUpdate rate p s = .ok ⟨moved rate p s.w, s.bias + rate * s.bias, s.ite + 1⟩ := by
  rw [balUpdate, PointM.compound, if_pos (by omega), Res_bind_ok, Res_pure]
  rfl

theorem ip_moved {dim : Nat} {rate : K} {p : Sample K} {w : List K} (hw : w.length = dim) (hx : p.x.length = dim)
    (u : List K) : ip dim u (moved rate p w) = ip dim u w + rate * p.y * ip dim u p.x := by
  unfold ip
  rw [Finset.mul_sum, ← Finset.sum_add_distrib]
  refine Finset.sum_congr rfl (fun j hj => ?_)
  have hj' := Finset.mem_range.mp hj
  have h1 : j < w.length := by omega
  have h2 : j < p.x.length := by omega
  simp only [moved, List.getD_eq_getElem?_getD, List.getElem?_zipWith, List.getElem?_eq_getElem h1,
    List.getElem?_eq_getElem h2, Option.getD_some]
  ring

end

section
variable {K : Type} [Field K] [LinearOrder K]

/-- One epoch: an invariant kept by corrections of mistaken samples holds afterwards; every error is an update; without
errors nothing changed and every sample was answered correctly. -/
theorem balScan_spec (c : BCfg K) {dim : Nat} (P : BState K → Prop) (samples : List (Sample K))
    (hs : ∀ p ∈ samples, p.x.length = dim)
    (hP : ∀ p ∈ samples, ∀ s : BState K, s.w.length = dim → s.bias = 0 → P s → p.y ≠ balPredict (ip dim s.w p.x) →
      P ⟨moved c.rate p s.w, 0, s.ite + 1⟩)
    (s : BState K) (hw : s.w.length = dim) (hb : s.bias = 0) (h0 : P s)
    (hle : s.ite ≤ c.maxUp) (e : Nat) :
    ∃ s' e' stop, balScan c samples s e = .ok (s', e', stop) ∧ s'.w.length = dim ∧ s'.bias = 0 ∧ P s' ∧
      e ≤ e' ∧ s'.ite + e = s.ite + e' ∧ (stop = true → c.maxUp < s'.ite ∧ e < e') ∧ (stop = false → s'.ite ≤ c.maxUp) ∧
      (e' = e → s' = s ∧ ∀ p ∈ samples, p.y = balPredict (ip dim s.w p.x)) := by
  induction samples generalizing s e with
  | nil => exact ⟨s, e, false, rfl, hw, hb, h0, le_refl _, rfl, by simp, fun _ => hle, by simp⟩
  | cons p rest ih =>
    have hp := hs p (by simp)
    have ih' := ih (fun q hq => hs q (by simp [hq])) (fun q hq => hP q (by simp [hq]))
    rw [balScan, dot_ok hw hp, Res_bind_ok, hb, add_zero]
    by_cases hy : p.y = balPredict (ip dim s.w p.x)
    · rw [if_neg (by simpa using hy), if_neg (by omega)]
      obtain ⟨s', e', stop, h1, h2, h3, h4, h5, h6, h7, h7', h8⟩ := ih' s hw hb h0 hle e
      refine ⟨s', e', stop, h1, h2, h3, h4, h5, h6, h7, h7', fun he => ?_⟩
      obtain ⟨ha, hb'⟩ := h8 he
      refine ⟨ha, fun q hq => ?_⟩
      rcases List.mem_cons.mp hq with rfl | hq
      · exact hy
      · exact hb' q hq
    · rw [if_pos (by simpa using hy), balUpdate_ok hw hp, Res_bind_ok, hb, mul_zero, add_zero]
      have hP1 := hP p (by simp) s hw hb h0 hy
      by_cases hm : s.ite + 1 > c.maxUp
      · simp only [hm, if_true]
        exact ⟨_, e + 1, true, rfl, moved_length hw hp, rfl, hP1, by omega, by simp; omega, fun _ => ⟨hm, by omega⟩,
          by simp, by omega⟩
      · simp only [hm, if_false]
        obtain ⟨s', e', stop, h1, h2, h3, h4, h5, h6, h7, h7', h8⟩ :=
          ih' ⟨moved c.rate p s.w, 0, s.ite + 1⟩ (moved_length hw hp) rfl hP1 (by simp; omega) (e + 1)
        simp only at h6
        exact ⟨s', e', stop, h1, h2, h3, h4, by omega, by omega, fun h => ⟨(h7 h).1, by have := (h7 h).2; omega⟩, h7',
          fun he => by omega⟩

/-- The whole loop: an invariant holds at the end; a last epoch without errors answered all samples correctly; errors in
the last epoch mean that a limit was reached. -/
theorem balLoop_spec (c : BCfg K) (late : Nat → Bool) {dim : Nat} (P : BState K → Prop) (samples : List (Sample K))
    (hs : ∀ p ∈ samples, p.x.length = dim)
    (hP : ∀ p ∈ samples, ∀ s : BState K, s.w.length = dim → s.bias = 0 → P s → p.y ≠ balPredict (ip dim s.w p.x) →
      P ⟨moved c.rate p s.w, 0, s.ite + 1⟩)
    (n epoch : Nat) (s : BState K) (hw : s.w.length = dim) (hb : s.bias = 0) (h0 : P s) (hle : s.ite ≤ c.maxUp) (e : Nat) :
    ∃ s' e', balLoop c late samples n epoch s e = .ok (s', e') ∧ s'.w.length = dim ∧ s'.bias = 0 ∧ P s' ∧
      ((0 < n ∨ e ≠ 0) → e' = 0 → ∀ p ∈ samples, p.y = balPredict (ip dim s'.w p.x)) ∧
      (e' = 0 ∨ c.maxUp < s'.ite ∨ (∃ k, late k = true) ∨ n + s.ite ≤ s'.ite) := by
  induction n generalizing epoch s e with
  | zero => exact ⟨s, e, rfl, hw, hb, h0, fun h he => by omega, .inr (.inr (.inr (by omega)))⟩
  | succ n ih =>
    obtain ⟨s1, e1, stop, h1, h2, h3, h4, h5, h6, h7, h7', h8⟩ := balScan_spec c P samples hs hP s hw hb h0 hle 0
    rw [balLoop, h1, Res_bind_ok]
    by_cases hst : stop = true ∨ late (epoch + 1) = true ∨ e1 = 0
    · simp only [hst, if_true]
      refine ⟨s1, e1, rfl, h2, h3, h4, fun _ he => ?_, ?_⟩
      · obtain ⟨ha, hb'⟩ := h8 he
        rw [ha]
        exact hb'
      · rcases hst with h | h | h
        · exact .inr (.inl (h7 h).1)
        · exact .inr (.inr (.inl ⟨_, h⟩))
        · exact .inl h
    · simp only [hst, if_false]
      push Not at hst
      obtain ⟨s', e', g1, g2, g3, g4, g5, g6⟩ := ih (epoch + 1) s1 h2 h3 h4 (h7' (by simpa using hst.1)) e1
      refine ⟨s', e', g1, g2, g3, g4, fun _ he => g5 (.inr hst.2.2) he, ?_⟩
      rcases g6 with h | h | h | h
      · exact .inl h
      · exact .inr (.inl h)
      · exact .inr (.inr (.inl h))
      · exact .inr (.inr (.inr (by have := hst.2.2; omega)))

/-- The least value over a class, as the second loop finds it: a lower bound of the class that is attained (or `big`). -/
theorem balGammas_spec {dim : Nat} (w : List K) (hw : w.length = dim) (b : K) (samples : List (Sample K))
    (hs : ∀ p ∈ samples, p.x.length = dim) (g : K × K) :
    ∃ g', balGammas w b samples g = .ok g' ∧
      g'.1 ≤ g.1 ∧ g'.2 ≤ g.2 ∧
      (∀ p ∈ samples, p.y = 1 → g'.1 ≤ affine dim w b p.x) ∧
      (∀ p ∈ samples, p.y = -1 → g'.2 ≤ - affine dim w b p.x) ∧
      (g'.1 = g.1 ∨ ∃ p ∈ samples, p.y = 1 ∧ g'.1 = affine dim w b p.x) ∧
      (g'.2 = g.2 ∨ ∃ p ∈ samples, p.y = -1 ∧ g'.2 = - affine dim w b p.x) := by
  induction samples generalizing g with
  | nil => exact ⟨g, rfl, le_refl _, le_refl _, by simp, by simp, .inl rfl, .inl rfl⟩
  | cons p rest ih =>
    have hp := hs p (by simp)
    rw [balGammas, dot_ok hw hp, Res_bind_ok]
    have hf : p.y * (ip dim w p.x + b) = p.y * affine dim w b p.x := rfl
    simp only [hf]
    obtain ⟨g', h1, h2, h3, h4, h5, h6, h7⟩ := ih (fun q hq => hs q (by simp [hq]))
      (if p.y = 1 ∧ p.y * affine dim w b p.x < g.1 then p.y * affine dim w b p.x else g.1,
        if p.y = -1 ∧ p.y * affine dim w b p.x < g.2 then p.y * affine dim w b p.x else g.2)
    simp only at h2 h3 h6 h7
    refine ⟨g', h1, ?_, ?_, ?_, ?_, ?_, ?_⟩
    · refine h2.trans ?_
      split
      · rename_i h; exact h.2.le
      · exact le_refl _
    · refine h3.trans ?_
      split
      · rename_i h; exact h.2.le
      · exact le_refl _
    · intro q hq hy
      rcases List.mem_cons.mp hq with rfl | hq
      · refine h2.trans ?_
        rw [hy, one_mul]
        split
        · exact le_refl _
        · rename_i h
          rw [not_and, not_lt] at h
          exact h rfl
      · exact h4 q hq hy
    · intro q hq hy
      rcases List.mem_cons.mp hq with rfl | hq
      · refine h3.trans ?_
        rw [hy, neg_one_mul]
        split
        · exact le_refl _
        · rename_i h
          rw [not_and, not_lt] at h
          exact h rfl
      · exact h5 q hq hy
    · rcases h6 with h | ⟨q, hq, h⟩
      · split at h
        · rename_i hc
          exact .inr ⟨p, by simp, hc.1, by rw [h, hc.1, one_mul]⟩
        · exact .inl h
      · exact .inr ⟨q, by simp [hq], h⟩
    · rcases h7 with h | ⟨q, hq, h⟩
      · split at h
        · rename_i hc
          exact .inr ⟨p, by simp, hc.1, by rw [h, hc.1, neg_one_mul]⟩
        · exact .inl h
      · exact .inr ⟨q, by simp [hq], h⟩

end

section
variable {K : Type} [Field K] [LinearOrder K] [IsStrictOrderedRing K]

/-- The shift moves the bias by half the difference of the two least values, if these are not negative. -/
theorem balShift_eq (b : K) (g : K × K) (h1 : 0 ≤ g.1) (h2 : 0 ≤ g.2) : balShift b g = b + (g.2 - g.1) / 2 := by
  have e : ∀ a c : K, a ≤ c → |(a + c) / 2 - a| = (c - a) / 2 := by
    intro a c h
    rw [show (a + c) / 2 - a = (c - a) / 2 by ring, abs_of_nonneg (by linarith)]
  simp only [balShift]
  rw [abs_of_nonneg h1, abs_of_nonneg h2]
  rcases lt_trichotomy g.1 g.2 with h | h | h
  · rw [if_pos h, if_neg (by linarith), e _ _ h.le]
  · rw [if_neg (by rw [h]; exact lt_irrefl _), if_neg (by rw [h]; exact lt_irrefl _), e _ _ h.le, h]
    ring
  · rw [if_neg (by linarith), if_pos h, add_comm g.1 g.2, e _ _ h.le]
    ring

omit [IsStrictOrderedRing K] in
theorem balPredict_pm (f : K) : balPredict f = 1 ∨ balPredict f = -1 := by
  unfold balPredict; split
  · exact .inl rfl
  · exact .inr rfl

theorem balPredict_pos {f : K} (h : (1 : K) = balPredict f) : 0 ≤ f := by
  unfold balPredict at h
  split at h
  · assumption
  · exfalso; linarith

theorem balPredict_neg {f : K} (h : (-1 : K) = balPredict f) : f < 0 := by
  unfold balPredict at h
  split at h
  · exfalso; linarith
  · linarith

/-- A mistaken sample of label plus or minus one is not strictly on its side. -/
theorem balPredict_wrong {y f : K} (hy : y = 1 ∨ y = -1) (h : y ≠ balPredict f) : y * f ≤ 0 := by
  unfold balPredict at h
  rcases hy with rfl | rfl <;> split at h <;> first
    | exact absurd rfl h
    | linarith

/-- The quantities of Novikoff's argument for a trainer without bias, from arbitrary start weights. -/
structure BalInv (dim : Nat) (rate gamma R2 : K) (u w0 : List K) (s : BState K) : Prop where
  lower : ip dim u w0 + (s.ite : K) * (rate * gamma) ≤ ip dim u s.w
  upper : ip dim s.w s.w ≤ ip dim w0 w0 + (s.ite : K) * (rate ^ 2 * R2)

theorem BalInv.step {dim : Nat} {rate gamma R2 : K} {u w0 : List K} {s : BState K} (h : BalInv dim rate gamma R2 u w0 s)
    (hr : 0 < rate) {p : Sample K} (hw : s.w.length = dim) (hp : p.x.length = dim) (hy : p.y = 1 ∨ p.y = -1)
    (hu : gamma ≤ p.y * ip dim u p.x) (hR : ip dim p.x p.x ≤ R2) (hm : p.y ≠ balPredict (ip dim s.w p.x)) :
    BalInv dim rate gamma R2 u w0 ⟨moved rate p s.w, 0, s.ite + 1⟩ := by
  have hy2 : p.y ^ 2 = 1 := by rcases hy with h | h <;> rw [h] <;> ring
  constructor
  · simp only
    rw [ip_moved hw hp]
    push_cast
    have := mul_le_mul_of_nonneg_left hu hr.le
    have := h.lower
    linarith
  · simp only
    rw [ip_moved hw hp, ip_comm dim (moved rate p s.w) s.w, ip_comm dim (moved rate p s.w) p.x, ip_moved hw hp,
      ip_moved hw hp]
    have h1 := balPredict_wrong hy hm
    have h2 : rate ^ 2 * ip dim p.x p.x ≤ rate ^ 2 * R2 := mul_le_mul_of_nonneg_left hR (sq_nonneg _)
    have h3 := h.upper
    have h4 : rate * (p.y * ip dim s.w p.x) ≤ 0 := mul_nonpos_of_nonneg_of_nonpos hr.le h1
    rw [ip_comm dim p.x s.w]
    push_cast
    have e : ip dim s.w s.w + rate * p.y * ip dim s.w p.x + rate * p.y * (ip dim s.w p.x + rate * p.y * ip dim p.x p.x)
        = ip dim s.w s.w + 2 * (rate * (p.y * ip dim s.w p.x)) + rate ^ 2 * ip dim p.x p.x * p.y ^ 2 := by ring
    rw [e, hy2]
    linarith

theorem BalInv.bound {dim : Nat} {rate gamma R2 : K} {u w0 : List K} {s : BState K} (h : BalInv dim rate gamma R2 u w0 s)
    (hr : 0 < rate) (hg : 0 < gamma) (hR : 0 ≤ R2) (hu : ip dim u u ≤ 1) :
    (s.ite : K) * (rate * gamma) ^ 2 ≤ rate ^ 2 * R2 + 2 * (rate * gamma) * |ip dim u w0| + ip dim w0 w0 := by
  have hw0 := ip_self_nonneg dim w0
  have hrg : 0 < rate * gamma := mul_pos hr hg
  have hcs := cauchy dim u s.w 0 0
  have hsw := ip_self_nonneg dim s.w
  have hcs' : ip dim u s.w ^ 2 ≤ ip dim s.w s.w := by
    have : ip dim u u * ip dim s.w s.w ≤ 1 * ip dim s.w s.w := mul_le_mul_of_nonneg_right hu hsw
    simp only [mul_zero, add_zero, ne_eq, OfNat.ofNat_ne_zero, not_false_eq_true, zero_pow] at hcs
    linarith
  have hk : (0 : K) ≤ (s.ite : K) := Nat.cast_nonneg _
  have hrR : 0 ≤ rate ^ 2 * R2 := mul_nonneg (sq_nonneg _) hR
  have hc := neg_abs_le (ip dim u w0)
  have hc0 := abs_nonneg (ip dim u w0)
  set c := |ip dim u w0| with hcdef
  by_cases hneg : (s.ite : K) * (rate * gamma) ≤ c
  · have := mul_le_mul_of_nonneg_right hneg hrg.le
    have h5 : 0 ≤ rate * gamma * c := mul_nonneg hrg.le hc0
    nlinarith
  · push Not at hneg
    have hk1 : 1 ≤ s.ite := by
      rcases Nat.eq_zero_or_pos s.ite with h0 | h0
      · rw [h0] at hneg; simp at hneg; linarith
      · exact h0
    have hk1' : (1 : K) ≤ (s.ite : K) := by exact_mod_cast hk1
    have hlow : (s.ite : K) * (rate * gamma) - c ≤ ip dim u s.w := by have := h.lower; linarith
    have hsq : ((s.ite : K) * (rate * gamma) - c) ^ 2 ≤ ip dim u s.w ^ 2 :=
      pow_le_pow_left₀ (by linarith) hlow 2
    have hmain : ((s.ite : K) * (rate * gamma) - c) ^ 2 ≤ ip dim w0 w0 + (s.ite : K) * (rate ^ 2 * R2) :=
      hsq.trans (hcs'.trans h.upper)
    -- divide by the number of updates
    have hfin : (s.ite : K) * ((s.ite : K) * (rate * gamma) ^ 2) ≤
        (s.ite : K) * (rate ^ 2 * R2 + 2 * (rate * gamma) * c + ip dim w0 w0) := by
      have : ip dim w0 w0 ≤ (s.ite : K) * ip dim w0 w0 := le_mul_of_one_le_left hw0 hk1'
      nlinarith [sq_nonneg c]
    exact le_of_mul_le_mul_left hfin (by linarith)

end
end MLTK.Bal
