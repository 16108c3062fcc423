import Verif.Props.DoubleBoost
/-!
# C242: one round of boosting in `double` arithmetic
-/
namespace MLTK.Spec
open MLTK.Fp

/-- What is assumed of `std::exp` up to the argument `top`: 1 at zero and a number between 1 and `2 ^ 300` after it. -/
structure GoodExp (exp : Dbl → Dbl) (top : ℚ) : Prop where
  zero : exp (.fin 0) = .fin 1
  range : ∀ x, IsDbl x → 0 ≤ x → x ≤ top → ∃ r, exp (.fin x) = .fin r ∧ 1 ≤ r ∧ r ≤ 2 ^ 300

/-- What is assumed of `std::log`: it does not decrease on positive numbers. -/
def GoodLog (log : Dbl → Dbl) : Prop :=
  ∀ x y, IsDbl x → IsDbl y → 0 < x → x ≤ y → ∃ a b, log (.fin x) = .fin a ∧ log (.fin y) = .fin b ∧ a ≤ b ∧ |a| ≤ 1000 ∧ |b| ≤ 1000

/-- The relative error of one rounding. -/
def unit : ℚ := 1 / 2 ^ 53

end MLTK.Spec

namespace MLTK.Props
open MLTK.Fp MLTK.Spec
open MLTK.Data (Res_bind_ok Res_bind_error Res_pure)

section
attribute [local irreducible] Fp.rnd Fp.near Fp.huge Fp.two

/-- A multiple of `2 ^ 300`. -/
theorem isDbl_big {k : ℕ} (hk : k ≤ 2 ^ 53) : IsDbl ((k : ℚ) * 2 ^ 300) := by
  have h0 : IsDbl (2 ^ 353 : ℚ) := by decide +kernel
  have h1 : near ((k : ℚ) * 2 ^ 300) = (k : ℚ) * 2 ^ 300 := by
    refine near_of_grid ⟨k, 300, ?_, by norm_num, ?_⟩
    · rw [abs_of_nonneg (by positivity)]; exact_mod_cast hk
    · rw [two_eq]; push_cast; rfl
  refine isDbl_iff.2 ⟨h1, ?_⟩
  have h2 := (isDbl_iff.1 h0).2
  refine lt_of_le_of_lt ?_ h2
  rw [abs_of_nonneg (by positivity), abs_of_nonneg (by positivity)]
  have : (2 : ℚ) ^ 353 = 2 ^ 53 * 2 ^ 300 := by rw [← pow_add]
  rw [this]
  exact mul_le_mul_of_nonneg_right (by exact_mod_cast hk) (by positivity)

theorem unit_pos : (0 : ℚ) < unit := by unfold unit; positivity
theorem unit_lt : unit < 1 := by unfold unit; norm_num

/-- Rounding a number that is not tiny. -/
theorem near_unit {q : ℚ} (h : 1 / 2 ^ 1000 ≤ q) : q * (1 - unit) ≤ near q ∧ near q ≤ q * (1 + unit) := by
  have h0 : (0 : ℚ) < 1 / 2 ^ 1000 := by positivity
  have e : two (-1022) ≤ (1 : ℚ) / 2 ^ 1000 := by
    rw [two_eq, zpow_neg, ← one_div]
    exact one_div_le_one_div_of_le (by positivity) (by exact_mod_cast pow_le_pow_right₀ (by norm_num : (1 : ℚ) ≤ 2) (by norm_num : 1000 ≤ 1022))
  have hq : 0 < q := h0.trans_le h
  have := near_rel (q := q) (by rw [abs_of_pos hq]; exact e.trans h)
  have e2 : two (-53) = unit := by rw [two_eq]; unfold unit; norm_num
  rw [abs_of_pos hq, e2, abs_le] at this
  constructor <;> linarith [this.1, this.2]

/-- Adding up numbers that are neither tiny nor huge. -/
theorem fold_rel : ∀ (l : List ℚ) (k : ℕ) (c : ℚ), k + l.length ≤ 2 ^ 53 → 0 ≤ c → c ≤ k * 2 ^ 300 →
    (∀ r ∈ l, 1 / 2 ^ 300 ≤ r ∧ r ≤ 2 ^ 300) → ∃ t, (l.map Dbl.fin).foldl Dbl.add (.fin c) = .fin t ∧
      (c + l.sum) * (1 - unit) ^ l.length ≤ t ∧ t ≤ (c + l.sum) * (1 + unit) ^ l.length ∧ t ≤ ((k + l.length : ℕ) : ℚ) * 2 ^ 300 := by
  intro l
  induction l with
  | nil => intro k c _ h0 h1 _; exact ⟨c, rfl, by simp, by simp, by simpa using h1⟩
  | cons r l ih =>
    intro k c hk h0 h1 hv
    obtain ⟨r0, r1⟩ := hv r (by simp)
    have hL : (0 : ℚ) < 1 / 2 ^ 300 := by positivity
    have hk' : k + 1 ≤ 2 ^ 53 := by simp only [List.length_cons] at hk; omega
    obtain ⟨y, y1, y2, y3, y4⟩ := rnd_between (q := c + r) (isDbl_nat (n := 0) (by norm_num)) (isDbl_big hk')
      (by push_cast; linarith) (by push_cast; rw [add_mul, one_mul]; linarith)
    have hsum : 0 ≤ l.sum := List.sum_nonneg (fun x hx => hL.le.trans (hv x (by simp [hx])).1)
    obtain ⟨t, t1, t2, t3, t4⟩ := ih (k + 1) y (by simp only [List.length_cons] at hk; omega) (by simpa using y2) y3
      (fun w hw => hv w (by simp [hw]))
    have hsmall : (1 : ℚ) / 2 ^ 1000 ≤ 1 / 2 ^ 300 := one_div_le_one_div_of_le (by positivity) (pow_le_pow_right₀ (by norm_num) (by norm_num))
    obtain ⟨n1, n2⟩ := near_unit (q := c + r) (by linarith)
    rw [← y4] at n1 n2
    have u0 := unit_pos
    have u1 := unit_lt
    have p1 : 0 < (1 - unit) ^ l.length := pow_pos (by linarith) _
    have p2 : 0 < (1 + unit) ^ l.length := pow_pos (by linarith) _
    have hus : 0 ≤ unit * l.sum := mul_nonneg u0.le hsum
    have e : (Dbl.fin c).add (.fin r) = .fin y := y1
    refine ⟨t, by rw [List.map_cons, List.foldl_cons, e, t1], ?_, ?_, ?_⟩
    · rw [List.sum_cons, List.length_cons, pow_succ]
      refine le_trans ?_ t2
      calc (c + (r + l.sum)) * ((1 - unit) ^ l.length * (1 - unit)) = ((c + r) * (1 - unit) + l.sum - unit * l.sum) * (1 - unit) ^ l.length := by ring
        _ ≤ (y + l.sum) * (1 - unit) ^ l.length := mul_le_mul_of_nonneg_right (by linarith) p1.le
    · rw [List.sum_cons, List.length_cons, pow_succ]
      refine t3.trans ?_
      calc (y + l.sum) * (1 + unit) ^ l.length ≤ ((c + r) * (1 + unit) + l.sum + unit * l.sum) * (1 + unit) ^ l.length :=
            mul_le_mul_of_nonneg_right (by linarith) p2.le
        _ = (c + (r + l.sum)) * ((1 + unit) ^ l.length * (1 + unit)) := by ring
    · rw [List.length_cons, show k + (l.length + 1) = k + 1 + l.length by omega]; exact t4

/-- **C242 (weights of the samples)** Let the weights of the samples be `double`s between `2 ^ -300` and 1 and let the estimator get a
weight `a ≥ 0`.  After the round all weights are positive and at most 1; they add up to 1 up to the stated relative error; and of two
samples of equal weight, one the estimator gets wrong and one it gets right, the former weighs at least as much. -/
theorem C242_weights_partial (log exp : Dbl → Dbl) (nc : Nat) (w : List ℚ) (miss : List Bool) (a : ℚ) (hne : w ≠ [])
    (hm : miss.length = w.length) (hn : w.length ≤ 2 ^ 53) (hw : ∀ q ∈ w, IsDbl q ∧ 1 / 2 ^ 300 ≤ q ∧ q ≤ 1)
    (ha : (adaRound log exp nc (w.map .fin) miss).2 = .fin a) (had : IsDbl a) (ha0 : 0 ≤ a) (hexp : GoodExp exp a) :
    ∃ v : List ℚ, (adaRound log exp nc (w.map .fin) miss).1 = v.map .fin ∧ v.length = w.length ∧ (∀ q ∈ v, 0 < q ∧ q ≤ 1) ∧
      v.sum * (1 - unit) ^ w.length ≤ 1 + unit ∧ 1 - unit ≤ v.sum * (1 + unit) ^ w.length ∧
      ∀ i j, w[i]? = w[j]? → miss[i]? = some true → miss[j]? = some false → v.getD j 0 ≤ v.getD i 0 := by
  have hL : (0 : ℚ) < 1 / 2 ^ 300 := by positivity
  have hH : (1 : ℚ) ≤ 2 ^ 300 := one_le_pow₀ (by norm_num)
  have dL : IsDbl (1 / 2 ^ 300 : ℚ) := by decide +kernel
  have dH : IsDbl (2 ^ 300 : ℚ) := by decide +kernel
  have d0 : IsDbl (0 : ℚ) := isDbl_nat (n := 0) (by norm_num)
  have h0 : rnd 0 = .fin 0 := d0
  -- the raised weight of one sample
  have hone : ∀ q ∈ w, ∀ b : Bool, ∃ r, (Dbl.fin q).mul (exp ((Dbl.fin a).mul (if b then Dbl.fin q else .fin 0))) = .fin r ∧
      q ≤ r ∧ r ≤ 2 ^ 300 ∧ (b = false → r = q) := by
    intro q hq b
    obtain ⟨q1, q2, q3⟩ := hw q hq
    have hq0 : 0 < q := hL.trans_le q2
    cases b with
    | false =>
      have e1 : (Dbl.fin a).mul (.fin 0) = .fin 0 := by simp only [Dbl.mul, mul_zero, h0]
      refine ⟨q, ?_, le_rfl, q3.trans hH, fun _ => rfl⟩
      simp only [Bool.false_eq_true, if_false, e1, hexp.zero]
      simp only [Dbl.mul, mul_one]; exact q1
    | true =>
      simp only [if_true]
      obtain ⟨x, x1, x2, x3, -⟩ := rnd_between (q := a * q) d0 had (mul_nonneg ha0 hq0.le) (mul_le_of_le_one_right ha0 q3)
      have e1 : (Dbl.fin a).mul (.fin q) = .fin x := x1
      obtain ⟨r, r1, r2, r3⟩ := hexp.range x (rnd_isDbl x1) x2 x3
      obtain ⟨z, z1, z2, z3, -⟩ := rnd_between (q := q * r) q1 dH (le_mul_of_one_le_right hq0.le r2)
        ((mul_le_of_le_one_left (by linarith) q3).trans r3)
      refine ⟨z, by rw [e1, r1]; exact z1, z2, z3, by simp⟩
  -- all raised weights
  obtain ⟨u, hu, hul, hub⟩ : ∃ u : List ℚ, List.zipWith (fun (x e : Dbl) => x.mul (exp ((Dbl.fin a).mul e))) (w.map .fin)
      (missWeights (w.map .fin) miss) = u.map .fin ∧ u.length = w.length ∧ ∀ i, ∀ q, w[i]? = some q → ∀ b, miss[i]? = some b →
        q ≤ u.getD i 0 ∧ u.getD i 0 ≤ 2 ^ 300 ∧ (b = false → u.getD i 0 = q) := by
    clear ha hne hn
    induction w generalizing miss with
    | nil => exact ⟨[], by simp, rfl, by simp⟩
    | cons q w ih =>
      cases miss with
      | nil => simp at hm
      | cons b miss =>
        obtain ⟨u, u1, u2, u3⟩ := ih miss (by simpa using hm) (fun q hq => hw q (by simp [hq])) (fun q hq => hone q (by simp [hq]))
        obtain ⟨r, r1, r2, r3, r4⟩ := hone q (by simp) b
        refine ⟨r :: u, ?_, by simp [u2], ?_⟩
        · simp only [missWeights, List.map_cons, List.zipWith_cons_cons] at u1 ⊢
          rw [u1, r1]
        · intro i q' hi b' hb
          cases i with
          | zero =>
            simp only [List.getElem?_cons_zero, Option.some.injEq] at hi hb
            subst hi; subst hb
            simpa using ⟨r2, r3, r4⟩
          | succ i =>
            simp only [List.getElem?_cons_succ] at hi hb
            simpa using u3 i q' hi b' hb
  have hur : ∀ r ∈ u, 1 / 2 ^ 300 ≤ r ∧ r ≤ 2 ^ 300 := by
    intro r hr
    obtain ⟨i, hi, rfl⟩ := List.mem_iff_getElem.1 hr
    have hi1 : i < w.length := hul ▸ hi
    have hi2 : i < miss.length := hm ▸ hi1
    obtain ⟨b1, b2, -⟩ := hub i w[i] (List.getElem?_eq_getElem hi1) miss[i] (List.getElem?_eq_getElem hi2)
    rw [List.getD_eq_getElem _ _ hi] at b1 b2
    exact ⟨((hw _ (List.getElem_mem hi1)).2.1).trans b1, b2⟩
  obtain ⟨t, t1, t2, t3, t4⟩ := fold_rel u 0 0 (by rw [hul]; simpa using hn) le_rfl (by simp) hur
  rw [zero_add] at t2 t3
  have hsumpos : 0 < u.sum := by
    have : u ≠ [] := by intro h; rw [h] at hul; exact hne (List.length_eq_zero_iff.1 hul.symm)
    obtain ⟨r, l, rfl⟩ := List.exists_cons_of_ne_nil this
    rw [List.sum_cons]
    have h1 := (hur r (by simp)).1
    have h2 : 0 ≤ l.sum := List.sum_nonneg (fun x hx => hL.le.trans (hur x (by simp [hx])).1)
    linarith
  have u0 := unit_pos
  have u1 := unit_lt
  have p1 : 0 < (1 - unit) ^ w.length := pow_pos (by linarith) _
  have p2 : 0 < (1 + unit) ^ w.length := pow_pos (by linarith) _
  rw [hul] at t2 t3 t4
  have ht : 0 < t := (mul_pos hsumpos p1).trans_le t2
  have htop : t ≤ 2 ^ 353 := by
    refine t4.trans ?_
    rw [zero_add, show (2 : ℚ) ^ 353 = 2 ^ 53 * 2 ^ 300 by rw [← pow_add]]
    exact mul_le_mul_of_nonneg_right (by exact_mod_cast hn) (by positivity)
  have hle : ∀ r ∈ u, r ≤ t := by
    intro r hr
    have hd : ∀ x ∈ u.map Dbl.fin, D0 x := by
      intro x hx
      rw [← hu] at hx
      obtain ⟨i, hi, rfl⟩ := List.mem_iff_getElem.1 hx
      have hi1 : i < w.length := by simpa [missWeights, hm] using hi
      have hi2 : i < miss.length := hm ▸ hi1
      rw [List.getElem_zipWith]
      simp only [missWeights, List.getElem_zipWith, List.getElem_map]
      obtain ⟨r, r1, r2, r3, r4⟩ := hone w[i] (List.getElem_mem hi1) miss[i]
      rw [r1]
      refine .inl ⟨r, rfl, ?_, (hL.le.trans (hw _ (List.getElem_mem hi1)).2.1).trans r2⟩
      cases hb : miss[i] with
      | false => rw [r4 hb]; exact (hw _ (List.getElem_mem hi1)).1
      | true =>
        rw [hb] at r1
        simp only [if_true, Dbl.mul] at r1
        revert r1
        generalize exp (rnd (a * w[i])) = E
        intro r1
        cases E with
        | fin e => exact rnd_isDbl r1
        | inf s => simp only at r1; split_ifs at r1
        | nan => simp at r1
    have := (sum_D0 (u.map Dbl.fin) hd _ zero_D0).2.2 (.fin r) (List.mem_map_of_mem hr)
    rw [t1] at this
    simpa [Dbl.le] using this
  have hquot : ∀ r ∈ u, rnd (r / t) = .fin (near (r / t)) ∧ 0 < near (r / t) ∧ near (r / t) ≤ 1 ∧
      r / t * (1 - unit) ≤ near (r / t) ∧ near (r / t) ≤ r / t * (1 + unit) := by
    intro r hr
    have hr0 := (hur r hr).1
    have hlow : (1 : ℚ) / 2 ^ 1000 ≤ r / t := by
      rw [le_div_iff₀ ht]
      calc 1 / 2 ^ 1000 * t ≤ 1 / 2 ^ 1000 * 2 ^ 353 := mul_le_mul_of_nonneg_left htop (by positivity)
        _ ≤ 1 / 2 ^ 300 := by
          rw [one_div_mul_eq_div, div_le_div_iff₀ (by positivity) (by positivity), one_mul, ← pow_add]
          exact pow_le_pow_right₀ (by norm_num) (by norm_num)
        _ ≤ r := hr0
    obtain ⟨x, x1, x2, x3, x4⟩ := rnd_between (q := r / t) d0 (isDbl_nat (n := 1) (by norm_num)) (by have := hL.trans_le hr0; positivity)
      (by push_cast; exact (div_le_one ht).2 (hle r hr))
    obtain ⟨n1, n2⟩ := near_unit hlow
    have hpos : 0 < r / t := lt_of_lt_of_le (by positivity) hlow
    exact ⟨by rw [x1, x4], lt_of_lt_of_le (mul_pos hpos (by linarith)) n1, by rw [← x4]; simpa using x3, n1, n2⟩
  have hres : (adaRound log exp nc (w.map .fin) miss).1 = (u.map (fun r => near (r / t))).map Dbl.fin := by
    have e : (adaRound log exp nc (w.map .fin) miss).1 = ((List.zipWith (fun (x e : Dbl) =>
        x.mul (exp ((adaRound log exp nc (w.map .fin) miss).2.mul e))) (w.map .fin) (missWeights (w.map .fin) miss)).map
        (fun x => x.div (Fp.total (List.zipWith (fun (x e : Dbl) => x.mul (exp ((adaRound log exp nc (w.map .fin) miss).2.mul e)))
          (w.map .fin) (missWeights (w.map .fin) miss))))) := rfl
    rw [e, ha, hu]
    have e2 : Fp.total (u.map Dbl.fin) = .fin t := t1
    rw [e2, List.map_map, List.map_map]
    refine List.map_congr_left (fun r hr => ?_)
    simp only [Function.comp]
    rw [div_fin ht, (hquot r hr).1]
  have hsum : ∀ l : List ℚ, (∀ r ∈ l, r ∈ u) → l.sum / t * (1 - unit) ≤ (l.map (fun r => near (r / t))).sum ∧
      (l.map (fun r => near (r / t))).sum ≤ l.sum / t * (1 + unit) := by
    intro l
    induction l with
    | nil => intro _; simp
    | cons r l ih =>
      intro h
      obtain ⟨i1, i2⟩ := ih (fun x hx => h x (by simp [hx]))
      obtain ⟨-, -, -, q1, q2⟩ := hquot r (h r (by simp))
      simp only [List.map_cons, List.sum_cons, add_div, add_mul]
      exact ⟨add_le_add q1 i1, add_le_add q2 i2⟩
  obtain ⟨s1, s2⟩ := hsum u (fun r h => h)
  refine ⟨u.map (fun r => near (r / t)), hres, by simp [hul], ?_, ?_, ?_, ?_⟩
  · intro q hq
    obtain ⟨r, hr, rfl⟩ := List.mem_map.1 hq
    exact ⟨(hquot r hr).2.1, (hquot r hr).2.2.1⟩
  · refine (mul_le_mul_of_nonneg_right s2 p1.le).trans ?_
    rw [div_mul_eq_mul_div, div_mul_eq_mul_div, div_le_iff₀ ht]
    calc u.sum * (1 + unit) * (1 - unit) ^ w.length = (1 + unit) * (u.sum * (1 - unit) ^ w.length) := by ring
      _ ≤ (1 + unit) * t := mul_le_mul_of_nonneg_left t2 (by linarith)
  · refine le_trans ?_ (mul_le_mul_of_nonneg_right s1 p2.le)
    rw [div_mul_eq_mul_div, div_mul_eq_mul_div, le_div_iff₀ ht]
    calc (1 - unit) * t ≤ (1 - unit) * (u.sum * (1 + unit) ^ w.length) := mul_le_mul_of_nonneg_left t3 (by linarith)
      _ = u.sum * (1 - unit) * (1 + unit) ^ w.length := by ring
  · intro i j hij hi hj
    have hi2 : i < miss.length := (List.getElem?_eq_some_iff.1 hi).1
    have hj2 : j < miss.length := (List.getElem?_eq_some_iff.1 hj).1
    have hi1 : i < w.length := hm ▸ hi2
    have hj1 : j < w.length := hm ▸ hj2
    obtain ⟨a1, -, -⟩ := hub i w[i] (List.getElem?_eq_getElem hi1) true hi
    obtain ⟨-, -, b3⟩ := hub j w[j] (List.getElem?_eq_getElem hj1) false hj
    have hi3 : i < u.length := hul ▸ hi1
    have hj3 : j < u.length := hul ▸ hj1
    rw [List.getD_eq_getElem _ _ hi3] at a1
    have b4 := b3 rfl
    rw [List.getD_eq_getElem _ _ hj3] at b4
    rw [List.getElem?_eq_getElem hi1, List.getElem?_eq_getElem hj1, Option.some.injEq] at hij
    rw [List.getD_eq_getElem _ _ (by simpa using hj3), List.getD_eq_getElem _ _ (by simpa using hi3), List.getElem_map, List.getElem_map]
    exact near_mono (div_le_div_of_nonneg_right (by rw [b4, ← hij]; exact a1) ht.le)

/-- **C242 (weights of the estimators)** Of two estimators the one with the smaller error, both between `2 ^ -1000` and 1, weighs at
least as much. -/
theorem C242_better_partial (log : Dbl → Dbl) (hlog : GoodLog log) (nc : Nat) (hc : ∃ l, log (Dbl.ofNat (decSize nc)) = .fin l ∧ |l| ≤ 1000)
    (e f : ℚ) (hd : IsDbl e) (hf : IsDbl f) (he0 : 1 / 2 ^ 1000 ≤ e) (hef : e ≤ f) (hf1 : f < 1) :
    ∃ x y, estimatorWeight log nc (.fin e) = .fin x ∧ estimatorWeight log nc (.fin f) = .fin y ∧ y ≤ x := by
  obtain ⟨l, hl, hl1⟩ := hc
  have hL : (0 : ℚ) < 1 / 2 ^ 1000 := by positivity
  have e0 : 0 < e := hL.trans_le he0
  have f0 : 0 < f := e0.trans_le hef
  have d0 : IsDbl (0 : ℚ) := isDbl_nat (n := 0) (by norm_num)
  have d1 : IsDbl (1 : ℚ) := isDbl_nat (n := 1) (by norm_num)
  -- 1 - e, rounded
  have hsub : ∀ g, IsDbl g → 0 < g → g < 1 → ∃ x, (Dbl.fin 1).sub (.fin g) = .fin x ∧ x = near (1 - g) ∧ 1 / 2 ^ 60 ≤ x ∧ x ≤ 1 := by
    intro g hg g0 g1
    obtain ⟨x, x1, x2, x3, x4⟩ := rnd_between (q := 1 - g) d0 d1 (by linarith) (by linarith)
    have hg' : g ≤ 1 - 1 / 2 ^ 53 := by
      by_contra hlt
      push Not at hlt
      have hm : near (1 - 1 / 2 ^ 53) = (1 - 1 / 2 ^ 53 : ℚ) := by
        refine near_of_grid ⟨2 ^ 53 - 1, -53, by norm_num, by norm_num, ?_⟩
        rw [two_eq]; norm_num
      obtain ⟨m, ex, m1, m2, m3⟩ := (isDbl_iff.1 hg).1 ▸ near_grid g
      have hex : two ex = (2 : ℚ) ^ ex := two_eq ex
      have hm0 : 0 < m := by
        by_contra hm0
        push Not at hm0
        have : (m : ℚ) * two ex ≤ 0 := mul_nonpos_of_nonpos_of_nonneg (by exact_mod_cast hm0) (two_pos _).le
        linarith
      by_cases hx53 : ex ≤ -54
      · have t54 : two ex ≤ 1 / 2 ^ 54 := by
          refine (two_le hx53).trans ?_
          rw [two_eq]; norm_num
        have hm1 : (m : ℚ) ≤ 2 ^ 53 := by
          have := (abs_le.1 m1).2
          exact_mod_cast this
        have : (m : ℚ) * two ex ≤ 2 ^ 53 * (1 / 2 ^ 54) := mul_le_mul hm1 t54 (two_pos _).le (by positivity)
        norm_num at this hlt
        linarith
      · push Not at hx53
        obtain ⟨k, k1, k2⟩ := two_div_int (a := ex) (b := -53) (by omega)
        have t53 : two (-53) = 1 / 2 ^ 53 := by rw [two_eq]; norm_num
        rw [k2, t53] at m3
        have h1 : (m : ℚ) * k < 2 ^ 53 := by
          have : g * 2 ^ 53 < 1 * 2 ^ 53 := mul_lt_mul_of_pos_right g1 (by positivity)
          rw [m3] at this
          calc (m : ℚ) * k = (m : ℚ) * (k * (1 / 2 ^ 53)) * 2 ^ 53 := by ring
            _ < 2 ^ 53 := by linarith
        have h2 : (2 : ℚ) ^ 53 - 1 < (m : ℚ) * k := by
          have : (1 - 1 / 2 ^ 53 : ℚ) * 2 ^ 53 < g * 2 ^ 53 := mul_lt_mul_of_pos_right hlt (by positivity)
          rw [m3] at this
          calc (2 : ℚ) ^ 53 - 1 = (1 - 1 / 2 ^ 53 : ℚ) * 2 ^ 53 := by norm_num
            _ < (m : ℚ) * (k * (1 / 2 ^ 53)) * 2 ^ 53 := this
            _ = (m : ℚ) * k := by ring
        have h1' : m * k < 2 ^ 53 := by exact_mod_cast h1
        have h2' : (2 : ℤ) ^ 53 - 1 < m * k := by exact_mod_cast h2
        omega
    obtain ⟨n1, -⟩ := near_unit (q := 1 - g) (by
      have : (1 : ℚ) / 2 ^ 1000 ≤ 1 / 2 ^ 53 := one_div_le_one_div_of_le (by positivity) (pow_le_pow_right₀ (by norm_num) (by norm_num))
      linarith)
    refine ⟨x, ?_, x4, ?_, x3⟩
    · rw [← x1]; simp only [Dbl.sub, Dbl.neg, Dbl.add]; rw [sub_eq_add_neg]
    · rw [x4]
      refine le_trans ?_ n1
      have h53 : (1 : ℚ) / 2 ^ 53 ≤ 1 - g := by linarith
      calc (1 : ℚ) / 2 ^ 60 ≤ 1 / 2 ^ 53 * (1 - unit) := by unfold unit; norm_num
        _ ≤ (1 - g) * (1 - unit) := mul_le_mul_of_nonneg_right h53 (by linarith [unit_lt])
  -- the odds
  have hodds : ∀ g, IsDbl g → 1 / 2 ^ 1000 ≤ g → g < 1 → ∃ x, ((Dbl.fin 1).sub (.fin g)).div (.fin g) = .fin x ∧
      x = near (near (1 - g) / g) ∧ 0 < x ∧ IsDbl x := by
    intro g hg g0 g1
    have hg0 : 0 < g := hL.trans_le g0
    obtain ⟨y, y1, y2, y3, y4⟩ := hsub g hg hg0 g1
    have dt : IsDbl (2 ^ 1000 : ℚ) := by decide +kernel
    have db : IsDbl (1 / 2 ^ 60 : ℚ) := by decide +kernel
    obtain ⟨x, x1, x2, x3, x4⟩ := rnd_between (q := y / g) db dt
      (by rw [le_div_iff₀ hg0]
          have : (1 : ℚ) / 2 ^ 60 * g ≤ 1 / 2 ^ 60 := mul_le_of_le_one_right (by positivity) g1.le
          linarith)
      (by rw [div_le_iff₀ hg0]
          have : (2 : ℚ) ^ 1000 * (1 / 2 ^ 1000) ≤ 2 ^ 1000 * g := mul_le_mul_of_nonneg_left g0 (by positivity)
          rw [mul_one_div, div_self (by positivity)] at this
          linarith)
    refine ⟨x, by rw [y1, div_fin hg0, x1], by rw [x4, y2], lt_of_lt_of_le (by positivity) x2, rnd_isDbl x1⟩
  obtain ⟨x, x1, x2, x3, x5⟩ := hodds e hd he0 (hef.trans_lt hf1)
  obtain ⟨y, y1, y2, y3, y5⟩ := hodds f hf (he0.trans hef) hf1
  have hyx : y ≤ x := by
    rw [x2, y2]
    refine near_mono ?_
    have h1 : near (1 - f) ≤ near (1 - e) := near_mono (by linarith)
    have h2 : 0 ≤ near (1 - e) := near_nonneg (by linarith)
    calc near (1 - f) / f ≤ near (1 - e) / f := div_le_div_of_nonneg_right h1 f0.le
      _ ≤ near (1 - e) / e := div_le_div_of_nonneg_left h2 e0 hef
  obtain ⟨a, b, ha, hb, hab, ha1, hb1⟩ := hlog y x y5 x5 y3 hyx
  have l1 : (Dbl.fin 0).lt (.fin e) = true := by simpa [Dbl.lt] using e0
  have l2 : (Dbl.fin 0).lt (.fin f) = true := by simpa [Dbl.lt] using f0
  rw [abs_le] at ha1 hb1 hl1
  have dl : IsDbl (-2000 : ℚ) := by
    have := (isDbl_nat (n := 2000) (by norm_num)).neg
    exact_mod_cast this
  have dh : IsDbl (2000 : ℚ) := isDbl_nat (n := 2000) (by norm_num)
  obtain ⟨p, p1, -, -, p4⟩ := rnd_between (q := b + l) dl dh (by linarith [hb1.1, hl1.1]) (by linarith [hb1.2, hl1.2])
  obtain ⟨q, q1, -, -, q4⟩ := rnd_between (q := a + l) dl dh (by linarith [ha1.1, hl1.1]) (by linarith [ha1.2, hl1.2])
  refine ⟨p, q, ?_, ?_, by rw [p4, q4]; exact near_mono (by linarith)⟩
  · unfold estimatorWeight
    rw [if_pos l1, x1, hb, hl]; exact p1
  · unfold estimatorWeight
    rw [if_pos l2, y1, ha, hl]; exact q1

end

/-- **C242 (a single mistaken sample)** With one sample and an estimator that gets it wrong, the weight of the estimator is `-inf` and the
weight of the sample becomes NaN. -/
theorem C242_only_mistakes_refuted (log exp : Dbl → Dbl) (hlog : log (.fin 0) = .inf true) (hlog1 : log (.fin 1) = .fin 0)
    (hexp : exp (.inf true) = .fin 0) : adaRound log exp 2 [.fin 1] [true] = ([.nan], .inf true) := by
  have e : (pointDot [.fin 1] (missWeights [.fin 1] [true])).div (Fp.total [.fin 1]) = .fin 1 := by decide +kernel
  have e1 : ((Dbl.fin 1).sub (.fin 1)).div (.fin 1) = .fin 0 := by decide +kernel
  have e2 : Dbl.ofNat (decSize 2) = .fin 1 := by decide +kernel
  have ha : estimatorWeight log 2 (.fin 1) = .inf true := by
    unfold estimatorWeight
    rw [e1, e2, hlog, hlog1]; rfl
  unfold adaRound
  simp only [e, ha]
  have e3 : missWeights [.fin 1] [true] = [.fin 1] := rfl
  have e4 : (Dbl.inf true).mul (.fin 1) = .inf true := by decide +kernel
  simp only [e3, List.zipWith_cons_cons, List.zipWith_nil_left, e4, hexp]
  have e5 : (Dbl.fin 1).mul (.fin 0) = .fin 0 := by decide +kernel
  simp only [e5, List.map_cons, List.map_nil]
  decide +kernel

/-- The hypotheses are met: four samples, one of them mistaken. -/
example : GoodExp (fun v => if v = .fin 0 then .fin 1 else .fin 2) 3 ∧ GoodLog (fun v => if v.lt (.fin 1) then .fin 0 else .fin 1) ∧
    (adaRound (fun v => if v.lt (.fin 2) then .fin 0 else .fin 3) (fun v => if v = .fin 0 then .fin 1 else .fin 2) 2
      ([1 / 4, 1 / 4, 1 / 4, 1 / 4].map .fin) [true, false, false, false]).2 = .fin 3 ∧
    (adaRound (fun v => if v.lt (.fin 2) then .fin 0 else .fin 3) (fun v => if v = .fin 0 then .fin 1 else .fin 2) 2
      ([1 / 4, 1 / 4, 1 / 4, 1 / 4].map .fin) [true, false, false, false]).1 =
      [rnd (2 / 5), rnd (1 / 5), rnd (1 / 5), rnd (1 / 5)] := by
  refine ⟨⟨by simp, fun x _ h0 h1 => ?_⟩, fun x y _ _ h0 h => ?_, by decide +kernel, by decide +kernel⟩
  · by_cases hx : x = 0
    · exact ⟨1, by simp [hx], le_rfl, one_le_pow₀ (by norm_num)⟩
    · refine ⟨2, by simp [hx], by norm_num, ?_⟩
      exact le_self_pow₀ (by norm_num) (by norm_num)
  · by_cases hy : y < 1
    · exact ⟨0, 0, by simp [Dbl.lt, h.trans_lt hy], by simp [Dbl.lt, hy], le_rfl, by norm_num, by norm_num⟩
    · by_cases hx : x < 1
      · exact ⟨0, 1, by simp [Dbl.lt, hx], by simp [Dbl.lt, hy], by norm_num, by norm_num, by norm_num⟩
      · exact ⟨1, 1, by simp [Dbl.lt, hx], by simp [Dbl.lt, hy], le_rfl, by norm_num, by norm_num⟩

end MLTK.Props
