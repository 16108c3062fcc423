import Verif.Model.DoubleRatio
import Verif.Props.DoubleScore
import Verif.Props.DoubleLms
/-!
# C241: the distances made of quotients in `double` arithmetic
-/
namespace MLTK.Spec
open MLTK.Fp MLTK.Props

/-- What a distance functor should give for two points: the same nonnegative or infinite `double` in both directions, never NaN, and
zero for equal points. -/
def Dissimilar (f : List Dbl → List Dbl → Res Dbl) (p q : List ℚ) : Prop :=
  ∃ d, f (p.map Dbl.fin) (q.map Dbl.fin) = .ok d ∧ f (q.map Dbl.fin) (p.map Dbl.fin) = .ok d ∧
    (d = .inf false ∨ ∃ r, d = .fin r ∧ IsDbl r ∧ 0 ≤ r) ∧ (p = q → d = .fin 0)

/-- In no place both points are zero. -/
def NoCommonZero (p q : List ℚ) : Prop := ∀ a b, (a, b) ∈ p.zip q → ¬ (a = 0 ∧ b = 0)

end MLTK.Spec

namespace MLTK.Props
open MLTK.Spec MLTK.Fp
open MLTK.Data (Res_bind_ok Res_bind_error Res_pure)

section
attribute [local irreducible] Fp.rnd Fp.near Fp.huge Fp.two

theorem pointwise_fin (t : Dbl → Dbl → Dbl) {p q : List ℚ} (hl : p.length = q.length) :
    pointwise t (p.map Dbl.fin) (q.map Dbl.fin) = .ok (List.zipWith (fun a b => t (.fin a) (.fin b)) p q) := by
  unfold pointwise
  rw [if_pos (by simpa using hl), List.zipWith_map]

/-- A functor that adds up a term per place and then applies a function. -/
theorem dissimilar_of (t : Dbl → Dbl → Dbl) (g : Nat → Dbl → Dbl) {p q : List ℚ} (hl : p.length = q.length)
    (hg : ∀ v, D0 v → D0 (g p.length v)) (hg0 : g p.length (.fin 0) = .fin 0)
    (hD : ∀ a b, (a, b) ∈ p.zip q → D0 (t (.fin a) (.fin b)) ∧ t (.fin a) (.fin b) = t (.fin b) (.fin a) ∧
      (a = b → t (.fin a) (.fin b) = .fin 0)) :
    Dissimilar (fun p q => do let d ← pointwise t p q; return g p.length (total d)) p q := by
  have hcomm : List.zipWith (fun a b => t (.fin a) (.fin b)) q p = List.zipWith (fun a b => t (.fin a) (.fin b)) p q := by
    rw [List.zipWith_comm]
    apply List.ext_getElem
    · simp
    · intro i h1 h2
      simp only [List.getElem_zipWith]
      have hi : i < (p.zip q).length := by simpa using h2
      have hm := List.getElem_mem hi
      rw [List.getElem_zip] at hm
      exact (hD _ _ hm).2.1.symm
  have hmem : ∀ x ∈ List.zipWith (fun a b => t (.fin a) (.fin b)) p q, ∃ a b, (a, b) ∈ p.zip q ∧ x = t (.fin a) (.fin b) := by
    intro x hx
    obtain ⟨i, hi, rfl⟩ := List.mem_iff_getElem.1 hx
    have hi' : i < (p.zip q).length := by simpa using hi
    have hm := List.getElem_mem hi'
    rw [List.getElem_zip] at hm
    exact ⟨_, _, hm, by rw [List.getElem_zipWith]⟩
  have hsum := sum_D0 (List.zipWith (fun a b => t (.fin a) (.fin b)) p q)
    (fun x hx => by obtain ⟨a, b, hm, rfl⟩ := hmem x hx; exact (hD a b hm).1) _ zero_D0
  refine ⟨g p.length (total (List.zipWith (fun a b => t (.fin a) (.fin b)) p q)), ?_, ?_, ?_, ?_⟩
  · simp only [pointwise_fin t hl, Res_bind_ok, Res_pure, List.length_map]
  · simp only [pointwise_fin t hl.symm, Res_bind_ok, Res_pure, List.length_map, hcomm, hl]
  · rcases hg _ hsum.1 with ⟨r, h1, h2, h3⟩ | h
    · exact .inr ⟨r, h1, h2, h3⟩
    · exact .inl h
  · intro he
    have : total (List.zipWith (fun a b => t (.fin a) (.fin b)) p q) = .fin 0 := by
      refine sum_zero _ (fun x hx => ?_)
      obtain ⟨a, b, hm, rfl⟩ := hmem x hx
      refine (hD a b hm).2.2 ?_
      subst he
      obtain ⟨i, hi, h⟩ := List.mem_iff_getElem.1 hm
      rw [List.getElem_zip, Prod.mk.injEq] at h
      rw [← h.1, ← h.2]
    rw [this, hg0]

theorem h_zero : rnd 0 = .fin 0 := rnd_eq_zero.2 near_zero

/-- The rounded difference of two numbers of moderate size is finite. -/
theorem sub_fin {a b : ℚ} (ha : |a| ≤ 2 ^ 1022) (hb : |b| ≤ 2 ^ 1022) : ∃ x, (Dbl.fin a).sub (.fin b) = .fin x ∧
    (Dbl.fin b).sub (.fin a) = .fin (-x) ∧ (a = b → x = 0) ∧ |x| ≤ near (|a| + |b|) := by
  have hd : IsDbl (2 ^ 1023 : ℚ) := by decide +kernel
  have e3 : (2 : ℚ) ^ 1023 = 2 ^ 1022 + 2 ^ 1022 := by rw [pow_succ, mul_two]
  generalize (2 : ℚ) ^ 1022 = M at ha hb e3
  rw [abs_le] at ha hb
  have e1 : (Dbl.fin a).sub (.fin b) = rnd (a - b) := by simp only [Dbl.sub, Dbl.neg, Dbl.add]; rw [sub_eq_add_neg]
  have e2 : (Dbl.fin b).sub (.fin a) = rnd (-(a - b)) := by simp only [Dbl.sub, Dbl.neg, Dbl.add]; congr 1; ring
  obtain ⟨x, h1, -, -, h4⟩ := rnd_between (q := a - b) hd.neg hd (by rw [e3]; linarith [ha.1, hb.2]) (by rw [e3]; linarith [ha.2, hb.1])
  refine ⟨x, by rw [e1, h1], by rw [e2, rnd_neg, h1]; rfl, fun h => ?_, ?_⟩
  · subst h; rw [h4, sub_self, near_zero]
  · rw [h4, abs_le]
    constructor
    · rw [← near_neg]
      refine near_mono ?_
      linarith [neg_abs_le a, le_abs_self b]
    · refine near_mono ?_
      linarith [le_abs_self a, neg_abs_le b]

/-- The sum of two absolute values that are not both zero is positive. -/
theorem absSum_pos {a b : ℚ} (ha : IsDbl a) (hb : IsDbl b) (h : ¬ (a = 0 ∧ b = 0)) :
    (Dbl.fin a).abs.add (Dbl.fin b).abs = rnd (|a| + |b|) ∧ D0 (rnd (|a| + |b|)) ∧ (Dbl.fin 0).lt (rnd (|a| + |b|)) = true := by
  have hab : ∀ {x : ℚ}, IsDbl x → IsDbl |x| := by
    intro x hx
    rcases abs_choice x with e | e <;> rw [e]
    · exact hx
    · exact hx.neg
  refine ⟨rfl, rnd_D0 (by positivity), ?_⟩
  have key : ∀ {x s : ℚ}, IsDbl x → 0 < x → x ≤ s → (Dbl.fin 0).lt (rnd s) = true := by
    intro x s hx h0 hs
    have := le_rnd hx h0.le hs
    generalize rnd s = v at this
    cases v with
    | fin y => simp only [Dbl.le, decide_eq_true_eq] at this; simp only [Dbl.lt, decide_eq_true_eq]; linarith
    | inf b => simpa [Dbl.le, Dbl.lt] using this
    | nan => simp [Dbl.le] at this
  rcases not_and_or.1 h with h' | h'
  · exact key (hab ha) (abs_pos.2 h') (by linarith [abs_nonneg b])
  · exact key (hab hb) (abs_pos.2 h') (by linarith [abs_nonneg a])

theorem zero_quot {d : Dbl} (hd : D0 d) (h : (Dbl.fin 0).lt d = true) : (Dbl.fin 0).div d = .fin 0 := by
  rcases hd with ⟨q, rfl, _, _⟩ | rfl
  · have hq : 0 < q := by simpa [Dbl.lt] using h
    simp only [Dbl.div, if_neg hq.ne', zero_div, h_zero]
  · rfl

/-- **C241 (Canberra, Clark)** Between points of `double`s of at most `2 ^ 1022`, of any sign, that are not both zero in any place,
these functors give the same nonnegative number in both directions, and zero for equal points. -/
theorem C241_canberra_partial (p q : List ℚ) (hl : p.length = q.length) (hp : ∀ a ∈ p ++ q, IsDbl a ∧ |a| ≤ 2 ^ 1022)
    (hz : NoCommonZero p q) : Dissimilar canberra p q ∧ Dissimilar clark p q := by
  have hm : ∀ a b, (a, b) ∈ p.zip q → (IsDbl a ∧ |a| ≤ 2 ^ 1022) ∧ (IsDbl b ∧ |b| ≤ 2 ^ 1022) := fun a b h =>
    ⟨hp a (List.mem_append_left _ (List.of_mem_zip h).1), hp b (List.mem_append_right _ (List.of_mem_zip h).2)⟩
  constructor
  · refine dissimilar_of (fun a b => (a.sub b).abs.div (a.abs.add b.abs)) (fun _ v => v) hl (fun v h => h) rfl (fun a b hab => ?_)
    obtain ⟨⟨a1, a2⟩, b1, b2⟩ := hm a b hab
    obtain ⟨x, x1, x2, x3, -⟩ := sub_fin a2 b2
    obtain ⟨s1, s2, s3⟩ := absSum_pos a1 b1 (hz a b hab)
    have s4 : (Dbl.fin b).abs.add (Dbl.fin a).abs = rnd (|a| + |b|) := by simp only [Dbl.abs, Dbl.add]; rw [add_comm]
    simp only [x1, x2, s1, s4]
    refine ⟨quot_D0 (abs_nonneg x) s2 s3, by simp only [Dbl.abs, abs_neg], fun h => ?_⟩
    rw [x3 h]
    simp only [Dbl.abs, abs_zero]
    exact zero_quot s2 s3
  · refine dissimilar_of (fun a b => squareD ((a.sub b).div (a.abs.add b.abs))) (fun _ v => v) hl (fun v h => h) rfl (fun a b hab => ?_)
    obtain ⟨⟨a1, a2⟩, b1, b2⟩ := hm a b hab
    obtain ⟨x, x1, x2, x3, -⟩ := sub_fin a2 b2
    obtain ⟨s1, s2, s3⟩ := absSum_pos a1 b1 (hz a b hab)
    have s4 : (Dbl.fin b).abs.add (Dbl.fin a).abs = rnd (|a| + |b|) := by simp only [Dbl.abs, Dbl.add]; rw [add_comm]
    simp only [x1, x2, s1, s4]
    have hq : ∃ r : ℚ, ∃ e : ℚ, (Dbl.fin x).div (rnd (|a| + |b|)) = rnd r ∧ (Dbl.fin (-x)).div (rnd (|a| + |b|)) = rnd (-r) ∧ (x = 0 → r = 0) := by
      rcases s2 with ⟨y, hy, -, -⟩ | hy
      · rw [hy] at s3 ⊢
        have hy0 : 0 < y := by simpa [Dbl.lt] using s3
        refine ⟨x / y, 0, by simp only [Dbl.div, if_neg hy0.ne'], by simp only [Dbl.div, if_neg hy0.ne', neg_div], fun h => by rw [h, zero_div]⟩
      · rw [hy]
        exact ⟨0, 0, by rw [h_zero]; rfl, by rw [neg_zero, h_zero]; rfl, fun _ => rfl⟩
    obtain ⟨r, -, r1, r2, r3⟩ := hq
    rw [r1, r2]
    refine ⟨square_D0 r, mul_self_rnd r, fun h => ?_⟩
    rw [r3 (x3 h), h_zero]
    simp only [squareD, Dbl.mul, mul_zero, h_zero]

/-- The sum of two nonnegative numbers that are not both zero is positive. -/
theorem sum_pos {a b : ℚ} (ha : IsDbl a) (hb : IsDbl b) (a0 : 0 ≤ a) (b0 : 0 ≤ b) (h : ¬ (a = 0 ∧ b = 0)) :
    (Dbl.fin a).add (.fin b) = rnd (a + b) ∧ (Dbl.fin b).add (.fin a) = rnd (a + b) ∧ D0 (rnd (a + b)) ∧
      (Dbl.fin 0).lt (rnd (a + b)) = true := by
  have := absSum_pos ha hb h
  rw [abs_of_nonneg a0, abs_of_nonneg b0] at this
  exact ⟨rfl, by simp only [Dbl.add]; rw [add_comm], this.2.1, this.2.2⟩

/-- The quotient of a nonnegative by a positive number. -/
theorem quot_D0' {v d : Dbl} (hv : D0 v) (hd : ∃ x, d = .fin x ∧ 0 < x) : D0 (v.div d) := by
  obtain ⟨x, rfl, hx⟩ := hd
  rcases hv with ⟨q, rfl, -, h0⟩ | rfl
  · simp only [Dbl.div, if_neg hx.ne']; exact rnd_D0 (div_nonneg h0 hx.le)
  · right; simp [Dbl.div, not_lt.2 hx.le]

theorem twice_D0 {v : Dbl} (hv : D0 v) : D0 ((Dbl.fin 2).mul v) := by
  rcases hv with ⟨q, rfl, -, h0⟩ | rfl
  · exact rnd_D0 (by positivity)
  · right; simp [Dbl.mul]

theorem twice_zero : (Dbl.fin 2).mul (.fin 0) = .fin 0 := by simp only [Dbl.mul, mul_zero, h_zero]

/-- The rounded sum of two nonnegative numbers of moderate size is finite. -/
theorem sum_fin {a b : ℚ} (ha : |a| ≤ 2 ^ 1022) (hb : |b| ≤ 2 ^ 1022) : ∃ x, rnd (a + b) = .fin x := by
  obtain ⟨x, h, -⟩ := sub_fin (a := a) (b := -b) ha (by rwa [abs_neg])
  refine ⟨x, ?_⟩
  rw [← h]
  simp only [Dbl.sub, Dbl.neg, Dbl.add, neg_neg]

theorem square_sub {a b : ℚ} (ha : |a| ≤ 2 ^ 1022) (hb : |b| ≤ 2 ^ 1022) :
    D0 (squareD ((Dbl.fin a).sub (.fin b))) ∧ squareD ((Dbl.fin a).sub (.fin b)) = squareD ((Dbl.fin b).sub (.fin a)) ∧
      (a = b → squareD ((Dbl.fin a).sub (.fin b)) = .fin 0) := by
  obtain ⟨x, x1, x2, x3, -⟩ := sub_fin ha hb
  rw [x1, x2]
  refine ⟨rnd_D0 (mul_self_nonneg x), by simp only [squareD, Dbl.mul, neg_mul_neg], fun h => ?_⟩
  rw [x3 h]; simp only [squareD, Dbl.mul, mul_zero, h_zero]

/-- **C241 (Squared, ProbabilisticSymmetric, SquaredChiSquared)** The same for these functors between points of nonnegative
`double`s. -/
theorem C241_squared_partial (p q : List ℚ) (hl : p.length = q.length)
    (hp : ∀ a ∈ p ++ q, IsDbl a ∧ 0 ≤ a ∧ a ≤ 2 ^ 1022) (hz : NoCommonZero p q) :
    Dissimilar squaredChi p q ∧ Dissimilar probSymmetric p q ∧ Dissimilar squaredChiSquared p q := by
  have hm : ∀ a b, (a, b) ∈ p.zip q → (IsDbl a ∧ 0 ≤ a ∧ |a| ≤ 2 ^ 1022) ∧ (IsDbl b ∧ 0 ≤ b ∧ |b| ≤ 2 ^ 1022) := by
    intro a b h
    obtain ⟨a1, a2, a3⟩ := hp a (List.mem_append_left _ (List.of_mem_zip h).1)
    obtain ⟨b1, b2, b3⟩ := hp b (List.mem_append_right _ (List.of_mem_zip h).2)
    exact ⟨⟨a1, a2, (abs_of_nonneg a2).trans_le a3⟩, b1, b2, (abs_of_nonneg b2).trans_le b3⟩
  have hterm : ∀ a b, (a, b) ∈ p.zip q → ∃ x, 0 < x ∧ (Dbl.fin a).add (.fin b) = .fin x ∧ (Dbl.fin b).add (.fin a) = .fin x := by
    intro a b h
    obtain ⟨⟨a1, a2, a3⟩, b1, b2, b3⟩ := hm a b h
    obtain ⟨s1, s2, -, s4⟩ := sum_pos a1 b1 a2 b2 (hz a b h)
    obtain ⟨x, hx⟩ := sum_fin a3 b3
    rw [hx] at s1 s2 s4
    exact ⟨x, by simpa [Dbl.lt] using s4, s1, s2⟩
  have hzero : ∀ {x : ℚ}, 0 < x → (Dbl.fin 0).div (.fin x) = .fin 0 := by
    intro x hx
    simp only [Dbl.div, if_neg hx.ne', zero_div, h_zero]
  have hsq : ∀ a b, (a, b) ∈ p.zip q → D0 ((squareD ((Dbl.fin a).sub (.fin b))).div ((Dbl.fin a).add (.fin b))) ∧
      (squareD ((Dbl.fin a).sub (.fin b))).div ((Dbl.fin a).add (.fin b)) =
        (squareD ((Dbl.fin b).sub (.fin a))).div ((Dbl.fin b).add (.fin a)) ∧
      (a = b → (squareD ((Dbl.fin a).sub (.fin b))).div ((Dbl.fin a).add (.fin b)) = .fin 0) := by
    intro a b h
    obtain ⟨⟨-, -, a3⟩, -, -, b3⟩ := hm a b h
    obtain ⟨x, x0, x1, x2⟩ := hterm a b h
    obtain ⟨q1, q2, q3⟩ := square_sub a3 b3
    rw [x1, x2, ← q2]
    exact ⟨quot_D0' q1 ⟨x, rfl, x0⟩, rfl, fun e => by rw [q3 e]; exact hzero x0⟩
  refine ⟨?_, ?_, ?_⟩
  · exact dissimilar_of (fun a b => (squareD (a.sub b)).div (a.add b)) (fun _ v => v) hl (fun v h => h) rfl hsq
  · exact dissimilar_of (fun a b => (squareD (a.sub b)).div (a.add b)) (fun _ v => (Dbl.fin 2).mul v) hl
      (fun v h => twice_D0 h) twice_zero hsq
  · refine dissimilar_of (fun a b => (squareD (a.sub b)).div (a.add b).abs) (fun _ v => v) hl (fun v h => h) rfl ?_
    intro a b h
    obtain ⟨x, x0, x1, x2⟩ := hterm a b h
    have := hsq a b h
    rw [x1, x2] at this ⊢
    simp only [Dbl.abs, abs_of_pos x0]
    exact this

/-- **C241 (Divergence)** The same for this functor if every component is zero or between `2 ^ -500` and `2 ^ 500`. -/
theorem C241_divergence_partial (p q : List ℚ) (hl : p.length = q.length)
    (hp : ∀ a ∈ p ++ q, IsDbl a ∧ (a = 0 ∨ (1 / 2 ^ 500 ≤ a ∧ a ≤ 2 ^ 500))) (hz : NoCommonZero p q) :
    Dissimilar divergence p q := by
  refine dissimilar_of (fun a b => (squareD (a.sub b)).div (squareD (a.add b))) (fun _ v => (Dbl.fin 2).mul v) hl
    (fun v h => twice_D0 h) twice_zero (fun a b hab => ?_)
  obtain ⟨a1, a2⟩ := hp a (List.mem_append_left _ (List.of_mem_zip hab).1)
  obtain ⟨b1, b2⟩ := hp b (List.mem_append_right _ (List.of_mem_zip hab).2)
  have hbig : (2 : ℚ) ^ 500 ≤ 2 ^ 1022 := pow_le_pow_right₀ (by norm_num) (by norm_num)
  have hL : (0 : ℚ) < 1 / 2 ^ 500 := by positivity
  have hU : (0 : ℚ) < 2 ^ 500 := by positivity
  have d1 : IsDbl (1 / 2 ^ 500 : ℚ) := by decide +kernel
  have d2 : IsDbl (2 ^ 501 : ℚ) := by decide +kernel
  have d3 : IsDbl (2 ^ 1002 : ℚ) := by decide +kernel
  have d4 : IsDbl (1 / 2 ^ 1000 : ℚ) := by decide +kernel
  have e1 : (2 : ℚ) ^ 501 = 2 ^ 500 + 2 ^ 500 := by rw [pow_succ, mul_two]
  have e2 : (2 : ℚ) ^ 1002 = 2 ^ 501 * 2 ^ 501 := by rw [← pow_add]
  have e3 : (1 : ℚ) / 2 ^ 1000 = 1 / 2 ^ 500 * (1 / 2 ^ 500) := by rw [div_mul_div_comm, one_mul, ← pow_add]
  have e4 : (0 : ℚ) < 1 / 2 ^ 1000 := by positivity
  have hnz := hz a b hab
  generalize (2 : ℚ) ^ 1022 = V at hbig
  have hab0 : 1 / 2 ^ 500 ≤ a + b ∧ a + b ≤ 2 ^ 501 ∧ |a| ≤ 2 ^ 500 ∧ |b| ≤ 2 ^ 500 := by
    rw [e1]
    generalize (1 : ℚ) / 2 ^ 500 = L at *
    generalize (2 : ℚ) ^ 500 = U at *
    rcases a2 with rfl | ⟨a2, a3⟩ <;> rcases b2 with rfl | ⟨b2, b3⟩
    · exact absurd ⟨rfl, rfl⟩ hnz
    · rw [abs_zero, abs_of_nonneg (hL.le.trans b2)]; refine ⟨by rw [zero_add]; exact b2, by rw [zero_add]; linarith only [b3, hU], hU.le, b3⟩
    · rw [abs_zero, abs_of_nonneg (hL.le.trans a2)]; refine ⟨by rw [add_zero]; exact a2, by rw [add_zero]; linarith only [a3, hU], a3, hU.le⟩
    · rw [abs_of_nonneg (hL.le.trans a2), abs_of_nonneg (hL.le.trans b2)]; refine ⟨by linarith only [a2, b2, hL], by linarith only [a3, b3], a3, b3⟩
  obtain ⟨s1, s2, s3, s4⟩ := hab0
  have hbig' : (2 : ℚ) ^ 500 ≤ 2 ^ 1022 := pow_le_pow_right₀ (by norm_num) (by norm_num)
  obtain ⟨q1, q2, q3⟩ := square_sub (s3.trans hbig') (s4.trans hbig')
  obtain ⟨x, x1, x2, x3, -⟩ := rnd_between d1 d2 s1 s2
  have hx0 : 0 < x := hL.trans_le x2
  obtain ⟨y, y1, y2, -, -⟩ := rnd_between (q := x * x) d4 d3
    (by rw [e3]; exact mul_le_mul x2 x2 hL.le hx0.le) (by rw [e2]; exact mul_le_mul x3 x3 hx0.le (hx0.le.trans x3))
  have hy0 : 0 < y := e4.trans_le y2
  have hs1 : squareD ((Dbl.fin a).add (.fin b)) = .fin y := by
    have : (Dbl.fin a).add (.fin b) = .fin x := x1
    rw [this, ← y1]; rfl
  have hs2 : squareD ((Dbl.fin b).add (.fin a)) = .fin y := by
    have : (Dbl.fin b).add (.fin a) = .fin x := by rw [← x1]; simp only [Dbl.add]; rw [add_comm]
    rw [this, ← y1]; rfl
  simp only [hs1, hs2, ← q2]
  refine ⟨quot_D0' q1 ⟨y, rfl, hy0⟩, trivial, fun e => ?_⟩
  rw [q3 e]
  simp only [Dbl.div, if_neg hy0.ne', zero_div, h_zero]

/-- **C241 (AvgManhattan, SquaredEuclidean)** The same for these functors between points that are not empty, without a condition on
zeros. -/
theorem C241_average_partial (p q : List ℚ) (hl : p.length = q.length) (hn : 0 < p.length) (hn' : p.length ≤ 2 ^ 53)
    (hp : ∀ a ∈ p ++ q, |a| ≤ 2 ^ 1022) : Dissimilar avgManhattan p q ∧ Dissimilar squaredEuclidean p q := by
  have hm : ∀ a b, (a, b) ∈ p.zip q → |a| ≤ 2 ^ 1022 ∧ |b| ≤ 2 ^ 1022 := fun a b h =>
    ⟨hp a (List.mem_append_left _ (List.of_mem_zip h).1), hp b (List.mem_append_right _ (List.of_mem_zip h).2)⟩
  have hN : (0 : ℚ) < p.length := by exact_mod_cast hn
  constructor
  · refine dissimilar_of (fun a b => (a.sub b).abs) (fun n v => v.div (Dbl.ofNat n)) hl ?_ ?_ (fun a b hab => ?_)
    · intro v hv
      rw [ofNat_eq hn']
      exact quot_D0' hv ⟨_, rfl, hN⟩
    · rw [ofNat_eq hn']
      simp only [Dbl.div, if_neg hN.ne', zero_div, h_zero]
    · obtain ⟨a2, b2⟩ := hm a b hab
      obtain ⟨x, x1, x2, x3, -⟩ := sub_fin a2 b2
      have x4 : (Dbl.fin a).sub (.fin b) = rnd (a - b) := by simp only [Dbl.sub, Dbl.neg, Dbl.add]; rw [sub_eq_add_neg]
      have hd : IsDbl x := rnd_isDbl (x4.symm.trans x1)
      simp only [x1, x2, Dbl.abs, abs_neg]
      refine ⟨.inl ⟨|x|, rfl, ?_, abs_nonneg x⟩, trivial, fun h => by rw [x3 h, abs_zero]⟩
      rcases abs_choice x with e | e <;> rw [e]
      · exact hd
      · exact hd.neg
  · refine dissimilar_of (fun a b => squareD (a.sub b)) (fun _ v => v) hl (fun v h => h) rfl (fun a b hab => ?_)
    obtain ⟨a2, b2⟩ := hm a b hab
    exact square_sub a2 b2

/-- Adding up numbers between zero and one. -/
theorem fold_units : ∀ (l : List Dbl) (k : ℕ) (c : ℚ), k + l.length ≤ 2 ^ 53 → 0 ≤ c → c ≤ k →
    (∀ v ∈ l, ∃ r, v = .fin r ∧ 0 ≤ r ∧ r ≤ 1) → ∃ r, l.foldl Dbl.add (.fin c) = .fin r ∧ 0 ≤ r ∧ r ≤ ((k + l.length : ℕ) : ℚ) := by
  intro l
  induction l with
  | nil => intro k c _ h0 h1 _; exact ⟨c, rfl, h0, by simpa using h1⟩
  | cons v l ih =>
    intro k c hk h0 h1 hv
    obtain ⟨r, hr, r0, r1⟩ := hv v (by simp)
    have hk' : k + 1 ≤ 2 ^ 53 := by simp only [List.length_cons] at hk; omega
    obtain ⟨y, y1, y2, y3, -⟩ := rnd_between (q := c + r) (isDbl_nat (n := 0) (by norm_num)) (isDbl_nat hk')
      (by push_cast; linarith) (by push_cast; linarith)
    have e : (Dbl.fin c).add v = .fin y := by rw [hr, ← y1]; rfl
    rw [List.foldl_cons, e]
    obtain ⟨z, z1, z2, z3⟩ := ih (k + 1) y (by simp only [List.length_cons] at hk; omega) (by simpa using y2) y3
      (fun w hw => hv w (by simp [hw]))
    exact ⟨z, z1, z2, by rw [List.length_cons, show k + (l.length + 1) = k + 1 + l.length by omega]; exact z3⟩

/-- **C241 (Canberra is at most the dimension)** Between the same points this functor gives a finite number between zero and the number
of components. -/
theorem C241_canberra_bound (p q : List ℚ) (hl : p.length = q.length) (hn : p.length ≤ 2 ^ 53)
    (hp : ∀ a ∈ p ++ q, IsDbl a ∧ |a| ≤ 2 ^ 1022) (hz : NoCommonZero p q) :
    ∃ r, canberra (p.map Dbl.fin) (q.map Dbl.fin) = .ok (.fin r) ∧ 0 ≤ r ∧ r ≤ p.length := by
  have key := fold_units (List.zipWith (fun a b => ((Dbl.fin a).sub (.fin b)).abs.div ((Dbl.fin a).abs.add (Dbl.fin b).abs)) p q)
    0 0 (by simpa [hl] using hn) le_rfl (by simp) (by
    intro v hv
    obtain ⟨i, hi, rfl⟩ := List.mem_iff_getElem.1 hv
    have hi' : i < (p.zip q).length := by simpa using hi
    have hm := List.getElem_mem hi'
    rw [List.getElem_zip] at hm
    rw [List.getElem_zipWith]
    generalize p[i]'_ = a at hm ⊢
    generalize q[i]'_ = b at hm ⊢
    obtain ⟨a1, a2⟩ := hp a (List.mem_append_left _ (List.of_mem_zip hm).1)
    obtain ⟨b1, b2⟩ := hp b (List.mem_append_right _ (List.of_mem_zip hm).2)
    obtain ⟨x, x1, -, -, x4⟩ := sub_fin a2 b2
    obtain ⟨s1, -, s3⟩ := absSum_pos a1 b1 (hz a b hm)
    obtain ⟨y, hy⟩ := sum_fin (a := |a|) (b := |b|) ((abs_abs a).trans_le a2) ((abs_abs b).trans_le b2)
    obtain ⟨hy', -⟩ := rnd_fin_inv hy
    rw [hy] at s1 s3
    have hy0 : 0 < y := by simpa [Dbl.lt] using s3
    obtain ⟨z, z1, z2, z3, -⟩ := rnd_between (q := |x| / y) (isDbl_nat (n := 0) (by norm_num)) (isDbl_nat (n := 1) (by norm_num))
      (by push_cast; positivity) (by push_cast; rw [div_le_one hy0, hy']; exact x4)
    refine ⟨z, ?_, by simpa using z2, by simpa using z3⟩
    rw [x1, s1, ← z1]
    simp only [Dbl.abs, Dbl.div, if_neg hy0.ne'])
  obtain ⟨r, r1, r2, r3⟩ := key
  refine ⟨r, ?_, r2, by simpa [hl] using r3⟩
  simp only [canberra, pointwise_fin _ hl, Res_bind_ok, Res_pure, Fp.total, r1]

theorem total_nan {l : List Dbl} (h : Dbl.nan ∈ l) : total l = .nan := by
  have := fold_nan_of_mem (fun v : Dbl => v) l (.fin 0) ⟨_, h, rfl⟩
  exact this

/-- **C241 (a common zero gives NaN)** If two points of the same size are both zero in some place, six of the functors give NaN. -/
theorem C241_common_zero_refuted (p q : List ℚ) (hl : p.length = q.length) (hz : ¬ NoCommonZero p q) :
    ∀ f ∈ [canberra, clark, squaredChi, probSymmetric, divergence, squaredChiSquared],
      f (p.map Dbl.fin) (q.map Dbl.fin) = .ok .nan := by
  have h0 : ((0 : ℚ), (0 : ℚ)) ∈ p.zip q := by
    unfold NoCommonZero at hz
    push Not at hz
    obtain ⟨a, b, h, rfl, rfl⟩ := hz
    exact h
  have hmem : ∀ t : Dbl → Dbl → Dbl, t (.fin 0) (.fin 0) = .nan →
      total (List.zipWith (fun a b => t (.fin a) (.fin b)) p q) = .nan := by
    intro t ht
    apply total_nan
    rw [← ht]
    obtain ⟨i, hi, h⟩ := List.mem_iff_getElem.1 h0
    rw [List.getElem_zip, Prod.mk.injEq] at h
    have hi' : i < (List.zipWith (fun a b => t (.fin a) (.fin b)) p q).length := by simpa using hi
    refine List.mem_iff_getElem.2 ⟨i, hi', ?_⟩
    rw [List.getElem_zipWith, h.1, h.2]
  have e1 : (Dbl.fin 0).sub (.fin 0) = .fin 0 := by simp only [Dbl.sub, Dbl.neg, Dbl.add, neg_zero, add_zero, h_zero]
  have e2 : (Dbl.fin 0).add (.fin 0) = .fin 0 := by simp only [Dbl.add, add_zero, h_zero]
  have e3 : (Dbl.fin 0).abs = .fin 0 := by simp only [Dbl.abs, abs_zero]
  have e4 : squareD (.fin 0) = .fin 0 := by simp only [squareD, Dbl.mul, mul_zero, h_zero]
  have e5 : (Dbl.fin 0).div (.fin 0) = .nan := by simp [Dbl.div]
  have e6 : squareD .nan = .nan := rfl
  have e7 : (Dbl.fin 2).mul .nan = .nan := rfl
  intro f hf
  simp only [List.mem_cons, List.not_mem_nil, or_false] at hf
  rcases hf with rfl | rfl | rfl | rfl | rfl | rfl <;>
    simp only [canberra, clark, squaredChi, probSymmetric, divergence, squaredChiSquared, pointwise_fin _ hl, Res_bind_ok, Res_pure]
  · rw [hmem (fun a b => (a.sub b).abs.div (a.abs.add b.abs)) (by simp only [e1, e2, e3, e5])]
  · rw [hmem (fun a b => squareD ((a.sub b).div (a.abs.add b.abs))) (by simp only [e1, e2, e3, e5, e6])]
  · rw [hmem (fun a b => (squareD (a.sub b)).div (a.add b)) (by simp only [e1, e2, e4, e5])]
  · rw [hmem (fun a b => (squareD (a.sub b)).div (a.add b)) (by simp only [e1, e2, e4, e5]), e7]
  · rw [hmem (fun a b => (squareD (a.sub b)).div (squareD (a.add b))) (by simp only [e1, e2, e4, e5]), e7]
  · rw [hmem (fun a b => (squareD (a.sub b)).div (a.add b).abs) (by simp only [e1, e2, e3, e4, e5])]

/-- **C241 (whole numbers)** For two single whole numbers of moderate size that are not both zero the numerators and denominators are
exact, and the only rounding is that of the quotient. -/
theorem C241_single_partial (m n : ℕ) (hm : m ≤ 2 ^ 25) (hn : n ≤ 2 ^ 25) (h : 0 < m + n) :
    canberra [.fin m] [.fin n] = .ok (rnd (|(m : ℚ) - n| / (m + n))) ∧
    squaredChi [.fin m] [.fin n] = .ok (rnd (((m : ℚ) - n) ^ 2 / (m + n))) ∧
    probSymmetric [.fin m] [.fin n] = .ok ((Dbl.fin 2).mul (rnd (((m : ℚ) - n) ^ 2 / (m + n)))) ∧
    divergence [.fin m] [.fin n] = .ok ((Dbl.fin 2).mul (rnd (((m : ℚ) - n) ^ 2 / (m + n) ^ 2))) ∧
    squaredEuclidean [.fin m] [.fin n] = .ok (.fin (((m : ℚ) - n) ^ 2)) ∧
    avgManhattan [.fin m] [.fin n] = .ok (.fin |(m : ℚ) - n|) := by
  have hm' : (m : ℤ) ≤ 2 ^ 25 := by exact_mod_cast hm
  have hn' : (n : ℤ) ≤ 2 ^ 25 := by exact_mod_cast hn
  have hd : |(m : ℤ) - n| ≤ 2 ^ 25 := by rw [abs_le]; constructor <;> omega
  have hs : |(m : ℤ) + n| ≤ 2 ^ 26 := by rw [abs_le]; constructor <;> omega
  have hpos : (0 : ℚ) < (m : ℚ) + n := by exact_mod_cast h
  have w : ∀ z : ℤ, |z| ≤ 2 ^ 53 → rnd (z : ℚ) = .fin z := fun z hz => rnd_whole hz
  have e1 : (Dbl.fin (m : ℚ)).sub (.fin n) = .fin ((m : ℚ) - n) := by
    have := w ((m : ℤ) - n) (hd.trans (by norm_num))
    push_cast at this
    simp only [Dbl.sub, Dbl.neg, Dbl.add, ← sub_eq_add_neg, this]
  have e2 : (Dbl.fin (m : ℚ)).add (.fin n) = .fin ((m : ℚ) + n) := by
    have := w ((m : ℤ) + n) (hs.trans (by norm_num))
    push_cast at this
    simp only [Dbl.add, this]
  have e3 : squareD (.fin ((m : ℚ) - n)) = .fin (((m : ℚ) - n) ^ 2) := by
    have := w (((m : ℤ) - n) ^ 2) (by rw [abs_pow]; exact (pow_le_pow_left₀ (abs_nonneg _) hd 2).trans (by norm_num))
    push_cast at this
    simp only [squareD, Dbl.mul, ← sq, this]
  have e4 : squareD (.fin ((m : ℚ) + n)) = .fin (((m : ℚ) + n) ^ 2) := by
    have := w (((m : ℤ) + n) ^ 2) (by rw [abs_pow]; exact (pow_le_pow_left₀ (abs_nonneg _) hs 2).trans (by norm_num))
    push_cast at this
    simp only [squareD, Dbl.mul, ← sq, this]
  have e5 : (Dbl.fin (m : ℚ)).abs = .fin m := by simp [Dbl.abs]
  have e6 : (Dbl.fin (n : ℚ)).abs = .fin n := by simp [Dbl.abs]
  have z : ∀ q : ℚ, 0 ≤ q → (Dbl.fin 0).add (rnd q) = rnd q := by
    intro q hq
    rcases rnd_D0 hq with ⟨r, hr, hr', -⟩ | hr <;> rw [hr]
    · simp only [Dbl.add, zero_add]; exact hr'
    · rfl
  have zf : ∀ q : ℚ, IsDbl q → (Dbl.fin 0).add (.fin q) = .fin q := by
    intro q hq; simp only [Dbl.add, zero_add]; exact hq
  have i1 : IsDbl (((m : ℚ) - n) ^ 2) := rnd_isDbl (q := ((m : ℚ) - n) * ((m : ℚ) - n)) e3
  have i2 : IsDbl |(m : ℚ) - n| := by
    have := w |(m : ℤ) - n| (by rw [abs_abs]; exact hd.trans (by norm_num))
    push_cast at this
    exact this
  refine ⟨?_, ?_, ?_, ?_, ?_, ?_⟩ <;>
    simp only [canberra, squaredChi, probSymmetric, divergence, squaredEuclidean, avgManhattan, pointwise, List.length_cons,
      List.length_nil, if_true, List.zipWith_cons_cons, List.zipWith_nil_right, Res_bind_ok, Res_pure, Fp.total, List.foldl_cons, List.foldl_nil, e1, e2, e3, e4, e5, e6]
  · simp only [Dbl.abs, Dbl.div, if_neg hpos.ne']
    rw [z _ (by positivity)]
  · simp only [Dbl.div, if_neg hpos.ne']
    rw [z _ (by positivity)]
  · simp only [Dbl.div, if_neg hpos.ne']
    rw [z _ (by positivity)]
  · simp only [Dbl.div, if_neg (pow_pos hpos 2).ne']
    rw [z _ (by positivity)]
  · rw [zf _ i1]
  · simp only [Dbl.abs]
    rw [zf _ i2, ofNat_eq (by norm_num)]
    have h1 : ((0 + 1 : ℕ) : ℚ) = 1 := by norm_num
    rw [h1]
    simp only [Dbl.div, if_neg one_ne_zero, div_one]
    rw [i2]

end

/-- **C241 (underflow and overflow)** A denominator can become zero or infinite although no component is zero: the Divergence of a small
point with itself and the Canberra distance of two large points are NaN. -/
theorem C241_range_refuted : divergence [.fin (1 / 2 ^ 600)] [.fin (1 / 2 ^ 600)] = .ok .nan ∧
    canberra [.fin (3 * 2 ^ 1022)] [.fin (-(3 * 2 ^ 1022))] = .ok .nan := by
  constructor <;> decide +kernel

/-- The hypotheses can be met by points of two components, one of them zero on one side. -/
example : (∀ a ∈ [(1 : ℚ), 0] ++ [3, 2], IsDbl a ∧ 0 ≤ a ∧ a ≤ 2 ^ 1022) ∧
    (∀ a ∈ [(1 : ℚ), 0] ++ [3, 2], IsDbl a ∧ (a = 0 ∨ (1 / 2 ^ 500 ≤ a ∧ a ≤ 2 ^ 500))) ∧ NoCommonZero [1, 0] [3, 2] ∧
    ¬ NoCommonZero [1, 0] [3, 0] ∧
    canberra [.fin 1, .fin 0] [.fin 3, .fin 2] = .ok (.fin (3 / 2)) ∧ clark [.fin 1, .fin 0] [.fin 3, .fin 2] = .ok (.fin (5 / 4)) ∧
    squaredChi [.fin 1, .fin 0] [.fin 3, .fin 2] = .ok (.fin 3) ∧ probSymmetric [.fin 1, .fin 0] [.fin 3, .fin 2] = .ok (.fin 6) ∧
    divergence [.fin 1, .fin 0] [.fin 3, .fin 2] = .ok (.fin (5 / 2)) ∧
    squaredChiSquared [.fin 1, .fin 0] [.fin 3, .fin 2] = .ok (.fin 3) ∧
    avgManhattan [.fin 1, .fin 0] [.fin 3, .fin 2] = .ok (.fin 2) ∧
    squaredEuclidean [.fin 1, .fin 0] [.fin 3, .fin 2] = .ok (.fin 8) := by
  refine ⟨?_, ?_, ?_, ?_, ?_⟩
  · decide +kernel
  · decide +kernel
  · intro a b h
    simp only [List.zip_cons_cons, List.zip_nil_left, List.mem_cons, Prod.mk.injEq, List.not_mem_nil, or_false] at h
    rcases h with ⟨rfl, rfl⟩ | ⟨rfl, rfl⟩ <;> norm_num
  · intro h
    exact h 0 0 (by simp) ⟨rfl, rfl⟩
  · decide +kernel

end MLTK.Props
