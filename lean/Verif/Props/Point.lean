import Mathlib.Tactic.NormNum
import Mathlib.Tactic.Linarith
import Mathlib.Data.Rat.Defs
import Mathlib.Algebra.Order.Field.Rat
import Mathlib.Algebra.Order.Field.Basic
import Mathlib.Algebra.Order.BigOperators.Group.List
import Verif.Model.PointReal
import Verif.Lemmas.Point
/-!
# C23-C26, C65, C70: points
-/
namespace MLTK.Props
open MLTK MLTK.PointM MLTK.Spec

section
variable {K : Type} [Field K]

/-- **C23** For every expression tree over points of one common dimension `n`, scalars and component
functions (subscripts in range), constructing a point gives `n` components, the `i`-th being the
expression evaluated on the `i`-th components. -/
theorem C23_expression (e : Expr K) (n : Nat) (hd : ∀ m ∈ dims e, m = n) (hne : dims e ≠ [])
    (hs : subscriptsOK e) :
    ∃ xs, e.construct = .ok xs ∧ xs.length = n ∧ ∀ i, i < n → xs[i]? = some (valueAt e i) := by
  refine ⟨_, construct_ok n e hd hne hs, by simp, ?_⟩
  intro i hi
  simp [List.getElem?_range hi]

/-- `2*a + (a - b)/b` on two-component points. -/
example : (Expr.add (.mul (.sc 2) (.pt [1, 2])) (.div (.sub (.pt [1, 2]) (.pt [1, 4])) (.pt [1, 4]))
    : Expr Rat).construct = .ok [2, 7/2] := by
  have := construct_ok 2 (Expr.add (.mul (.sc 2) (.pt [1, 2])) (.div (.sub (.pt [1, 2]) (.pt [1, 4]))
    (.pt [1, 4])) : Expr Rat) (by simp [dims]) (by simp [dims]) (by simp [subscriptsOK])
  rw [this]
  simp [List.range_succ, valueAt]; norm_num

/-- **C23 (assignment)** Assigning such an expression to a point of the same dimension stores the same
values; to a point of another dimension it is rejected (assert). -/
theorem C23_assign (x : List K) (e : Expr K) (n : Nat) (hd : ∀ m ∈ dims e, m = n) (hne : dims e ≠ [])
    (hs : subscriptsOK e) :
    (x.length = n → ∃ xs, e.assign x = .ok xs ∧ xs.length = n ∧
      ∀ i, i < n → xs[i]? = some (valueAt e i)) ∧
    (x.length ≠ n → e.assign x = .error .assertFail) := by
  have hsz := size_ok n e hd
  rw [if_neg hne] at hsz
  have hc := construct_ok n e hd hne hs
  rw [Expr.construct, hsz] at hc
  constructor
  · intro hx
    refine ⟨(List.range n).map (valueAt e), ?_, by simp, fun i hi => by simp [List.getElem?_range hi]⟩
    simp only [Expr.assign, hsz, Data.Res_bind_ok] at hc ⊢
    rw [if_neg (by simpa using hx)]
    exact hc
  · intro hx
    simp only [Expr.assign, hsz, Data.Res_bind_ok]
    rw [if_pos hx]; rfl

/-- **C23 (mixing is rejected)** Mixing two non-empty points of different dimensions anywhere in an
expression of non-empty points fails an assert, both on construction and on assignment. -/
theorem C23_mixed_dimensions_rejected (e : Expr K) (h0 : ∀ m ∈ dims e, m ≠ 0) (a b : Nat)
    (ha : a ∈ dims e) (hb : b ∈ dims e) (hab : a ≠ b) :
    e.construct = .error .assertFail ∧ ∀ x, e.assign x = .error .assertFail := by
  cases h : e.size with
  | ok s =>
    obtain ⟨h1, _⟩ := size_agree e h0 s h
    exact absurd ((h1 a ha).trans (h1 b hb).symm) hab
  | error f =>
    have := size_err e f h
    subst this
    exact ⟨by simp [Expr.construct, h], fun x => by simp [Expr.assign, h]⟩

example : ∃ e : Expr Rat, (∀ m ∈ dims e, m ≠ 0) ∧ 2 ∈ dims e ∧ 3 ∈ dims e :=
  ⟨.add (.pt [1, 2]) (.pt [1, 2, 3]), by simp [dims], by simp [dims], by simp [dims]⟩

/-- **C23 (refuted for empty points)** An empty point counts as a scalar for the dimension check: adding
an empty and a non-empty point is not rejected but reads outside the empty vector. -/
theorem C23_empty_operand_refuted (v : K) (vs : List K) :
    (Expr.add (.pt []) (.pt (v :: vs))).construct = .error .outOfBounds := by
  simp [Expr.construct, Expr.size, Expr.combineSize, Expr.copyLoop, Expr.at?, vget]

end

/-! ## C24 -/

/-- **C24 (partial)** `p = q` makes `p` equal to `q` in dimension and components when `p` is not longer
than `q`.  Missing: the longer case, and the label/id/alpha, which are never assigned. -/
theorem C24_assignment_partial {K : Type} [DecidableEq K] (p q : LPt K)
    (h : p.x.length ≤ q.x.length) :
    (p.assign q).x = q.x ∧ (p.assign q).eq q = true ∧
      (p.assign q).y = p.y ∧ (p.assign q).id = p.id ∧ (p.assign q).alpha = p.alpha := by
  have : (p.assign q).x = q.x := by simp [LPt.assign, List.drop_eq_nil_of_le h]
  exact ⟨this, by simp [LPt.eq, this], rfl, rfl, rfl⟩

/-- **C24 (refuted)** Assigning a shorter point never makes the two equal: the old tail stays. -/
theorem C24_shrinking_refuted {K : Type} [DecidableEq K] (p q : LPt K)
    (h : q.x.length < p.x.length) :
    (p.assign q).x.length = p.x.length ∧ (p.assign q).eq q = false := by
  have hl : (p.assign q).x.length = p.x.length := by simp [LPt.assign]; omega
  refine ⟨hl, ?_⟩
  simp only [LPt.eq, decide_eq_false_iff_not]
  intro he
  rw [he] at hl; omega

/-- **C24 (refuted)** Labels are not assigned. -/
theorem C24_label_refuted : ∃ p q : LPt Rat, (p.assign q).y ≠ q.y ∧ (p.assign q).x = q.x :=
  ⟨{ x := [1], y := 1 }, { x := [2], y := -1 }, by decide, rfl⟩

/-- Copy construction is faithful. -/
theorem C24_copy_constructor {K : Type} (q : LPt K) : q.copyCtor = q := rfl

example : (({ x := [1, 2, 3] } : LPt Rat).assign { x := [7] }).x = [7, 2, 3] := rfl

/-! ## C25 -/

section
variable {K : Type} [LinearOrder K]

/-- **C25 (min)** `min(p)` is the least component of every non-empty point whose components do not
exceed the largest value of the type. -/
theorem C25_min (hi : K) (p : List K) (hne : p ≠ []) (h : ∀ v ∈ p, v ≤ hi) :
    pmin hi p ∈ p ∧ ∀ v ∈ p, pmin hi p ≤ v := by
  refine ⟨?_, pmin_lb hi p⟩
  rcases pmin_mem hi p with h1 | h1
  · obtain ⟨v, hv⟩ := List.exists_mem_of_ne_nil p hne
    have h2 := pmin_lb hi p v hv
    rw [h1] at h2
    rw [h1, le_antisymm h2 (h v hv)]; exact hv
  · exact h1

/-- **C25 (max, partial)** `max(p)` is the greatest component whenever some component reaches
`numeric_limits<T>::min()`: always for integer types (where that is the least value), but for floating
types only for points with a (normal) positive component. -/
theorem C25_max_partial (lo : K) (p : List K) (h : ∃ v ∈ p, lo ≤ v) :
    pmax lo p ∈ p ∧ ∀ v ∈ p, v ≤ pmax lo p := by
  refine ⟨?_, pmax_ub lo p⟩
  rcases pmax_mem lo p with h1 | h1
  · obtain ⟨v, hv, hlo⟩ := h
    have h2 := pmax_ub lo p v hv
    rw [h1] at h2
    rw [h1, le_antisymm hlo h2]; exact hv
  · exact h1

/-- **C25 (max, refuted)** For a floating type (`lo > 0`), the maximum of every point without a positive
component is reported as `lo`, which is not a component. -/
theorem C25_max_refuted {K : Type} [Field K] [LinearOrder K] (lo : K) (h0 : 0 < lo) (p : List K)
    (h : ∀ v ∈ p, v ≤ 0) : pmax lo p = lo ∧ lo ∉ p := by
  have hn : lo ∉ p := fun hm => absurd (h lo hm) (not_le.2 h0)
  refine ⟨?_, hn⟩
  rcases pmax_mem lo p with h1 | h1
  · exact h1
  · exact absurd (le_trans (pmax_ge lo p) (h _ h1)) (not_le.2 h0)

example : pmax (0 : Int) [3, 7, 5] = 7 ∧ pmin (100 : Int) [3, 7, 5] = 3 ∧ pmax (1/1000 : Rat) [-3, -2] = 1/1000 := by
  refine ⟨rfl, rfl, by decide +kernel⟩
end

/-! ## C26 -/

/-- **C26** `linspace(lo, hi, N)` for `N ≥ 2`: `N` points, the first is `lo`, the last is `hi`, and
consecutive points differ by the same amount `(hi-lo)/(N-1)`. -/
theorem C26_linspace {K : Type} [Field K] [CharZero K] (lo hi : K) (N : Nat) (hN : 2 ≤ N) :
    (linspace lo hi N).length = N ∧ (linspace lo hi N)[0]? = some lo ∧
    (linspace lo hi N)[N - 1]? = some hi ∧
    ∀ i a b, (linspace lo hi N)[i]? = some a → (linspace lo hi N)[i + 1]? = some b →
      b - a = (hi - lo) / ((N : K) - 1) := by
  have hN0 : ((N : K) - 1) ≠ 0 := by
    intro h
    have : (N : K) = (1 : Nat) := by push_cast; exact sub_eq_zero.1 h
    have := Nat.cast_injective this
    omega
  have hlen : (linspace lo hi N).length = N := linLoop_length _ _ _
  refine ⟨hlen, ?_, ?_, ?_⟩
  · rw [linspace, linLoop_get _ _ _ 0 (by omega)]; simp
  · rw [linspace, linLoop_get _ _ _ (N - 1) (by omega)]
    have : ((N - 1 : Nat) : K) = (N : K) - 1 := by rw [Nat.cast_sub (by omega)]; simp
    rw [this, mul_div_cancel₀ _ hN0]; simp
  · intro i a b ha hb
    have hi2 : i + 1 < N := by
      have := (List.getElem?_eq_some_iff.1 hb).1
      omega
    rw [linspace, linLoop_get _ _ _ i (by omega)] at ha
    rw [linspace, linLoop_get _ _ _ (i + 1) hi2] at hb
    have ha := Option.some.inj ha
    have hb := Option.some.inj hb
    rw [← ha, ← hb]; push_cast; ring

example : linspace (0 : Rat) 1 5 = [0, 1/4, 1/2, 3/4, 1] := by decide +kernel

/-! ## C65, C70 -/

theorem psum_pow_nonneg (q : ℝ) (p : List ℝ) : 0 ≤ psum (fun v => |v| ^ q) p := by
  rw [psum_eq]
  apply List.sum_nonneg
  intro x hx
  obtain ⟨v, _, rfl⟩ := List.mem_map.1 hx
  exact Real.rpow_nonneg (abs_nonneg v) q

theorem psum_pow_pos (q : ℝ) (p : List ℝ) (h : ∃ v ∈ p, v ≠ 0) : 0 < psum (fun v => |v| ^ q) p := by
  rw [psum_eq]
  obtain ⟨v, hv, h0⟩ := h
  induction p with
  | nil => simp at hv
  | cons a as ih =>
    rw [List.map_cons, List.sum_cons]
    have hs : 0 ≤ (as.map (fun v => |v| ^ q)).sum := by rw [← psum_eq]; exact psum_pow_nonneg q as
    have ha : 0 ≤ |a| ^ q := Real.rpow_nonneg (abs_nonneg a) q
    rcases List.mem_cons.1 hv with h | h
    · subst h
      have := Real.rpow_pos_of_pos (abs_pos.2 h0) q
      linarith
    · have := ih h; linarith

/-- **C65** For every non-zero point and every `q > 0`, `normalize(p, q)` returns a point of `q`-norm
one whose components are those of `p` divided by one positive number. -/
theorem C65_normalize (p : List ℝ) (q : ℝ) (hq : 0 < q) (hp : ∃ v ∈ p, v ≠ 0) :
    normP q (PointM.normalize p q) = 1 ∧ ∃ c : ℝ, 0 < c ∧ PointM.normalize p q = p.map (fun v => v / c) := by
  have hS := psum_pow_pos q p hp
  have hN : 0 < normP q p := Real.rpow_pos_of_pos hS _
  have hNq : normP q p ^ q = psum (fun v => |v| ^ q) p := by
    unfold normP
    rw [← Real.rpow_mul (le_of_lt hS), one_div, inv_mul_cancel₀ (ne_of_gt hq), Real.rpow_one]
  refine ⟨?_, normP q p, hN, rfl⟩
  have : psum (fun v => |v| ^ q) (PointM.normalize p q) = 1 := by
    rw [psum_eq]; unfold PointM.normalize; rw [List.map_map]
    have h1 : ((fun v : ℝ => |v| ^ q) ∘ fun v => v / normP q p)
        = fun v => |v| ^ q * (psum (fun v => |v| ^ q) p)⁻¹ := by
      funext v
      simp only [Function.comp]
      rw [abs_div, abs_of_pos hN, Real.div_rpow (abs_nonneg v) (le_of_lt hN), hNq, div_eq_mul_inv]
    rw [h1, List.sum_map_mul_right, ← psum_eq, mul_inv_cancel₀ (ne_of_gt hS)]
  rw [normP, this, Real.one_rpow]

example : ∃ v ∈ ([3, 4] : List ℝ), v ≠ 0 := ⟨3, by simp, by norm_num⟩

/-- **C70 (finite p)** `norm(q)` is non-negative, zero exactly on the zero point and absolutely
homogeneous, for every `q > 0`. -/
theorem C70_norm_partial (q : ℝ) (hq : 0 < q) (p : List ℝ) :
    0 ≤ normP q p ∧ (normP q p = 0 ↔ ∀ v ∈ p, v = 0) ∧
      ∀ c : ℝ, normP q (p.map (fun v => c * v)) = |c| * normP q p := by
  refine ⟨Real.rpow_nonneg (psum_pow_nonneg q p) _, ?_, ?_⟩
  · constructor
    · intro h0 v hv
      by_contra hne
      have := Real.rpow_pos_of_pos (psum_pow_pos q p ⟨v, hv, hne⟩) (1 / q)
      unfold normP at h0
      linarith
    · intro hz
      have : psum (fun v => |v| ^ q) p = 0 := by
        rw [psum_eq]
        apply List.sum_eq_zero
        intro x hx
        obtain ⟨v, hv, rfl⟩ := List.mem_map.1 hx
        simp only [hz v hv, abs_zero]
        exact Real.zero_rpow (ne_of_gt hq)
      rw [normP, this]
      exact Real.zero_rpow (by positivity)
  · intro c
    have : psum (fun v => |v| ^ q) (p.map (fun v => c * v)) = |c| ^ q * psum (fun v => |v| ^ q) p := by
      rw [psum_eq, psum_eq, List.map_map]
      have h1 : ((fun v : ℝ => |v| ^ q) ∘ fun v => c * v) = fun v => |c| ^ q * |v| ^ q := by
        funext v
        simp only [Function.comp]
        rw [abs_mul, Real.mul_rpow (abs_nonneg c) (abs_nonneg v)]
      rw [h1, List.sum_map_mul_left]
    rw [normP, this, Real.mul_rpow (Real.rpow_nonneg (abs_nonneg c) q) (psum_pow_nonneg q p),
      ← Real.rpow_mul (abs_nonneg c), mul_one_div, div_self (ne_of_gt hq), Real.rpow_one]
    rfl

/-- **C70 (maximum norm)** `norm(NORM_LINF)` is the largest absolute component when that reaches
`numeric_limits::min()`. -/
theorem C70_norm_inf_partial {K : Type} [Field K] [LinearOrder K] (lo : K) (p : List K)
    (h : ∃ v ∈ p, lo ≤ |v|) :
    (∃ v ∈ p, normInf lo p = |v|) ∧ ∀ v ∈ p, |v| ≤ normInf lo p := by
  obtain ⟨h1, h2⟩ := C25_max_partial lo (p.map (fun v => |v|))
    (by obtain ⟨v, hv, hl⟩ := h; exact ⟨|v|, List.mem_map.2 ⟨v, hv, rfl⟩, hl⟩)
  constructor
  · obtain ⟨v, hv, e⟩ := List.mem_map.1 h1
    exact ⟨v, hv, e.symm⟩
  · intro v hv
    exact h2 _ (List.mem_map.2 ⟨v, hv, rfl⟩)

/-- **C70 (refuted)** The maximum norm of a zero point is the positive number `numeric_limits::min()`,
not zero. -/
theorem C70_norm_inf_zero_refuted {K : Type} [Field K] [LinearOrder K] [IsStrictOrderedRing K] (lo : K) (h0 : 0 < lo)
    (n : Nat) : normInf lo (List.replicate n 0) = lo := by
  unfold normInf
  refine (C25_max_refuted lo h0 _ ?_).1
  intro v hv
  obtain ⟨w, hw, rfl⟩ := List.mem_map.1 hv
  rw [List.eq_of_mem_replicate hw, abs_zero]

end MLTK.Props
