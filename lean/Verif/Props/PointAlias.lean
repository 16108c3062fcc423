import Mathlib.Tactic.NormNum
import Mathlib.Algebra.Order.Field.Rat
import Verif.Lemmas.PointAlias
/-!
# C144-C146: assigning to a point from operands inside it, from scalars and from vectors
-/
namespace MLTK.Props
open MLTK MLTK.PointM MLTK.Spec
open MLTK.Data (Res_bind_ok Res_bind_error Res_pure)

section
variable {K : Type} [Field K]

/-! ## C144 -/

/-- **C144 (partial)** `p op= e` (and `p = e`, the operation that keeps its right operand) for a right hand side that
looks ahead: every component of the result is the operation applied to the old component and to the value of `e` on
the old components of `p`.  Missing: right hand sides that use an earlier component of `p`. -/
theorem C144_in_place_partial (f : K → K → K) (x : List K) (e : AExpr K) (he : Sensible x.length e)
    (ha : LooksAhead x.length e) :
    compoundInPlace f x e = .ok ((List.range x.length).map (fun i => f (x.getD i 0) (selfValueAt x e i))) := by
  obtain ⟨r, hr, hrl, hrj⟩ := compoundInPlace_run f x e he
  rw [hr]
  congr 1
  apply List.ext_getElem?
  intro j
  by_cases hj : j < x.length
  · rw [hrj j hj, looksAhead_same x.length x _ j hj (fun m hm => take_drop_getD r x hrl j m hm) e ha]
    simp [List.getElem?_range hj]
  · rw [List.getElem?_eq_none (by omega), List.getElem?_eq_none (by simp; omega)]

/-- `p = (p + p * q) / p[1]` for the two-component `p` and `q`. -/
example : assignInPlace [2, 4] (.div (.add .self (.mul .self (.other (.pt [1, 2])))) (.elem 1) : AExpr Rat)
    = .ok [1, 3] := by
  have := C144_in_place_partial (fun _ v => v) [2, 4]
    (.div (.add .self (.mul .self (.other (.pt [1, 2])))) (.elem 1) : AExpr Rat)
    ⟨by simp [selfDims, dims], by simp [selfDims, dims], by simp [selfSubscriptsOK, subscriptsOK]⟩
    (by simp [LooksAhead])
  rw [assignInPlace, this]
  simp [List.range_succ, selfValueAt, valueAt]; norm_num

/-- **C144 (what is computed)** For every sensible right hand side: component `i` of the result is computed from the
old components from `i` on and from the *new* components before `i`. -/
theorem C144_sweep_partial (f : K → K → K) (x : List K) (e : AExpr K) (he : Sensible x.length e) :
    ∃ r, compoundInPlace f x e = .ok r ∧ r.length = x.length ∧
      ∀ i, i < x.length → r[i]? = some (f (x.getD i 0) (selfValueAt (r.take i ++ x.drop i) e i)) :=
  compoundInPlace_run f x e he

example : Sensible 2 (.pick [1, 0] : AExpr Rat) := ⟨by simp [selfDims], by simp [selfDims], by simp [selfSubscriptsOK]⟩

/-- **C144 (wrong dimension)** A right hand side whose points have another, non-zero, dimension is rejected. -/
theorem C144_dimension_rejected (f : K → K → K) (x : List K) (e : Expr K) (n : Nat) (hd : ∀ m ∈ dims e, m = n)
    (hne : dims e ≠ []) (hn : x.length ≠ n) : compoundInPlace f x (.other e) = .error .assertFail := by
  have hsz := size_ok n e hd
  rw [if_neg hne] at hsz
  simp [compoundInPlace, AExpr.denote, hsz, hn]

example : compoundInPlace (· + ·) [1, 2] (.other (.pt [1, 2, 3]) : AExpr Rat) = .error .assertFail :=
  C144_dimension_rejected _ _ _ 3 (by simp [dims]) (by simp [dims]) (by simp)

/-- **C144 (refuted)** Reordering a point by its own subscripts loses components: `p = p[{1, 0}]` makes both
components equal to the second, for every two-component point. -/
theorem C144_swap_refuted (a b : K) : assignInPlace [a, b] (.pick [1, 0]) = .ok [b, b] := by
  simp [assignInPlace, compoundInPlace, AExpr.denote, Expr.size, sweep, Expr.at?, vget, vset]

/-- **C144 (refuted)** `p = p / p[0]` divides the first component only: a point whose first component is not zero
keeps all its others. -/
theorem C144_scale_refuted (a : K) (as : List K) (h : a ≠ 0) :
    assignInPlace (a :: as) (.div .self (.elem 0)) = .ok (1 :: as) := by
  obtain ⟨r, hr, hrl, hrj⟩ := compoundInPlace_run (fun _ v => v) (a :: as) (.div .self (.elem 0))
    ⟨by simp [selfDims], by simp [selfDims], by simp [selfSubscriptsOK]⟩
  have h0 : r[0]? = some 1 := by
    have := hrj 0 (by simp)
    simpa [selfValueAt, h] using this
  obtain ⟨r0, rs, rfl⟩ : ∃ r0 rs, r = r0 :: rs := by
    cases r with
    | nil => simp at h0
    | cons r0 rs => exact ⟨_, _, rfl⟩
  simp at h0
  subst h0
  rw [assignInPlace, hr]
  congr 2
  apply List.ext_getElem?
  intro j
  by_cases hj : j < as.length
  · have := hrj (j + 1) (by simpa using hj)
    rw [List.getElem?_cons_succ] at this
    rw [this]
    simp [selfValueAt, List.getD_eq_getElem?_getD, hj]
    rw [List.getElem?_append_right (by simp)]
    have hl : rs.length = as.length := by simpa using hrl
    simp [hl, Nat.min_eq_left (Nat.le_of_lt hj), hj]
  · have hl : rs.length = as.length := by simpa using hrl
    rw [List.getElem?_eq_none (by omega), List.getElem?_eq_none (by omega)]

/-! ## C145 -/

/-- **C145 (partial)** `p op= c` for a scalar outside the point applies the operation to every component.
Missing: a scalar that is a component of the point. -/
theorem C145_scalar_partial (f : K → K → K) (x : List K) (c : K) :
    scalarInPlace f x (.value c) = .ok (x.map (fun v => f v c)) := by
  obtain ⟨r, hr, hrl, hrj⟩ := scalarInPlace_run f x (.value c) (by simp [SRef.expr, selfSubscriptsOK, subscriptsOK])
  rw [hr]
  congr 1
  apply List.ext_getElem?
  intro j
  by_cases hj : j < x.length
  · rw [hrj j hj]
    simp [SRef.expr, selfValueAt, valueAt, List.getD_eq_getElem?_getD, hj]
  · rw [List.getElem?_eq_none (by omega), List.getElem?_eq_none (by simp; omega)]

/-- **C145 (exactly what a component as the scalar does)** `p op= p[k]` uses the old `p[k]` up to component `k` and
the changed one after it. -/
theorem C145_own_component_partial (f : K → K → K) (x : List K) (k : Nat) (c : K) (hk : x[k]? = some c) :
    scalarInPlace f x (.elem k) =
      .ok ((x.take (k + 1)).map (fun v => f v c) ++ (x.drop (k + 1)).map (fun v => f v (f c c))) := by
  have hkl : k < x.length := by
    by_contra h
    rw [List.getElem?_eq_none (by omega)] at hk; simp at hk
  have hg : x.getD k 0 = c := by rw [List.getD_eq_getElem?_getD, hk]; rfl
  obtain ⟨r, hr, hrl, hrj⟩ := scalarInPlace_run f x (.elem k) hkl
  rw [hr]
  congr 1
  have hrk : r[k]? = some (f c c) := by
    rw [hrj k hkl]
    simp only [SRef.expr, selfValueAt, take_drop_getD r x hrl k k (Nat.le_refl _), hg]
  apply List.ext_getElem?
  intro j
  by_cases hj : j < x.length
  · rw [hrj j hj]
    by_cases hjk : j ≤ k
    · rw [List.getElem?_append_left (by simp; omega)]
      simp only [SRef.expr, selfValueAt, take_drop_getD r x hrl j k hjk, hg]
      simp [List.getD_eq_getElem?_getD, hj, List.getElem?_take, Nat.lt_succ_of_le hjk]
    · rw [List.getElem?_append_right (by simp; omega)]
      have hkr : k < (r.take j).length := by simp; omega
      have : (r.take j ++ x.drop j).getD k 0 = f c c := by
        rw [List.getD_eq_getElem?_getD, List.getElem?_append_left hkr, List.getElem?_take, if_pos (by omega), hrk]; rfl
      simp only [SRef.expr, selfValueAt, this]
      have e : k + 1 + (j - min (k + 1) x.length) = j := by omega
      simp [e, List.getD_eq_getElem?_getD, hj]
  · rw [List.getElem?_eq_none (by omega), List.getElem?_eq_none (by simp; omega)]

/-- **C145 (the last component)** is safe to use. -/
theorem C145_last_component_partial (f : K → K → K) (x : List K) (c : K) :
    scalarInPlace f (x ++ [c]) (.elem x.length) = .ok ((x ++ [c]).map (fun v => f v c)) := by
  rw [C145_own_component_partial f (x ++ [c]) x.length c (by simp)]
  simp [List.take_of_length_le, List.drop_eq_nil_of_le]

/-- **C145 (refuted)** `p -= p[0]` only clears the first component, and `p /= p[0]` only makes it one: the others keep
their values. -/
theorem C145_first_component_refuted (a : K) (as : List K) :
    scalarInPlace (· - ·) (a :: as) (.elem 0) = .ok (0 :: as) ∧
    (a ≠ 0 → scalarInPlace (· / ·) (a :: as) (.elem 0) = .ok (1 :: as)) := by
  constructor
  · rw [C145_own_component_partial _ (a :: as) 0 a rfl]; simp
  · intro h
    rw [C145_own_component_partial _ (a :: as) 0 a rfl]; simp [h]

/-- The intended result of `p /= p[0]` on `(2, 4)` is `(1, 2)`; the program gives `(1, 4)`. -/
example : scalarInPlace (· / ·) [2, 4] (.elem 0) = .ok [(1 : Rat), 4] :=
  (C145_first_component_refuted 2 [4]).2 (by norm_num)

/-- **C145 (fill)** `p = c` makes every component `c`, also when `c` is a component of the point. -/
theorem C145_fill (x : List K) (s : SRef K) (c : K) (hs : s.read x = .ok c) :
    fillInPlace x s = .ok (List.replicate x.length c) := by
  cases s with
  | value d =>
    simp only [SRef.read, Except.ok.injEq] at hs
    subst hs
    rw [fillInPlace, C145_scalar_partial]; simp
  | elem k =>
    have hk : x[k]? = some c := by
      simp only [SRef.read] at hs
      cases hx : x[k]? with
      | none => simp [hx] at hs
      | some v => simp [hx] at hs; rw [hs]
    have hkl : k < x.length := by
      by_contra h
      rw [List.getElem?_eq_none (by omega)] at hk; simp at hk
    rw [fillInPlace, C145_own_component_partial _ x k c hk]
    simp only [List.map_const', List.length_take, List.length_drop, List.replicate_append_replicate]
    congr 2; omega

example : fillInPlace [1, 2, 3] (.elem 1) = .ok [(2 : Rat), 2, 2] := C145_fill _ _ 2 rfl

/-! ## C146 -/

/-- **C146 (exactly what assigning a vector does)** the components of the vector, then the old components it does not
reach. -/
theorem C146_vector_assignment_partial (x b : List K) : assignVec x b = .ok (b ++ x.drop b.length) := by
  simp only [assignVec]
  by_cases h : b.length > x.length
  · rw [if_pos h, copyVec_ok _ _ _ (by simp; omega), List.drop_eq_nil_of_le (by simp; omega),
      List.drop_eq_nil_of_le (by omega)]
    simp
  · rw [if_neg h, copyVec_ok _ _ _ (by omega)]
    simp

/-- **C146 (partial)** the point has exactly the components of the vector if and only if it was not longer. -/
theorem C146_vector_assignment_iff_partial (x b : List K) : assignVec x b = .ok b ↔ x.length ≤ b.length := by
  rw [C146_vector_assignment_partial]
  constructor
  · intro h
    have := congrArg (fun r : Res (List K) => (r.toOption.getD []).length) h
    simp [Except.toOption] at this
    omega
  · intro h
    rw [List.drop_eq_nil_of_le h, List.append_nil]

/-- **C146 (refuted)** assigning a shorter vector leaves the old tail. -/
theorem C146_vector_assignment_refuted : ∃ x b : List Rat, assignVec x b ≠ .ok b :=
  ⟨[1, 2, 3], [7], fun h => by have := (C146_vector_assignment_iff_partial _ _).1 h; simp at this⟩

example : assignVec [1, 2, 3] [7, 8] = .ok [(7 : Rat), 8, 3] := C146_vector_assignment_partial _ _

end
end MLTK.Props
