import Mathlib.Tactic.Linarith
import Mathlib.Tactic.FieldSimp
import Mathlib.Data.Rat.Floor
import Verif.Model.Remainder
import Verif.Lemmas.Features
/-!
# C214: the remainders of a point
-/
namespace MLTK.Props
open MLTK.PointM

/-- `r` is the remainder of `a` by `s`: what is left of `a` after taking away a whole multiple of `s`, smaller than `s` and of
the sign of `a`. -/
structure IsRemainder {K : Type} [Ring K] [LinearOrder K] (a s r : K) : Prop where
  multiple : ∃ q : Int, a = q * s + r
  small : |r| < |s|
  sign : 0 ≤ a * r

/-- There is only one remainder. -/
theorem isRemainder_unique {K : Type} [Field K] [LinearOrder K] [IsStrictOrderedRing K] {a s r r' : K}
    (h : IsRemainder a s r) (h' : IsRemainder a s r') (ha : a ≠ 0) : r = r' := by
  obtain ⟨q, hq⟩ := h.multiple
  obtain ⟨q', hq'⟩ := h'.multiple
  -- both remainders are on the same side of zero, so they differ by less than `s`
  have hd : |r - r'| < |s| := by
    have h1 := h.small
    have h2 := h'.small
    rcases lt_or_gt_of_ne ha with h0 | h0
    · have r0 : r ≤ 0 := by
        by_contra hc
        exact absurd h.sign (not_le.2 (mul_neg_of_neg_of_pos h0 (not_le.1 hc)))
      have r0' : r' ≤ 0 := by
        by_contra hc
        exact absurd h'.sign (not_le.2 (mul_neg_of_neg_of_pos h0 (not_le.1 hc)))
      rw [abs_of_nonpos r0] at h1
      rw [abs_of_nonpos r0'] at h2
      rw [abs_lt]; constructor <;> linarith
    · have r0 : 0 ≤ r := by
        by_contra hc
        exact absurd h.sign (not_le.2 (mul_neg_of_pos_of_neg h0 (not_le.1 hc)))
      have r0' : 0 ≤ r' := by
        by_contra hc
        exact absurd h'.sign (not_le.2 (mul_neg_of_pos_of_neg h0 (not_le.1 hc)))
      rw [abs_of_nonneg r0] at h1
      rw [abs_of_nonneg r0'] at h2
      rw [abs_lt]; constructor <;> linarith
  have he : r - r' = ((q' - q : Int) : K) * s := by push_cast; linarith
  rw [he, abs_mul] at hd
  have hs : 0 < |s| := lt_of_le_of_lt (abs_nonneg _) h.small
  have hz : |((q' - q : Int) : K)| < 1 := by
    by_contra hc
    have := mul_le_mul_of_nonneg_right (not_lt.1 hc) hs.le
    linarith
  have hz' : q' - q = 0 := by
    rw [← Int.cast_abs] at hz
    have : |q' - q| < 1 := by exact_mod_cast hz
    exact Int.abs_lt_one_iff.1 this
  rw [hz'] at he
  simp at he
  linarith

private theorem remInt (a s : Int) (hs : s ≠ 0) : IsRemainder a s (Int.tmod a s) := by
  refine ⟨⟨Int.tdiv a s, ?_⟩, ?_, ?_⟩
  · have := Int.mul_tdiv_add_tmod a s
    simp only [Int.cast_id]
    linarith [mul_comm s (Int.tdiv a s)]
  · rw [Int.abs_eq_natAbs, Int.abs_eq_natAbs, Int.natAbs_tmod]
    have : 0 < s.natAbs := Int.natAbs_pos.2 hs
    exact_mod_cast Nat.mod_lt _ this
  · rcases le_total 0 a with h | h
    · exact mul_nonneg h (Int.tmod_nonneg s h)
    · exact mul_nonneg_of_nonpos_of_nonpos h (by
        have := Int.tmod_nonneg s (a := -a) (by omega)
        rw [Int.neg_tmod] at this
        omega)

/-- **C214 (whole numbers).**  For a divisor other than 0, and other than -1 if a component is the least `int`, `p % s` has for
each component of `p` its remainder. -/
theorem C214_int_partial (p : List Int) (s : Int) (hs : s ≠ 0) (hmin : -2147483648 ∈ p → s ≠ -1) :
    ∃ r, modInt p s = .ok r ∧ List.Forall₂ (fun a b => IsRemainder a s b) p r := by
  refine ⟨p.map (fun a => Int.tmod a s), ?_, ?_⟩
  · unfold modInt
    apply Feat.mapM_ok
    intro a ha
    unfold intMod
    rw [if_neg hs, if_neg]
    rintro ⟨rfl, h⟩
    exact hmin ha h
  · rw [List.forall₂_map_right_iff, List.forall₂_same]
    exact fun a _ => remInt a s hs

/-- **C214, negation.**  The remainder by 0, which in floating point would be no number, is undefined for points of `int`s; so
is the remainder of the least `int` by -1, which is 0. -/
theorem C214_undefined_refuted (a : Int) (p : List Int) :
    modInt (a :: p) 0 = .error .divByZero ∧ modInt (-2147483648 :: p) (-1) = .error .overflow ∧
      IsRemainder (-2147483648 : Int) (-1) 0 := by
  refine ⟨rfl, rfl, ⟨2147483648, by norm_num⟩, by norm_num, by norm_num⟩

section
variable {K : Type} [Field K] [LinearOrder K] [IsStrictOrderedRing K] [FloorRing K]

/-- **C214 (doubles).**  With a whole number other than 0, `p % s` has for each component of `p` its remainder. -/
theorem C214_double (p : List K) (s : Int) (hs : s ≠ 0) :
    ∃ r, modReal p s = .ok r ∧ List.Forall₂ (fun a b => IsRemainder a (s : K) b) p r := by
  have hs' : (s : K) ≠ 0 := by exact_mod_cast hs
  refine ⟨p.map (fun a => a - towardsZero (a / (s : K)) * (s : K)), ?_, ?_⟩
  · unfold modReal
    apply Feat.mapM_ok
    intro a _
    unfold fmod
    rw [if_neg hs']
  · rw [List.forall₂_map_right_iff, List.forall₂_same]
    intro a _
    generalize hq : a / (s : K) = q
    have ha : a = q * s := by rw [← hq]; field_simp
    have hr : a - towardsZero q * (s : K) = (q - towardsZero q) * s := by rw [ha]; ring
    refine ⟨⟨towardsZero q, by ring⟩, ?_, ?_⟩
    · rw [hr, abs_mul]
      have h1 : |q - towardsZero q| < 1 := by
        unfold towardsZero
        split
        · rw [abs_lt]; constructor <;> linarith [Int.floor_le q, Int.lt_floor_add_one q]
        · rw [abs_lt]; constructor <;> linarith [Int.le_ceil q, Int.ceil_lt_add_one q]
      have h2 : 0 < |(s : K)| := abs_pos.2 hs'
      calc |q - towardsZero q| * |(s : K)| < 1 * |(s : K)| := mul_lt_mul_of_pos_right h1 h2
        _ = |(s : K)| := one_mul _
    · rw [hr, ha]
      have h1 : 0 ≤ q * (q - towardsZero q) := by
        unfold towardsZero
        split
        · rename_i h
          exact mul_nonneg h (by linarith [Int.floor_le q])
        · rename_i h
          exact mul_nonneg_of_nonpos_of_nonpos (not_le.1 h).le (by linarith [Int.le_ceil q])
      calc 0 ≤ q * (q - towardsZero q) * ((s : K) * s) := mul_nonneg h1 (mul_self_nonneg _)
        _ = q * s * ((q - towardsZero q) * s) := by ring

end

/-- Concrete cases. -/
example : modInt [7, -7, 6, 0] (-3) = .ok [1, -1, 0, 0] ∧ modReal [(7 / 2 : ℚ), -7 / 2, 1 / 4] 2 = .ok [3 / 2, -3 / 2, 1 / 4] := by
  constructor <;> decide +kernel

end MLTK.Props
