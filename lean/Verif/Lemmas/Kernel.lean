import Mathlib.Tactic.Linarith
import Mathlib.Algebra.BigOperators.Group.Finset.Basic
import Mathlib.Analysis.Matrix.Order
import Verif.Model.Kernel
import Verif.Lemmas.Util
import Verif.Lemmas.Point
import Verif.Lemmas.Metric
namespace MLTK.Kernel
open MLTK.Data (Res_bind_ok Res_bind_error Res_pure)
open MLTK.PointM (vget_getD)

/-- `M` is an `n × n` matrix with entries `g`. -/
def Rep (n : Nat) (M : List (List ℝ)) (g : Nat → Nat → ℝ) : Prop :=
  M.length = n ∧ ∀ i < n, ∃ row, M[i]? = some row ∧ row.length = n ∧ ∀ j < n, row[j]? = some (g i j)

theorem rep_zero (n : Nat) : Rep n (List.replicate n (List.replicate n 0)) (fun _ _ => 0) := by
  refine ⟨by simp, fun i hi => ⟨List.replicate n 0, by simp [hi], by simp, fun j hj => by simp [hj]⟩⟩

theorem rep_get {n : Nat} {M g} (h : Rep n M g) {i j : Nat} (hi : i < n) (hj : j < n) : get2 M i j = .ok (g i j) := by
  obtain ⟨row, h1, _, h3⟩ := h.2 i hi
  have h1' : vget M i = .ok row := by simpa using h1
  rw [get2, h1', Res_bind_ok]
  simpa using h3 j hj

theorem rep_set {n : Nat} {M g} (h : Rep n M g) {i j : Nat} (hi : i < n) (hj : j < n) (v : ℝ) :
    ∃ M', set2 M i j v = .ok M' ∧ Rep n M' (fun a b => if a = i ∧ b = j then v else g a b) := by
  obtain ⟨row, h1, h2, h3⟩ := h.2 i hi
  have h1' : vget M i = .ok row := by simpa using h1
  refine ⟨M.set i (row.set j v), ?_, ?_, ?_⟩
  · rw [set2, h1', Res_bind_ok]
    simp [vset, h.1, h2, hi, hj]
  · simp [h.1]
  · intro a ha
    by_cases hai : a = i
    · subst hai
      refine ⟨row.set j v, by simp [h.1, ha], by simp [h2], ?_⟩
      intro b hb
      by_cases hbj : b = j
      · subst hbj; simp [h2, hb]
      · rw [List.getElem?_set_ne (by omega), h3 b hb]; simp [hbj]
    · obtain ⟨r, hr1, hr2, hr3⟩ := h.2 a ha
      refine ⟨r, by rw [List.getElem?_set_ne (by omega)]; exact hr1, hr2, ?_⟩
      intro b hb
      rw [hr3 b hb]; simp [hai]

theorem mem_pairs {n : Nat} {p : Nat × Nat} : p ∈ pairs n ↔ p.1 ≤ p.2 ∧ p.2 < n := by
  unfold pairs
  simp only [List.mem_flatMap, List.mem_range, List.mem_map, List.mem_range'_1]
  constructor
  · rintro ⟨i, hi, j, hj, rfl⟩; simp; omega
  · rintro ⟨h1, h2⟩; exact ⟨p.1, by omega, p.2, by omega, rfl⟩

/-- The double loop writes `v i j` at `(i,j)` and `w i j` at `(j,i)` for all `i ≤ j`. -/
theorem fill_ok (n : Nat) (f : Nat → Nat → Res ℝ) (g : Nat → Nat → ℝ → Res ℝ) (M : List (List ℝ)) (g0)
    (hM : Rep n M g0) (v w : Nat → Nat → ℝ)
    (hf : ∀ i j, i ≤ j → j < n → f i j = .ok (v i j)) (hg : ∀ i j, i ≤ j → j < n → g i j (v i j) = .ok (w i j)) :
    ∃ M' e, fill n f g M = .ok M' ∧ Rep n M' e ∧
      (∀ i j, i < j → j < n → e i j = v i j ∧ e j i = w i j) ∧ (∀ i, i < n → e i i = w i i) := by
  have key : ∀ (l : List (Nat × Nat)) (M : List (List ℝ)) (g0 : Nat → Nat → ℝ), Rep n M g0 →
      (∀ p ∈ l, p.1 ≤ p.2 ∧ p.2 < n) →
      ∃ M' e, l.foldlM (fun M p => do
        let v ← f p.1 p.2
        let M ← set2 M p.1 p.2 v
        let w ← g p.1 p.2 v
        set2 M p.2 p.1 w) M = .ok M' ∧ Rep n M' e ∧
      ∀ i j, i ≤ j → j < n →
        ((i, j) ∈ l → (i < j → e i j = v i j) ∧ e j i = w i j) ∧
        ((i, j) ∉ l → e i j = g0 i j ∧ e j i = g0 j i) := by
    intro l
    induction l with
    | nil => intro M g0 h _; exact ⟨M, g0, rfl, h, by simp⟩
    | cons p l ih =>
      intro M g0 h hl
      obtain ⟨hp1, hp2⟩ := hl p (by simp)
      obtain ⟨M1, e1, r1⟩ := rep_set h (show p.1 < n by omega) hp2 (v p.1 p.2)
      obtain ⟨M2, e2, r2⟩ := rep_set r1 hp2 (show p.1 < n by omega) (w p.1 p.2)
      obtain ⟨M', e, h1, h2, h3⟩ := ih M2 _ r2 (fun q hq => hl q (by simp [hq]))
      refine ⟨M', e, ?_, h2, ?_⟩
      · rw [List.foldlM_cons, hf _ _ hp1 hp2, Res_bind_ok, e1, Res_bind_ok, hg _ _ hp1 hp2, Res_bind_ok, e2,
          Res_bind_ok, h1]
      · intro i j hij hj
        obtain ⟨h4, h5⟩ := h3 i j hij hj
        constructor
        · intro hm
          by_cases hml : (i, j) ∈ l
          · exact h4 hml
          · rcases List.mem_cons.1 hm with hm | hm
            · have hi : i = p.1 := congrArg Prod.fst hm
              have hj' : j = p.2 := congrArg Prod.snd hm
              obtain ⟨h6, h7⟩ := h5 hml
              subst hi; subst hj'
              constructor
              · intro hlt
                rw [h6]
                simp [show ¬ p.1 = p.2 by omega]
              · rw [h7]; simp
            · exact absurd hm hml
        · intro hm
          have hml : (i, j) ∉ l := fun hc => hm (by simp [hc])
          have hne : ¬ (i = p.1 ∧ j = p.2) := by
            rintro ⟨rfl, rfl⟩; exact hm (by simp)
          obtain ⟨h6, h7⟩ := h5 hml
          rw [h6, h7]
          constructor
          · rw [if_neg (by omega), if_neg (by omega)]
          · rw [if_neg (by omega), if_neg (by omega)]
  obtain ⟨M', e, h1, h2, h3⟩ := key (pairs n) M g0 hM (fun p hp => mem_pairs.1 hp)
  refine ⟨M', e, h1, h2, ?_, ?_⟩
  · intro i j hij hj
    have := (h3 i j hij.le hj).1 (mem_pairs.2 ⟨hij.le, hj⟩)
    exact ⟨this.1 hij, this.2⟩
  · intro i hi
    exact ((h3 i i (le_refl _) hi).1 (mem_pairs.2 ⟨le_refl _, hi⟩)).2

/-- Inner product over the first `dim` components. -/
noncomputable def ip (dim : Nat) (a b : List ℝ) : ℝ := ∑ i ∈ Finset.range dim, a.getD i 0 * b.getD i 0
/-- Squared distance over the first `dim` components. -/
noncomputable def sd (dim : Nat) (a b : List ℝ) : ℝ := ∑ i ∈ Finset.range dim, (a.getD i 0 - b.getD i 0) ^ 2

theorem dotLoop_ok (dim : Nat) (a b : List ℝ) (ha : dim ≤ a.length) (hb : dim ≤ b.length) :
    dotLoop dim none a b = .ok (ip dim a b) := by
  rw [dotLoop, foldlM_ok _ (fun s i => s + a.getD i 0 * b.getD i 0), foldl_add_sum, zero_add,
    Metric.list_range_sum]; rfl
  intro i hi s
  have hi : i < dim := by simpa using hi
  rw [if_neg (by simp), vget_getD (by omega) 0, vget_getD (by omega) 0]; rfl

theorem sqLoop_ok (dim : Nat) (a b : List ℝ) (ha : dim ≤ a.length) (hb : dim ≤ b.length) :
    sqLoop dim none a b = .ok (sd dim a b) := by
  rw [sqLoop, foldlM_ok _ (fun s i => s + (a.getD i 0 - b.getD i 0) ^ 2), foldl_add_sum, zero_add,
    Metric.list_range_sum]; rfl
  intro i hi s
  have hi : i < dim := by simpa using hi
  rw [if_neg (by simp), vget_getD (by omega) 0, vget_getD (by omega) 0, Res_bind_ok, Res_bind_ok, Res_pure, pow_two]

theorem ip_comm (dim : Nat) (a b : List ℝ) : ip dim a b = ip dim b a :=
  Finset.sum_congr rfl fun i _ => mul_comm _ _

theorem sd_comm (dim : Nat) (a b : List ℝ) : sd dim a b = sd dim b a :=
  Finset.sum_congr rfl fun i _ => by ring

end MLTK.Kernel
