import Verif.Model.DoubleKernel
import Verif.Props.DoubleDual
import Mathlib.Algebra.BigOperators.Ring.Finset
/-!
# C235: norms and Gaussian kernels in `double` arithmetic
-/
namespace MLTK.Props
open MLTK.Fp
open MLTK.Perc (Sample)

attribute [local irreducible] Fp.rnd Fp.near Fp.huge Fp.two

/-- Whole numbers are added exactly as long as their sizes add up to at most 2^53. -/
theorem fold_whole (c : ℕ → Bool) (F : ℕ → Dbl) (t : ℕ → ℤ) : ∀ n : ℕ, (∀ r < n, c r = true → F r = .fin (t r : ℚ)) →
    (∀ r < n, c r = false → t r = 0) → ∑ r ∈ Finset.range n, |t r| ≤ 2 ^ 53 →
    (List.range n).foldl (fun (s : Dbl) r => if c r then s.add (F r) else s) (.fin 0) = .fin ((∑ r ∈ Finset.range n, t r : ℤ) : ℚ) := by
  intro n
  induction n with
  | zero => intro _ _ _; simp
  | succ n ih =>
    intro hF h0 hb
    have hb' := hb
    rw [Finset.sum_range_succ] at hb
    have hle : ∑ r ∈ Finset.range n, |t r| ≤ 2 ^ 53 := by linarith [abs_nonneg (t n)]
    rw [List.range_succ, List.foldl_append, ih (fun r hr => hF r (by omega)) (fun r hr => h0 r (by omega)) hle]
    simp only [List.foldl_cons, List.foldl_nil, Finset.sum_range_succ]
    cases hc : c n with
    | false => simp [h0 n (by omega) hc]
    | true =>
      have hs : |(∑ r ∈ Finset.range n, t r) + t n| ≤ 2 ^ 53 := by
        have := Finset.abs_sum_le_sum_abs t (Finset.range (n + 1))
        rw [Finset.sum_range_succ] at this
        exact this.trans hb'
      rw [if_pos rfl, hF n (by omega) hc, ← rnd_whole hs]
      simp only [Dbl.add]
      congr 1
      push_cast
      rfl

theorem mul_whole {a b : ℤ} (h : |a * b| ≤ 2 ^ 53) : (Dbl.fin (a : ℚ)).mul (.fin (b : ℚ)) = .fin ((a * b : ℤ) : ℚ) := by
  rw [← rnd_whole h]
  simp only [Dbl.mul]
  congr 1
  push_cast
  rfl

theorem gram_sum (dim : ℕ) (a b : List ℤ) : intDot dim a b = ∑ k ∈ Finset.range dim, a.getD k 0 * b.getD k 0 := by
  induction dim with
  | zero => rfl
  | succ n ih => rw [intDot_succ, Finset.sum_range_succ, ih]

/-- **C235 (whole numbers)** (partial: the inner product kernel and whole numbers; see the refutation)  For samples with whole-numbered features of size at most
`X`, labels 1 and -1 and whole-numbered multipliers with `(sum of the multipliers)² * dim * X² ≤ 2^53`, the number whose root
`featureSpaceNorm` takes is exactly the squared length of the weight vector the multipliers stand for. -/
theorem C235_norm_partial (sqrt exp : Dbl → Dbl) (pow : Dbl → Dbl → Dbl) (param : Dbl) (dim X : ℕ) (samples : List (Sample ℤ))
    (A : List ℕ) (hA : A.length = samples.length) (hl : ∀ p ∈ samples, p.y = 1 ∨ p.y = -1)
    (hx : ∀ p ∈ samples, ∀ a ∈ p.x, |a| ≤ X) (hdx : dim * X ^ 2 ≤ 2 ^ 53) (hc : A.sum ^ 2 * (1 + dim * X ^ 2) ≤ 2 ^ 53) :
    featureSpaceNorm sqrt (Fp.kernel pow exp .innerProduct param dim) (A.map (fun a : ℕ => .fin (a : ℚ))) (samples.map Spec.intSample) =
      sqrt (.fin ((∑ k ∈ Finset.range dim, (∑ i ∈ Finset.range samples.length,
        (A.getD i 0 : ℤ) * (samples.getD i ⟨[], 0⟩).y * (samples.getD i ⟨[], 0⟩).x.getD k 0) ^ 2 : ℤ) : ℚ)) := by
  unfold featureSpaceNorm
  congr 1
  set n := samples.length with hn
  set y : ℕ → ℤ := fun i => (samples.getD i ⟨[], 0⟩).y with hy
  set a : ℕ → ℤ := fun i => (A.getD i 0 : ℤ) with ha
  set M : ℤ := ((dim * X ^ 2 : ℕ) : ℤ) with hM
  have hM0 : 0 ≤ M := by positivity
  have hgetA : ∀ i, (A.map (fun a : ℕ => Dbl.fin (a : ℚ))).getD i (.fin 0) = .fin (a i : ℚ) := by
    intro i
    rw [List.getD_eq_getElem?_getD, List.getElem?_map, ha]
    simp only [List.getD_eq_getElem?_getD]
    cases A[i]? <;> simp
  have hgetY : ∀ i < n, ((samples.map Spec.intSample).getD i ⟨[], .fin 0⟩).y = .fin (y i : ℚ) := by
    intro i hi
    rw [Perc.getD_lt _ _ _ (by simpa using hi), hy]
    simp only
    rw [Perc.getD_lt _ _ _ hi]
    simp [Spec.intSample]
  have hy1 : ∀ i < n, |y i| = 1 := by
    intro i hi
    rw [hy]; simp only
    rw [Perc.getD_lt _ _ _ hi]
    rcases hl _ (List.getElem_mem hi) with h | h <;> rw [h] <;> rfl
  have ha0 : ∀ i, 0 ≤ a i := fun i => by simp [ha]
  have hsumA : ∑ i ∈ Finset.range n, a i = (A.sum : ℤ) := by
    rw [ha, ← hA]
    clear * -
    induction A using List.reverseRecOn with
    | nil => rfl
    | append_singleton l b ih =>
      rw [List.length_append, List.length_singleton, Finset.sum_range_succ, List.sum_append]
      have : ∑ i ∈ Finset.range l.length, (((l ++ [b]).getD i 0 : ℕ) : ℤ) = ∑ i ∈ Finset.range l.length, ((l.getD i 0 : ℕ) : ℤ) := by
        refine Finset.sum_congr rfl fun i hi => ?_
        rw [List.getD_eq_getElem?_getD, List.getD_eq_getElem?_getD, List.getElem?_append_left (by simpa using hi)]
      simp only at this ih ⊢
      rw [this, ih]
      simp
  have hcond : ∀ i, ((Dbl.fin 0).lt (.fin (a i : ℚ))) = decide (0 < a i) := by
    intro i; simp [Dbl.lt]
  have hS0 : (0 : ℤ) ≤ A.sum := by positivity
  have hcz : (A.sum : ℤ) ^ 2 * (1 + M) ≤ 2 ^ 53 := by rw [hM]; exact_mod_cast hc
  have hSS : (A.sum : ℤ) ≤ (A.sum : ℤ) ^ 2 := by
    rcases Nat.eq_zero_or_pos A.sum with h | h
    · rw [h]; simp
    · have : (1 : ℤ) ≤ A.sum := by exact_mod_cast h
      nlinarith
  have ha1 : ∀ i < n, a i ≤ A.sum := by
    intro i hi
    rw [← hsumA]
    exact Finset.single_le_sum (fun j _ => ha0 j) (Finset.mem_range.2 hi)
  have hS53 : (A.sum : ℤ) ≤ 2 ^ 53 := by nlinarith
  have hSM : (A.sum : ℤ) * M ≤ 2 ^ 53 := by nlinarith
  -- the inner sums
  have hterm : ∀ i < n, ∀ j < n, |y j * a j * intGram dim samples j i| ≤ a j * M := by
    intro i hi j hj
    rw [abs_mul, abs_mul, hy1 j hj, one_mul, abs_of_nonneg (ha0 j)]
    exact mul_le_mul_of_nonneg_left (gram_bound hx hj hi) (ha0 j)
  have habs : ∀ i < n, ∑ j ∈ Finset.range n, |y j * a j * intGram dim samples j i| ≤ A.sum * M := by
    intro i hi
    calc _ ≤ ∑ j ∈ Finset.range n, a j * M := Finset.sum_le_sum fun j hj => hterm i hi j (Finset.mem_range.1 hj)
      _ = _ := by rw [← Finset.sum_mul, hsumA]
  have hinner : ∀ i < n, featureInner (matrix (Fp.kernel pow exp .innerProduct param dim) (samples.map Spec.intSample))
      (A.map (fun a : ℕ => .fin (a : ℚ))) (samples.map Spec.intSample) i =
      .fin ((∑ j ∈ Finset.range n, y j * a j * intGram dim samples j i : ℤ) : ℚ) := by
    intro i hi
    unfold featureInner
    simp only [hgetA, hcond, List.length_map]
    refine fold_whole (fun j => decide (0 < a j)) _ _ n ?_ ?_ ((habs i hi).trans hSM)
    · intro j hj _
      have hg : Fp.matrix (Fp.kernel pow exp .innerProduct param dim) (samples.map Spec.intSample) j i =
          .fin (intGram dim samples j i : ℚ) := gram_double hx hdx hj hi
      rw [hgetY j hj, hg, mul_whole, mul_whole]
      · refine (hterm i hi j hj).trans (le_trans ?_ hSM)
        exact mul_le_mul_of_nonneg_right (ha1 j hj) hM0
      · rw [abs_mul, hy1 j hj, one_mul, abs_of_nonneg (ha0 j)]
        exact (ha1 j hj).trans hS53
    · intro j _ h
      have : a j = 0 := le_antisymm (by simpa using h) (ha0 j)
      rw [this]; ring
  have hinnerb : ∀ i < n, |∑ j ∈ Finset.range n, y j * a j * intGram dim samples j i| ≤ A.sum * M := fun i hi =>
    (Finset.abs_sum_le_sum_abs _ _).trans (habs i hi)
  have hout : ∀ i < n, |a i * y i * ∑ j ∈ Finset.range n, y j * a j * intGram dim samples j i| ≤ a i * (A.sum * M) := by
    intro i hi
    rw [abs_mul, abs_mul, hy1 i hi, mul_one, abs_of_nonneg (ha0 i)]
    exact mul_le_mul_of_nonneg_left (hinnerb i hi) (ha0 i)
  have hout1 : ∑ i ∈ Finset.range n, |a i * y i * ∑ j ∈ Finset.range n, y j * a j * intGram dim samples j i| ≤ 2 ^ 53 := by
    calc _ ≤ ∑ i ∈ Finset.range n, a i * (A.sum * M) := Finset.sum_le_sum fun i hi => hout i (Finset.mem_range.1 hi)
      _ = A.sum * (A.sum * M) := by rw [← Finset.sum_mul, hsumA]
      _ ≤ 2 ^ 53 := by nlinarith
  have hmain : featureSum (matrix (Fp.kernel pow exp .innerProduct param dim) (samples.map Spec.intSample))
      (A.map (fun a : ℕ => .fin (a : ℚ))) (samples.map Spec.intSample) =
      .fin ((∑ i ∈ Finset.range n, a i * y i * ∑ j ∈ Finset.range n, y j * a j * intGram dim samples j i : ℤ) : ℚ) := by
    unfold featureSum
    simp only [hgetA, hcond, List.length_map]
    refine fold_whole (fun j => decide (0 < a j)) _ _ n ?_ ?_ hout1
    · intro i hi _
      rw [hgetY i hi, hinner i hi, mul_whole, mul_whole]
      · refine (Finset.single_le_sum (f := fun i => |a i * y i * ∑ j ∈ Finset.range n, y j * a j * intGram dim samples j i|)
          (fun _ _ => abs_nonneg _) (Finset.mem_range.2 hi)).trans hout1
      · rw [abs_mul, hy1 i hi, mul_one, abs_of_nonneg (ha0 i)]
        exact (ha1 i hi).trans hS53
    · intro i _ h
      have : a i = 0 := le_antisymm (by simpa using h) (ha0 i)
      rw [this]; ring
  rw [hmain]
  congr 2
  -- the algebra
  have : ∀ k, (∑ i ∈ Finset.range n, a i * y i * (samples.getD i ⟨[], 0⟩).x.getD k 0) ^ 2 =
      ∑ i ∈ Finset.range n, ∑ j ∈ Finset.range n, a i * y i * (y j * a j * ((samples.getD j ⟨[], 0⟩).x.getD k 0 *
        (samples.getD i ⟨[], 0⟩).x.getD k 0)) := by
    intro k
    rw [sq, Finset.sum_mul_sum]
    refine Finset.sum_congr rfl fun i _ => Finset.sum_congr rfl fun j _ => by ring
  rw [Finset.sum_congr rfl (fun k _ => this k), Finset.sum_comm]
  refine Finset.sum_congr rfl fun i _ => ?_
  rw [Finset.sum_comm, Finset.mul_sum]
  refine Finset.sum_congr rfl fun j _ => ?_
  rw [← Finset.mul_sum, ← Finset.mul_sum]
  unfold intGram
  rw [gram_sum]

/-- Two samples: the doubles nearest to 3/10 and 7/10, labelled 1 and -1. -/
def tenths : List (Sample Dbl) := [⟨[rnd (3 / 10)], .fin 1⟩, ⟨[rnd (7 / 10)], .fin (-1)⟩]

/-- **C235 (refuted: the norm)** With multipliers 7 and 3 for 3/10 and 7/10 the number whose root `featureSpaceNorm` takes is
negative: the norm is NaN with every root that has none of a negative number. -/
theorem C235_norm_refuted (sqrt exp : Dbl → Dbl) (pow : Dbl → Dbl → Dbl) (param : Dbl) (hs : ∀ q < 0, sqrt (.fin q) = .nan) :
    featureSpaceNorm sqrt (Fp.kernel pow exp .innerProduct param 1) [.fin 7, .fin 3] tenths = .nan := by
  have h : featureSum (matrix (Fp.dot 1) tenths) [.fin 7, .fin 3] tenths = .fin (-3 / 2 ^ 52) := by decide +kernel
  unfold featureSpaceNorm
  rw [show Fp.kernel pow exp .innerProduct param 1 = Fp.dot 1 from rfl, h]
  exact hs _ (by norm_num)

/-- The hypotheses are met. -/
example : featureSum (matrix (Fp.dot 2) ([⟨[1, 2], 1⟩, ⟨[3, -1], -1⟩, ⟨[0, 5], 1⟩].map Spec.intSample)) [.fin 2, .fin 1, .fin 0]
    ([⟨[1, 2], 1⟩, ⟨[3, -1], -1⟩, ⟨[0, 5], 1⟩].map Spec.intSample) = .fin (1 + 5 ^ 2) ∧
    ((2 + 1 + 0) ^ 2 * (1 + 2 * 5 ^ 2) ≤ 2 ^ 53) := by decide +kernel

end MLTK.Props
