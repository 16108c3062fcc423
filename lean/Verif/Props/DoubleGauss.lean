import Verif.Model.DoubleKernel
import Verif.Props.DoubleMetric
/-!
# C236: the Gaussian kernel in `double` arithmetic
-/
namespace MLTK.Spec
open MLTK.Fp

/-- What the library relies on `std::exp` for: one at zero, and between zero and one for everything up to zero, minus infinity
included. -/
structure Exponential (exp : Dbl → Dbl) : Prop where
  zero : exp (.fin 0) = .fin 1
  unit : ∀ s : Dbl, s.le (.fin 0) = true → ∃ e, exp s = .fin e ∧ 0 ≤ e ∧ e ≤ 1

end MLTK.Spec

namespace MLTK.Props
open MLTK.Fp
open MLTK.Perc (Sample)

attribute [local irreducible] Fp.rnd Fp.near Fp.huge Fp.two

theorem atPoint_getD (p : List ℚ) (i : ℕ) : (atPoint p).getD i (.fin 0) = .fin (p.getD i 0) := by
  simp only [atPoint, List.getD_eq_getElem?_getD, List.getElem?_map]
  cases p[i]? <;> rfl

theorem sqDist_D0 (dim : ℕ) (p q : List ℚ) : D0 (sqDist dim (atPoint p) (atPoint q)) := by
  induction dim with
  | zero => exact zero_D0
  | succ n ih =>
    unfold sqDist at *
    rw [List.range_succ, List.foldl_append]
    simp only [List.foldl_cons, List.foldl_nil]
    refine D0.add ih ?_
    simp only [atPoint_getD, Dbl.sub, Dbl.neg, Dbl.add]
    exact square_D0 _

theorem sqDist_comm (dim : ℕ) (p q : List ℚ) : sqDist dim (atPoint p) (atPoint q) = sqDist dim (atPoint q) (atPoint p) := by
  unfold sqDist
  congr 1
  funext s i
  simp only [atPoint_getD, Dbl.sub, Dbl.neg, Dbl.add]
  rw [mul_self_rnd]
  have : -(p.getD i 0 + -q.getD i 0) = q.getD i 0 + -p.getD i 0 := by ring
  rw [this]

theorem sqDist_self (dim : ℕ) (p : List ℚ) : sqDist dim (atPoint p) (atPoint p) = .fin 0 := by
  have h0 : rnd 0 = .fin 0 := rnd_eq_zero.2 near_zero
  induction dim with
  | zero => rfl
  | succ n ih =>
    unfold sqDist at *
    rw [List.range_succ, List.foldl_append, ih]
    simp only [List.foldl_cons, List.foldl_nil, atPoint_getD, Dbl.sub, Dbl.neg, Dbl.add, add_neg_cancel, h0, Dbl.mul, mul_zero,
      add_zero]

/-- The argument of `std::exp`. -/
theorem gauss_arg {s : Dbl} (hs : D0 s) {g : ℚ} (hg : 0 < g) : (((Dbl.fin (-1)).mul s).mul (.fin g)).le (.fin 0) = true := by
  have key : ∀ t : Dbl, (t = .inf true ∨ ∃ r, t = .fin r ∧ r ≤ 0) → ((t.mul (.fin g)).le (.fin 0) = true) := by
    rintro t (rfl | ⟨r, rfl, hr⟩)
    · simp [Dbl.mul, hg.ne', not_lt.2 hg.le, Dbl.le]
    · have : D0 (rnd (-(r * g))) := rnd_D0 (by nlinarith)
      simp only [Dbl.mul]
      rw [rnd_neg] at this
      cases h : rnd (r * g) with
      | nan => rw [h] at this; rcases this with ⟨q, hq, _⟩ | hq <;> cases hq
      | inf b =>
        rw [h] at this
        rcases this with ⟨q, hq, _⟩ | hq
        · cases hq
        · cases b
          · simp [Dbl.neg] at hq
          · rfl
      | fin x =>
        rw [h] at this
        rcases this with ⟨q, hq, _, h0⟩ | hq
        · simp only [Dbl.neg, Dbl.fin.injEq] at hq
          simp only [Dbl.le, decide_eq_true_eq]
          linarith
        · cases hq
  apply key
  rcases hs with ⟨q, rfl, hd, h0⟩ | rfl
  · right
    refine ⟨-q, ?_, by linarith⟩
    simp only [Dbl.mul]
    rw [neg_one_mul, rnd_neg, hd]
    rfl
  · left; simp [Dbl.mul]

/-- **C236 (values)** (partial: a positive parameter; and see the refutations)  Between points of finite `double`s the Gaussian kernel with a positive parameter
is a number between 0 and 1, the same in both directions, and 1 between a point and itself. -/
theorem C236_gaussian_partial (pow : Dbl → Dbl → Dbl) (exp : Dbl → Dbl) (he : Spec.Exponential exp) (g : ℚ) (hg : 0 < g) (dim : ℕ)
    (p q : List ℚ) :
    (∃ v, Fp.kernel pow exp .gaussian (.fin g) dim (atPoint p) (atPoint q) = .fin v ∧ 0 ≤ v ∧ v ≤ 1) ∧
    Fp.kernel pow exp .gaussian (.fin g) dim (atPoint p) (atPoint q) = Fp.kernel pow exp .gaussian (.fin g) dim (atPoint q) (atPoint p) ∧
    Fp.kernel pow exp .gaussian (.fin g) dim (atPoint p) (atPoint p) = .fin 1 := by
  have h0 : rnd 0 = .fin 0 := rnd_eq_zero.2 near_zero
  refine ⟨he.unit _ (gauss_arg (sqDist_D0 dim p q) hg), ?_, ?_⟩
  · simp only [Fp.kernel]; rw [sqDist_comm]
  · simp only [Fp.kernel]
    rw [sqDist_self]
    simp only [Dbl.mul, mul_zero, h0, zero_mul, he.zero]

/-- **C236 (matrix)** So in the kernel matrix of samples with finite features every entry is between 0 and 1, entries mirrored
at the diagonal agree, and those on the diagonal are 1. -/
theorem C236_matrix_partial (pow : Dbl → Dbl → Dbl) (exp : Dbl → Dbl) (he : Spec.Exponential exp) (g : ℚ) (hg : 0 < g) (dim : ℕ)
    (pts : List (List ℚ)) (y : Dbl) (i j : ℕ) (hi : i < pts.length) (hj : j < pts.length) :
    (∃ v, Fp.matrix (Fp.kernel pow exp .gaussian (.fin g) dim) (pts.map fun p => ⟨atPoint p, y⟩) i j = .fin v ∧ 0 ≤ v ∧ v ≤ 1) ∧
    Fp.matrix (Fp.kernel pow exp .gaussian (.fin g) dim) (pts.map fun p => ⟨atPoint p, y⟩) i j =
      Fp.matrix (Fp.kernel pow exp .gaussian (.fin g) dim) (pts.map fun p => ⟨atPoint p, y⟩) j i ∧
    Fp.matrix (Fp.kernel pow exp .gaussian (.fin g) dim) (pts.map fun p => ⟨atPoint p, y⟩) i i = .fin 1 := by
  have hget : ∀ k (hk : k < pts.length), ((pts.map fun p => (⟨atPoint p, y⟩ : Sample Dbl)).getD k ⟨[], .fin 0⟩).x = atPoint pts[k] := by
    intro k hk
    simp [List.getD_eq_getElem?_getD, hk]
  have hij := C236_gaussian_partial pow exp he g hg dim pts[i] pts[j]
  have hji := C236_gaussian_partial pow exp he g hg dim pts[j] pts[i]
  have hii := C236_gaussian_partial pow exp he g hg dim pts[i] pts[i]
  unfold Fp.matrix
  rw [hget i hi, hget j hj]
  refine ⟨?_, ?_, ?_⟩
  · split_ifs
    · exact hij.1
    · exact hji.1
  · split_ifs with h1 h2 h2
    · exact hij.2.1
    · rfl
    · rfl
    · exact hji.2.1
  · rw [if_pos (le_refl i)]; exact hii.2.2

/-- **C236 (refuted: different points)** Different points can have the value 1 of a point with itself. -/
theorem C236_distinct_refuted : ∀ (pow : Dbl → Dbl → Dbl) (exp : Dbl → Dbl), exp (.fin 0) = .fin 1 →
    ¬ ∀ (g : ℚ) (dim : ℕ) (p q : List ℚ), 0 < g → p.length = dim → q.length = dim → (∀ a ∈ p ++ q, IsDbl a) → p ≠ q →
      Fp.kernel pow exp .gaussian (.fin g) dim (atPoint p) (atPoint q) ≠ .fin 1 := by
  intro pow exp he h
  refine h 1 1 [1 / 2 ^ 600] [0] (by norm_num) rfl rfl (by decide +kernel) (by decide +kernel) ?_
  have : ((Dbl.fin (-1)).mul (sqDist 1 (atPoint [1 / 2 ^ 600]) (atPoint [0]))).mul (.fin 1) = .fin 0 := by decide +kernel
  simp only [Fp.kernel]
  rw [this, he]

/-- **C236 (refuted: parameter zero)** With the parameter 0 the value is not 1 for all points: of those far apart `std::exp` is
asked for NaN. -/
theorem C236_zero_refuted : ∀ (pow : Dbl → Dbl → Dbl) (exp : Dbl → Dbl), exp .nan = .nan →
    ∃ p q : List ℚ, (∀ a ∈ p ++ q, IsDbl a) ∧ Fp.kernel pow exp .gaussian (.fin 0) 1 (atPoint p) (atPoint q) = .nan := by
  intro pow exp he
  refine ⟨[2 ^ 600], [0], by decide +kernel, ?_⟩
  have : ((Dbl.fin (-1)).mul (sqDist 1 (atPoint [2 ^ 600]) (atPoint [0]))).mul (.fin 0) = .nan := by decide +kernel
  simp only [Fp.kernel]
  rw [this, he]

/-- The hypotheses are met: an `exp` as required, and a value that is neither 0 nor 1. -/
example : ∃ exp, Spec.Exponential exp ∧
    Fp.kernel (fun a _ => a) exp .gaussian (.fin 1) 2 (atPoint [1, 2]) (atPoint [1, 3]) = .fin (1 / 2) := by
  refine ⟨fun s => match s with
    | .fin q => if q = 0 then .fin 1 else if q < 0 then .fin (1 / 2) else .inf false
    | .inf true => .fin 0
    | .inf false => .inf false
    | .nan => .nan, ⟨rfl, ?_⟩, by decide +kernel⟩
  intro s hs
  cases s with
  | nan => simp [Dbl.le] at hs
  | inf b => cases b <;> simp_all [Dbl.le]
  | fin q =>
    simp only [Dbl.le, decide_eq_true_eq] at hs
    by_cases h : q = 0
    · exact ⟨1, by simp [h], by norm_num, le_refl _⟩
    · exact ⟨1 / 2, by simp [h, lt_of_le_of_ne hs h], by norm_num, by norm_num⟩

end MLTK.Props
