import Verif.Props.Metric
import Verif.Spec.Distances
/-!
# C206: each distance functor computes the formula it is named after
-/
namespace MLTK.Props
open MLTK MLTK.Metric MLTK.PointM MLTK.Formula
open MLTK.Data (Res_bind_ok Res_bind_error Res_pure)

theorem over_sum (f : ℝ → ℝ → ℝ) : ∀ p q : List ℝ, p.length = q.length →
    Formula.over f p q = ∑ i ∈ Finset.range p.length, f (c p i) (c q i)
  | [], [], _ => by simp [Formula.over]
  | a :: p, b :: q, h => by
    have ih := over_sum f p q (by simpa using h)
    simp only [Formula.over] at ih
    simp only [Formula.over, List.zipWith_cons_cons, List.sum_cons, List.length_cons, Finset.sum_range_succ']
    rw [ih, add_comm]
    simp [c]
  | [], _ :: _, h => by simp at h
  | _ :: _, [], h => by simp at h

theorem over_congr {f g : ℝ → ℝ → ℝ} (h : ∀ a b, f a b = g b a) : ∀ p q : List ℝ,
    Formula.over f p q = Formula.over g q p := by
  intro p
  induction p with
  | nil => intro q; simp [Formula.over]
  | cons a p ih =>
    intro q
    cases q with
    | nil => simp [Formula.over]
    | cons b q =>
      have := ih q
      simp only [Formula.over] at this
      simp only [Formula.over, List.zipWith_cons_cons, List.sum_cons, this, h]

theorem inner_self (p : List ℝ) : Formula.inner p p = ∑ i ∈ Finset.range p.length, c p i ^ 2 := by
  rw [Formula.inner, over_sum _ p p rfl]
  exact Finset.sum_congr rfl (fun i _ => (sq (c p i)).symm)

/-- A functor given by `SumForm` computes the formula with the same summand and outer function. -/
theorem computes_of {dom : ℝ → Prop} {d g f F} (h : SumForm d g f)
    (hF : ∀ p q : List ℝ, F p q = g p.length (Formula.over f p q)) : Computes dom d F := by
  intro p q hl hne _ _
  rw [h p q hl hne, hF, over_sum f p q hl]

/-- **C206 (Lp)** Euclidean and Manhattan. -/
theorem C206_lp : Computes anyReal Metric.euclidean Formula.euclidean ∧
    Computes anyReal Metric.manhattan Formula.manhattan :=
  ⟨computes_of euclidean_sum fun _ _ => rfl, computes_of manhattan_sum fun _ _ => rfl⟩

/-- **C206 (L1)** Canberra, Sorensen and the average Manhattan distance. -/
theorem C206_l1_partial : Computes positive Metric.canberra Formula.canberra ∧
    Computes positive Metric.sorensen Formula.sorensen ∧
    Computes anyReal Metric.avgManhattan Formula.meanCharacter := by
  refine ⟨computes_of canberra_sum fun _ _ => rfl, ?_, computes_of avgManhattan_sum fun _ _ => rfl⟩
  intro p q hl _ _ _
  simp [Metric.sorensen, absdiff_ok p q hl, add_ok p q hl, Formula.sorensen, over_sum _ p q hl]

/-- **C206 (inner product)** Jaccard, cosine and Dice. -/
theorem C206_inner_product_partial : Computes positive Metric.jaccard Formula.jaccard ∧
    Computes positive Metric.cosine Formula.cosine ∧ Computes positive Metric.dice Formula.dice := by
  refine ⟨?_, ?_, ?_⟩ <;> intro p q hl _ _ _
  · rw [Metric.jaccard, sqdiff_ok p q hl, sq_ok, sq_ok, dot_ok p q hl, Formula.jaccard, inner_self, inner_self,
      Formula.inner, over_sum _ p q hl, over_sum _ p q hl]
    rfl
  · rw [Metric.cosine, sq_ok, sq_ok, dot_ok p q hl, Formula.cosine, length2, length2, inner_self, inner_self,
      Formula.inner, over_sum _ p q hl]
    rfl
  · rw [Metric.dice, sq_ok, sq_ok, dot_ok p q hl, Formula.dice, inner_self, inner_self,
      Formula.inner, over_sum _ p q hl]
    rfl

/-- **C206 (squared chord)** Squared chord, Matusita and Hellinger. -/
theorem C206_squared_chord_partial : Computes positive Metric.squaredChord Formula.squaredChord ∧
    Computes positive Metric.matusita Formula.matusita ∧ Computes positive Metric.hellinger Formula.hellinger :=
  ⟨computes_of squaredChord_sum fun _ _ => rfl, computes_of matusita_sum fun _ _ => rfl,
    computes_of hellinger_sum fun _ _ => rfl⟩

/-- **C206 (squared L2 and vicissitude)** All but Clark, the average distance and the minimum. -/
theorem C206_squared_l2_partial : Computes anyReal Metric.squaredEuclidean Formula.squaredEuclidean ∧
    Computes positive Metric.neyman Formula.neyman ∧ Computes positive Metric.pearson Formula.pearson ∧
    Computes positive Metric.squared squaredChi ∧
    Computes positive Metric.probabilisticSymmetric Formula.probabilisticSymmetric ∧
    Computes positive Metric.divergence Formula.divergence ∧
    Computes positive Metric.additiveSymmetric Formula.additiveSymmetric ∧
    Computes positive Metric.squaredChiSquared Formula.squaredChiSquared ∧
    Computes positive Metric.maxSymmetric Formula.maxSymmetric := by
  refine ⟨computes_of squaredEuclidean_sum fun _ _ => rfl, computes_of neyman_sum fun _ _ => rfl,
    computes_of pearson_sum fun _ _ => rfl, computes_of squared_sum fun _ _ => rfl,
    computes_of probabilisticSymmetric_sum fun _ _ => rfl, computes_of divergence_sum fun _ _ => rfl,
    computes_of additiveSymmetric_sum fun _ _ => rfl, computes_of squaredChiSquared_sum fun _ _ => rfl, ?_⟩
  intro p q hl hne _ _
  have h1 := neyman_sum p q hl hne
  have h2 := pearson_sum p q hl hne
  unfold Metric.neyman at h1; unfold Metric.pearson at h2
  rw [Metric.maxSymmetric, h1, h2, Formula.maxSymmetric, Formula.neyman, Formula.pearson, over_sum _ p q hl,
    over_sum _ p q hl]
  rfl

theorem kDivergence'_swap (p q : List ℝ) (hl : p.length = q.length) (hne : p ≠ []) :
    Metric.kDivergence' p q = .ok (Formula.kDivergence q p) := by
  rw [kDivergence'_sum p q hl hne, Formula.kDivergence,
    ← over_congr (f := fun a b => b * Real.log (2 * b / (a + b))) (fun a b => by rw [add_comm]), over_sum _ p q hl]

theorem kDivergence_is : Computes positive Metric.kDivergence Formula.kDivergence :=
  computes_of kDivergence_sum fun _ _ => rfl

/-- **C206 (entropy)** Kullback-Leibler, Jeffreys, K divergence and Topsoe. -/
theorem C206_entropy_partial : Computes positive Metric.kullbackLeibler Formula.kullbackLeibler ∧
    Computes positive Metric.jeffreys Formula.jeffreys ∧ Computes positive Metric.kDivergence Formula.kDivergence ∧
    Computes positive Metric.topsoe Formula.topsoe := by
  refine ⟨computes_of kullbackLeibler_sum fun _ _ => rfl, computes_of jeffreys_sum fun _ _ => rfl, kDivergence_is, ?_⟩
  intro p q hl hne hp hq
  rw [Metric.topsoe, kDivergence_is p q hl hne hp hq, kDivergence'_swap p q hl hne]
  rfl

/-- **C206 (other)** Taneja; Hassanat on non-negative components; the average of Manhattan and Chebyshev, with the
value the Chebyshev functor gives (see C29 for it). -/
theorem C206_other_partial : Computes positive Metric.taneja Formula.taneja ∧
    Computes (fun v => 0 ≤ v) Metric.hassanat Formula.hassanat ∧
    ∀ (lo : ℝ) (p q : List ℝ), p.length = q.length → ∃ m, chebyshev lo p q = .ok m ∧
      averageL1Linf lo p q = .ok ((Formula.manhattan p q + m) / 2) := by
  refine ⟨computes_of taneja_sum fun _ _ => rfl, ?_, ?_⟩
  · intro p q hl hne hp hq
    rw [Metric.hassanat, hassanat_loop p q hl, zero_add, Formula.hassanat, Formula.over]
    congr 2
    clear hl hne
    induction p generalizing q with
    | nil => simp
    | cons a p ih =>
      cases q with
      | nil => simp
      | cons b q =>
        simp only [List.zipWith_cons_cons]
        rw [ih q (fun v hv => hp v (by simp [hv])) (fun v hv => hq v (by simp [hv]))]
        have hm : 0 ≤ min a b := le_min (hp a (by simp)) (hq b (by simp))
        simp [hassanatTerm, hm]
  · intro lo p q hl
    refine ⟨_, cheb_eq lo p q hl, ?_⟩
    rw [averageL1Linf, absdiff_ok p q hl, diff_ok p q hl, Formula.manhattan, over_sum _ p q hl]
    rfl

/-- **C206 (what the others compute)** The functors that do not compute their formula, in terms of formulas:
`Lorentzian` has the wrong sign under the logarithm, `NonIntersection` and `JensenDifference` are zero, `Chord`
divides by the squares of the norms, `Bhattacharyya` takes a root instead of a logarithm, `Clark` gives the square,
`Average` is zero from dimension two on, `JensenShannon` is the K divergence of the exchanged points,
`MinSymmetric` is the maximum and `KumarJohnson` has exponent one. -/
theorem C206_instead_partial (p q : List ℝ) (hl : p.length = q.length) (hne : p ≠ []) (hp : ∀ v ∈ p, 0 < v)
    (hq : ∀ v ∈ q, 0 < v) :
    Metric.lorentzian p q = .ok (Formula.over (fun a b => Real.log (1 - |a - b|)) p q) ∧
    Metric.nonIntersection p q = .ok 0 ∧ Metric.jensenDifference p q = .ok 0 ∧
    Metric.chord p q = .ok (Real.sqrt (2 - 2 * (Formula.inner p q / (Formula.inner p p * Formula.inner q q)))) ∧
    Metric.bhattacharyya p q = .ok (- Real.sqrt (Formula.over (fun a b => Real.sqrt (a * b)) p q)) ∧
    Metric.clark p q = .ok (Formula.clark p q ^ 2) ∧
    Metric.average p q = .ok (if p.length = 1 then Formula.average p q else 0) ∧
    Metric.jensenShannon p q = .ok (Formula.kDivergence q p) ∧
    Metric.minSymmetric p q = .ok (Formula.maxSymmetric p q) ∧
    Metric.kumarJohnson p q = .ok (Formula.over (fun a b => (a ^ 2 + b ^ 2) ^ 2 / (2 * (a * b))) p q) := by
  refine ⟨?_, ?_, ?_, ?_, ?_, ?_, ?_, ?_, ?_, ?_⟩
  · rw [lorentzian_sum p q hl hne, over_sum _ p q hl]
  · exact (C71_constant_refuted p q hl hne).1
  · exact (C71_constant_refuted p q hl hne).2.1
  · rw [Metric.chord, sq_ok, sq_ok, dot_ok p q hl, inner_self, inner_self, Formula.inner, over_sum _ p q hl]
    rfl
  · rw [bhattacharyya_sum p q hl hne, over_sum _ p q hl]
  · rw [clark_sum p q hl hne, Formula.clark, over_sum _ p q hl, Real.sq_sqrt]
    exact Finset.sum_nonneg fun _ _ => sq_nonneg _
  · split
    · rename_i h1
      rw [Metric.average, if_neg (by omega), sqdiff_ok p q hl, Formula.average, Formula.squaredEuclidean,
        over_sum _ p q hl, h1]
      simp
    · rename_i h1
      have : p.length ≠ 0 := by simpa using hne
      exact (C71_constant_refuted p q hl hne).2.2 (by omega)
  · rw [Metric.jensenShannon, kDivergence_is p q hl hne hp hq, kDivergence'_swap p q hl hne]
    simp [oneHalfInt]
  · rw [(C71_min_symmetric_refuted).1]
    exact C206_squared_l2_partial.2.2.2.2.2.2.2.2 p q hl hne hp hq
  · rw [kumarJohnson_sum p q hl hne, over_sum _ p q hl]
    simp

/-- **C206 (what Hassanat computes)** With the absolute value of the larger component where the formula has the
smaller one's. -/
theorem C206_hassanat_partial (p q : List ℝ) (hl : p.length = q.length) :
    Metric.hassanat p q = .ok (Formula.over (fun a b =>
      if 0 ≤ min a b then 1 - (1 + min a b) / (1 + max a b)
      else 1 - (1 + min a b + |min a b|) / (1 + max a b + |max a b|)) p q) := by
  rw [Metric.hassanat, hassanat_loop p q hl, zero_add]
  rfl

/-- **C206, negation.** None of the ten computes its formula on points with positive components, and `Hassanat` does
not on all points. -/
theorem C206_formula_refuted :
    ¬ Computes positive Metric.lorentzian Formula.lorentzian ∧
    ¬ Computes positive Metric.nonIntersection Formula.nonIntersection ∧
    ¬ Computes positive Metric.jensenDifference Formula.jensenDifference ∧
    ¬ Computes positive Metric.chord Formula.chord ∧
    ¬ Computes positive Metric.bhattacharyya Formula.bhattacharyya ∧
    ¬ Computes positive Metric.clark Formula.clark ∧
    ¬ Computes positive Metric.average Formula.average ∧
    ¬ Computes positive Metric.jensenShannon Formula.jensenShannon ∧
    ¬ Computes positive Metric.minSymmetric Formula.minSymmetric ∧
    ¬ Computes positive Metric.kumarJohnson Formula.kumarJohnson ∧
    ¬ Computes anyReal Metric.hassanat Formula.hassanat := by
  have key : ∀ {d F} (p q : List ℝ) (v : ℝ), Computes positive d F → p.length = q.length → p ≠ [] →
      (∀ v ∈ p, 0 < v) → (∀ v ∈ q, 0 < v) → d p q = .ok v → F p q = v := by
    intro d F p q v h hl hne hp hq hd
    rw [h p q hl hne hp hq] at hd
    exact Except.ok.inj hd
  have I := fun (p q : List ℝ) hl hne hp hq => C206_instead_partial p q hl hne hp hq
  refine ⟨fun h => ?_, fun h => ?_, fun h => ?_, fun h => ?_, fun h => ?_, fun h => ?_, fun h => ?_, fun h => ?_,
    fun h => ?_, fun h => ?_, fun h => ?_⟩
  · have := key [1] [3/2] _ h rfl (by simp) (by simp) (by simp)
      (I [1] [3/2] rfl (by simp) (by simp) (by simp)).1
    have h1 : 0 < Real.log (1 + |(1 : ℝ) - 3 / 2|) := Real.log_pos (by rw [abs_of_neg] <;> norm_num)
    have h2 : Real.log (1 - |(1 : ℝ) - 3 / 2|) < 0 :=
      Real.log_neg (by rw [abs_of_neg] <;> norm_num) (by rw [abs_of_neg] <;> norm_num)
    simp only [Formula.lorentzian, Formula.over, List.zipWith_cons_cons, List.zipWith_nil_left, List.sum_cons,
      List.sum_nil, add_zero] at this
    linarith
  · have := key [1] [2] _ h rfl (by simp) (by simp) (by simp)
      (I [1] [2] rfl (by simp) (by simp) (by simp)).2.1
    norm_num [Formula.nonIntersection, Formula.manhattan, Formula.over] at this
  · have := key [1] [2] _ h rfl (by simp) (by simp) (by simp)
      (I [1] [2] rfl (by simp) (by simp) (by simp)).2.2.1
    simp only [Formula.jensenDifference, Formula.over, List.zipWith_cons_cons, List.zipWith_nil_left, List.sum_cons,
      List.sum_nil, add_zero, Real.log_one] at this
    have h1 : Real.log ((2 : ℝ) ^ 2) = Real.log ((3 / 2 : ℝ) ^ 3) := by
      rw [Real.log_pow, Real.log_pow]
      norm_num at this ⊢
      linarith
    have h2 := Real.log_injOn_pos (by norm_num : (0 : ℝ) < 2 ^ 2) (by norm_num : (0 : ℝ) < (3 / 2) ^ 3) h1
    norm_num at h2
  · have := key [2] [2] _ h rfl (by simp) (by simp) (by simp)
      (I [2] [2] rfl (by simp) (by simp) (by simp)).2.2.2.1
    norm_num [Formula.chord, Formula.euclidean, Formula.over, Formula.inner, length2] at this
    have h1 : 0 < Real.sqrt 3 / Real.sqrt 2 := by positivity
    linarith
  · have := key [1] [1] _ h rfl (by simp) (by simp) (by simp)
      (I [1] [1] rfl (by simp) (by simp) (by simp)).2.2.2.2.1
    norm_num [Formula.bhattacharyya, Formula.over] at this
  · have := key [1] [2] _ h rfl (by simp) (by simp) (by simp)
      (I [1] [2] rfl (by simp) (by simp) (by simp)).2.2.2.2.2.1
    have h1 : Formula.clark [1] [2] = 1 / 3 := by
      rw [Formula.clark, show Formula.over (fun a b => ((a - b) / (|a| + |b|)) ^ 2) [1] [2] = (1 / 3 : ℝ) ^ 2 by
        norm_num [Formula.over], Real.sqrt_sq (by norm_num)]
    rw [h1] at this
    norm_num at this
  · have := key [1, 1] [2, 2] _ h rfl (by simp) (by simp) (by simp)
      (I [1, 1] [2, 2] rfl (by simp) (by simp) (by simp)).2.2.2.2.2.2.1
    norm_num [Formula.average, Formula.squaredEuclidean, Formula.over] at this
  · have := key [1] [3] _ h rfl (by simp) (by simp) (by simp)
      (I [1] [3] rfl (by simp) (by simp) (by simp)).2.2.2.2.2.2.2.1
    have h1 : Real.log (2 * 1 / (1 + 3)) < 0 := Real.log_neg (by norm_num) (by norm_num)
    have h2 : 0 < Real.log (2 * 3 / (3 + 1)) := Real.log_pos (by norm_num)
    simp only [Formula.jensenShannon, Formula.kDivergence, Formula.over, List.zipWith_cons_cons, List.zipWith_nil_left,
      List.sum_cons, List.sum_nil, add_zero] at this
    linarith
  · have := key [1] [2] _ h rfl (by simp) (by simp) (by simp)
      (I [1] [2] rfl (by simp) (by simp) (by simp)).2.2.2.2.2.2.2.2.1
    norm_num [Formula.minSymmetric, Formula.maxSymmetric, Formula.neyman, Formula.pearson, Formula.over] at this
  · have := key [4] [1] _ h rfl (by simp) (by simp) (by simp)
      (I [4] [1] rfl (by simp) (by simp) (by simp)).2.2.2.2.2.2.2.2.2
    have h1 : ((4 : ℝ) * 1) ^ (3 / 2 : ℝ) = 8 := by
      rw [show (4 : ℝ) * 1 = 2 ^ (2 : ℝ) by norm_num, ← Real.rpow_mul (by norm_num)]
      norm_num
    simp only [Formula.kumarJohnson, Formula.over, List.zipWith_cons_cons, List.zipWith_nil_left, List.sum_cons,
      List.sum_nil, add_zero, h1] at this
    norm_num at this
  · have := h [-2] [-1] rfl (by simp) (by simp) (by simp)
    rw [Metric.hassanat, hassanat_loop [-2] [-1] rfl] at this
    norm_num [hassanatTerm, Formula.hassanat, Formula.over] at this

/-- Points meeting the hypotheses, with a value: the Canberra distance of (1, 3) and (3, 1) is 1. -/
example : Metric.canberra [1, 3] [3, 1] = .ok 1 := by
  rw [C206_l1_partial.1 [1, 3] [3, 1] rfl (by simp) (by simp) (by simp)]
  norm_num [Formula.canberra, Formula.over]

end MLTK.Props
