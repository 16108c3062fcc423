import Mathlib.Tactic.NormNum
import Mathlib.Tactic.FieldSimp
import Mathlib.Tactic.Positivity
import Verif.Lemmas.Validation
import Verif.Props.DataCopy
/-!
# C52-C55, C85-C87: validation
-/
namespace MLTK.Props
open MLTK.Spec MLTK.Valid
open MLTK.Data (Res_bind_ok Res_bind_error Res_pure)

/-! ## C52: the confusion matrix -/

/-- C52, what the code computes: the matrix is transposed, rows are the answers and columns the labels;
the entries sum to the number of samples. -/
theorem C52_transposed_partial (classes : List Int) (hn : classes.Nodup) (h0 : classes ≠ []) (os : List Outcome)
    (hk : KnownLabels classes os) :
    ∃ m, confusion classes os = .ok m ∧ TableOf classes (fun answer label => predictedAs os label answer) m ∧
      total m = os.length := by
  have hl : 0 < classes.length := List.length_pos_iff.mpr h0
  refine ⟨_, confusion_table classes hn hl os, ?_, ?_⟩
  · apply tableOf_table
    intro i j a b ha hb
    unfold predictedAs
    apply List.countP_congr
    intro o ho
    have h1 := pos_eq_iff classes hn o.pred (hk o ho).2 i a ha
    have h2 := pos_eq_iff classes hn o.y (hk o ho).1 j b hb
    simp only [decide_eq_true_eq, h1, h2, and_comm]
  · rw [total_table]
    have := sum_table os (fun o => pos classes o.pred) (fun o => pos classes o.y) classes.length
      (fun o _ => pos_lt _ _ hl) (fun o _ => pos_lt _ _ hl) (fun _ _ => true)
    simpa using this

/-- Every sample is counted exactly once even when answers are not among the classes. -/
theorem C52_total (classes : List Int) (hn : classes.Nodup) (h0 : classes ≠ []) (os : List Outcome) :
    ∃ m, confusion classes os = .ok m ∧ total m = os.length := by
  have hl : 0 < classes.length := List.length_pos_iff.mpr h0
  refine ⟨_, confusion_table classes hn hl os, ?_⟩
  rw [total_table]
  have := sum_table os (fun o => pos classes o.pred) (fun o => pos classes o.y) classes.length
    (fun o _ => pos_lt _ _ hl) (fun o _ => pos_lt _ _ hl) (fun _ _ => true)
  simpa using this

/-- Labels 1, 1, -1 answered 1, -1, -1. -/
def threeAnswers : List Outcome := [⟨1, 1⟩, ⟨1, -1⟩, ⟨-1, -1⟩]

example : ([1, -1] : List Int).Nodup ∧ KnownLabels [1, -1] threeAnswers ∧
    confusion [1, -1] threeAnswers = .ok [[1, 0], [1, 1]] := by
  refine ⟨by decide, ?_, rfl⟩
  unfold KnownLabels; decide

/-- C52 refuted: one sample of class 1 was answered -1, yet the entry (1, -1) is zero. -/
theorem C52_orientation_refuted :
    ∃ (classes : List Int) (os : List Outcome) (m : List (List Nat)), classes.Nodup ∧ KnownLabels classes os ∧
      confusion classes os = .ok m ∧ ¬ ConfusionMatrix classes os m := by
  refine ⟨[1, -1], threeAnswers, [[1, 0], [1, 1]], by decide, by unfold KnownLabels; decide, rfl, ?_⟩
  intro h
  obtain ⟨row, h1, _, h2⟩ := h.2 0 1 rfl
  have h3 := h2 1 (-1) rfl
  cases h1
  revert h3
  decide

/-- C52 refuted: an answer that is not a class is counted as the first class. -/
theorem C52_unknown_answer_refuted (classes : List Int) (hn : classes.Nodup) (h0 : classes ≠ []) (os : List Outcome)
    (a : Int) (ha : a ∉ classes) :
    confusion classes (os.map (fun o => { o with pred := a })) =
      confusion classes (os.map (fun o => { o with pred := classes.headI })) := by
  have hl : 0 < classes.length := List.length_pos_iff.mpr h0
  rw [confusion_table classes hn hl, confusion_table classes hn hl]
  have h1 : pos classes a = 0 := by unfold pos; rw [if_neg ha]
  have h2 : pos classes classes.headI = 0 := by
    cases classes with
    | nil => simp at h0
    | cons c cs => simp [pos]
  simp only [List.countP_map, Function.comp_def, h1, h2]

example : (5 : Int) ∉ ([1, -1] : List Int) ∧
    confusion [1, -1] (threeAnswers.map (fun o => { o with pred := 5 })) = .ok [[2, 1], [0, 0]] := ⟨by decide, rfl⟩

/-! ## C53: accuracies -/

section
variable {K : Type} [Field K] [LinearOrder K] [IsStrictOrderedRing K]

/-- C53: when labels and answers are classes, the accuracy of the generated matrix is the percentage of
correct answers and lies in [0, 100].  Missing: answers that are not classes
(`C53_unknown_answer_refuted`) and the agreement with `accuracy` (`C53_scale_refuted`). -/
theorem C53_matrix_partial (classes : List Int) (hn : classes.Nodup) (os : List Outcome) (ho : os ≠ [])
    (hk : KnownLabels classes os) :
    ∃ m, confusion classes os = .ok m ∧
      confusionAccuracy (K := K) m = some (100 * (correct os : K) / (os.length : K)) ∧
      0 ≤ 100 * (correct os : K) / (os.length : K) ∧ 100 * (correct os : K) / (os.length : K) ≤ 100 := by
  obtain ⟨o, hoo⟩ := List.exists_mem_of_ne_nil os ho
  have hl : 0 < classes.length := List.length_pos_of_mem (hk o hoo).1
  refine ⟨_, confusion_table classes hn hl os, ?_, by positivity, ?_⟩
  · rw [confusionAccuracy_eq classes hl os ho]
    have : os.countP (fun o => decide (pos classes o.pred = pos classes o.y)) = correct os := by
      unfold correct
      apply List.countP_congr
      intro o ho
      simp only [decide_eq_true_eq, pos_inj classes _ _ (hk o ho).2 (hk o ho).1]
      exact eq_comm
    rw [this]
  · have hp : (0 : K) < os.length := by
      exact_mod_cast List.length_pos_iff.mpr ho
    have hc : (correct os : K) ≤ os.length := by
      exact_mod_cast List.countP_le_length
    rw [div_le_iff₀ hp]
    linarith

/-- `confusionMatrixAccuracy` of any square confusion matrix, in either orientation. -/
theorem C53_any_matrix (classes : List Int) (hn : classes.Nodup) (os : List Outcome) (ho : os ≠ [])
    (hk : KnownLabels classes os) (m : List (List Nat)) (hm : ConfusionMatrix classes os m) :
    confusionAccuracy (K := K) m = some (100 * (correct os : K) / (os.length : K)) := by
  obtain ⟨o, hoo⟩ := List.exists_mem_of_ne_nil os ho
  have hl : 0 < classes.length := List.length_pos_of_mem (hk o hoo).1
  rw [textbook_table classes hn os hk m hm]
  have hsw := confusionAccuracy_eq (K := K) classes hl (os.map (fun o => ⟨o.pred, o.y⟩)) (by simpa using ho)
  simp only [List.countP_map, Function.comp_def, List.length_map] at hsw
  rw [hsw]
  have : os.countP (fun o => decide (pos classes o.y = pos classes o.pred)) = correct os := by
    unfold correct
    apply List.countP_congr
    intro o ho
    simp only [decide_eq_true_eq, pos_inj classes _ _ (hk o ho).1 (hk o ho).2]
  rw [this]

omit [IsStrictOrderedRing K] in
/-- C53: `accuracy` is the fraction of correct answers. -/
theorem C53_accuracy_fraction [IsStrictOrderedRing K] (os : List Outcome) (ho : os ≠ []) :
    accuracy (K := K) os = some ((correct os : K) / (os.length : K)) := by
  have key : ∀ (l : List Outcome) (a : K),
      l.foldl (fun (acc : K) o => if o.pred = o.y then acc + 1 else acc) a = a + (correct l : K) := by
    intro l
    induction l with
    | nil => intro a; simp [correct]
    | cons o l ih =>
      intro a
      rw [List.foldl_cons, ih]
      unfold correct
      rw [List.countP_cons]
      by_cases h : o.pred = o.y
      · simp [h, add_assoc, add_comm]
      · simp [h, Ne.symm h]
  have hl : (os.length : K) ≠ 0 := by
    have : os.length ≠ 0 := fun hc => ho (List.length_eq_zero_iff.mp hc)
    exact_mod_cast this
  unfold accuracy
  rw [key, zero_add]
  unfold fdiv
  rw [if_neg hl]

/-- C53 refuted: the two accuracies disagree whenever one answer is correct: one is a hundred times the
other. -/
theorem C53_scale_refuted (classes : List Int) (hn : classes.Nodup) (os : List Outcome)
    (hk : KnownLabels classes os) (hc : 0 < correct os) :
    ∃ m, confusion classes os = .ok m ∧ confusionAccuracy (K := K) m ≠ accuracy (K := K) os := by
  have ho : os ≠ [] := by rintro rfl; simp [correct] at hc
  obtain ⟨m, h1, h2, _⟩ := C53_matrix_partial (K := K) classes hn os ho hk
  refine ⟨m, h1, ?_⟩
  rw [h2, C53_accuracy_fraction os ho]
  intro h
  have hp : (0 : K) < os.length := by exact_mod_cast List.length_pos_iff.mpr ho
  have hcp : (0 : K) < correct os := by exact_mod_cast hc
  have h3 := Option.some.inj h
  rw [div_left_inj' hp.ne'] at h3
  linarith

example : ([1, -1] : List Int).Nodup ∧ KnownLabels [1, -1] threeAnswers ∧ correct threeAnswers = 2 ∧
    confusionAccuracy (K := ℚ) [[1, 0], [1, 1]] = some (200 / 3) ∧ accuracy (K := ℚ) threeAnswers = some (2 / 3) := by
  refine ⟨by decide, by unfold KnownLabels; decide, by decide, by decide +kernel, by decide +kernel⟩

end

/-- C53 refuted: with labels all of the first class and answers none of which is a class, the matrix
reports 100 % although no answer is correct. -/
theorem C53_unknown_answer_refuted :
    ∃ (classes : List Int) (os : List Outcome) (m : List (List Nat)), classes.Nodup ∧ (∀ o ∈ os, o.y ∈ classes) ∧
      confusion classes os = .ok m ∧ correct os = 0 ∧ confusionAccuracy (K := ℚ) m = some 100 :=
  ⟨[1, -1], [⟨1, 7⟩, ⟨1, 8⟩], [[2, 0], [0, 0]], by decide, by decide, rfl, by decide, by decide +kernel⟩

/-- C53 refuted for an empty dataset: neither accuracy is a number. -/
theorem C53_empty_refuted (classes : List Int) (hn : classes.Nodup) (h0 : classes ≠ []) :
    accuracy (K := ℚ) [] = none ∧
      ∃ m, confusion classes [] = .ok m ∧ confusionAccuracy (K := ℚ) m = none := by
  have hl : 0 < classes.length := List.length_pos_iff.mpr h0
  refine ⟨by decide +kernel, _, confusion_table classes hn hl [], ?_⟩
  unfold confusionAccuracy
  dsimp only
  rw [accRows_table]
  simp [fdiv]

/-! ## C54, C85: reports -/

section
variable {K : Type} [Field K] [LinearOrder K] [IsStrictOrderedRing K]

/-- Ratio of two counts, for a denominator that is not zero. -/
theorem fdiv_counts (a b : Nat) (h : b ≠ 0) : fdiv (a : K) (b : K) = some ((a : K) / (b : K)) := by
  unfold fdiv
  rw [if_neg (by exact_mod_cast h)]

omit [IsStrictOrderedRing K] in
/-- C54: on a confusion matrix with rows for the labels, the counters of `metricsReport` are the correct
and wrong answers on positive and on other labels; with no positive labels given all are positive. -/
theorem C54_metrics_counts_partial (classes : List Int) (hn : classes.Nodup) (os : List Outcome)
    (hk : KnownLabels classes os) (cfm : List (List Nat)) (h : ConfusionMatrix classes os cfm) (size : Nat)
    (ls : List Int) (hls : ∀ l ∈ ls, l ∈ classes) :
    ∃ r, metricsReport (K := K) classes size cfm ls = .ok r ∧
      r.counts.tp = correctOn (fun l => decide (ls = [] ∨ l ∈ ls)) os ∧
      r.counts.tn = correctOn (fun l => !decide (ls = [] ∨ l ∈ ls)) os ∧
      r.counts.fp = wrongOn (fun l => !decide (ls = [] ∨ l ∈ ls)) os ∧
      r.counts.fn = wrongOn (fun l => decide (ls = [] ∨ l ∈ ls)) os ∧
      r.errors = wrong os := by
  refine ⟨_, metricsReport_textbook classes hn os hk cfm h size ls hls, rfl, rfl, rfl, rfl, ?_⟩
  show wrongOn (fun l => !decide (ls = [] ∨ l ∈ ls)) os + wrongOn (fun l => decide (ls = [] ∨ l ∈ ls)) os = wrong os
  unfold wrongOn wrong
  clear h hk
  induction os with
  | nil => rfl
  | cons o os ih =>
    simp only [List.countP_cons]
    cases hP : decide (ls = [] ∨ o.y ∈ ls) <;> by_cases hyp : o.y = o.pred <;> simp [hyp] at * <;> omega

omit [IsStrictOrderedRing K] in
/-- For two classes, `a` being positive, the counters are the textbook counts. -/
theorem report_two_classes (a b : Int) (hab : a ≠ b) (os : List Outcome) (hk : KnownLabels [a, b] os)
    (cfm : List (List Nat)) (h : ConfusionMatrix [a, b] os cfm) (size : Nat) :
    metricsReport (K := K) [a, b] size cfm [a] = .ok (finish size
      { tp := truePos (fun l => decide (l = a)) os
        tn := trueNeg (fun l => decide (l = a)) os
        fp := falsePos (fun l => decide (l = a)) os
        fn := falseNeg (fun l => decide (l = a)) os }) := by
  rw [metricsReport_textbook [a, b] (by simp [hab]) os hk cfm h size [a] (by simp)]
  have hb : ∀ o ∈ os, (o.y = a ∨ o.y = b) ∧ (o.pred = a ∨ o.pred = b) := by
    intro o ho
    have := hk o ho
    simpa using this
  have hc : ∀ (g g' : Outcome → Bool), (∀ o ∈ os, g o = g' o) → os.countP g = os.countP g' := by
    intro g g' hg
    apply List.countP_congr
    intro o ho
    rw [hg o ho]
  unfold correctOn wrongOn truePos trueNeg falsePos falseNeg
  have hba := Ne.symm hab
  congr 2
  congr 1 <;> apply hc <;> intro o ho <;> obtain ⟨h1 | h1, h2 | h2⟩ := hb o ho <;> simp [h1, h2, hab, hba]

/-- C54 for two classes `a` (positive) and `b` on a matrix with rows for the labels: the counters are the
textbook ones and each ratio whose denominator is not zero is the textbook ratio.  Missing: zero
denominators (`C54_zero_denominator_refuted`), more classes (`C54_many_classes_refuted`), the matrix the
library itself generates (`C54_pipeline_refuted`). -/
theorem C54_metrics_two_classes_partial (a b : Int) (hab : a ≠ b) (os : List Outcome) (hk : KnownLabels [a, b] os)
    (cfm : List (List Nat)) (h : ConfusionMatrix [a, b] os cfm) (size : Nat) (tp tn fp fn : Nat)
    (htp : tp = truePos (fun l => decide (l = a)) os) (htn : tn = trueNeg (fun l => decide (l = a)) os)
    (hfp : fp = falsePos (fun l => decide (l = a)) os) (hfn : fn = falseNeg (fun l => decide (l = a)) os) :
    ∃ r, metricsReport (K := K) [a, b] size cfm [a] = .ok r ∧
      r.counts = { tp := tp, tn := tn, fp := fp, fn := fn } ∧ r.errors = fp + fn ∧
      (tp + fn ≠ 0 → r.recall = some ((tp : K) / ((tp + fn : Nat) : K)) ∧ r.sensitivity = r.recall) ∧
      (tn + fp ≠ 0 → r.specificity = some ((tn : K) / ((tn + fp : Nat) : K))) ∧
      (tp + fp ≠ 0 → r.precision = some ((tp : K) / ((tp + fp : Nat) : K))) ∧
      (tp ≠ 0 → r.fscore = some (2 * (tp : K) / ((2 * tp + fp + fn : Nat) : K))) := by
  subst htp htn hfp hfn
  refine ⟨_, report_two_classes a b hab os hk cfm h size, rfl, rfl, ?_, ?_, ?_, ?_⟩
  · intro hd; exact ⟨fdiv_counts _ _ hd, rfl⟩
  · intro hd; exact fdiv_counts _ _ hd
  · intro hd; exact fdiv_counts _ _ hd
  · intro hd
    generalize truePos (fun l => decide (l = a)) os = tp at hd ⊢
    generalize falsePos (fun l => decide (l = a)) os = fp
    generalize falseNeg (fun l => decide (l = a)) os = fn
    show fscoreOf (fdiv (tp : K) ((tp + fp : Nat) : K)) (fdiv (tp : K) ((tp + fn : Nat) : K)) = _
    rw [fdiv_counts _ _ (by omega), fdiv_counts _ _ (by omega)]
    show fdiv _ _ = _
    have h0 : (0 : K) < tp := by exact_mod_cast Nat.pos_of_ne_zero hd
    have h1 : (0 : K) < ((tp + fp : Nat) : K) := by exact_mod_cast (by omega : 0 < tp + fp)
    have h2 : (0 : K) < ((tp + fn : Nat) : K) := by exact_mod_cast (by omega : 0 < tp + fn)
    have h3 : (0 : K) < ((2 * tp + fp + fn : Nat) : K) := by exact_mod_cast (by omega : 0 < 2 * tp + fp + fn)
    have h4 : (0 : K) < (tp : K) / ((tp + fp : Nat) : K) + (tp : K) / ((tp + fn : Nat) : K) := by positivity
    unfold fdiv
    rw [if_neg h4.ne']
    congr 1
    rw [div_eq_div_iff h4.ne' h3.ne']
    field_simp
    push_cast
    ring

/-- The textbook matrix of `threeAnswers`. -/
def threeMatrix : List (List Nat) := [[1, 1], [0, 1]]

theorem threeMatrix_ok : ConfusionMatrix [1, -1] threeAnswers threeMatrix := by
  refine ⟨rfl, ?_⟩
  intro i a ha
  match i, ha with
  | 0, ha =>
    cases ha
    refine ⟨_, rfl, rfl, ?_⟩
    intro j b hb
    match j, hb with
    | 0, hb => cases hb; decide
    | 1, hb => cases hb; decide
    | j + 2, hb => simp at hb
  | 1, ha =>
    cases ha
    refine ⟨_, rfl, rfl, ?_⟩
    intro j b hb
    match j, hb with
    | 0, hb => cases hb; decide
    | 1, hb => cases hb; decide
    | j + 2, hb => simp at hb
  | i + 2, ha => simp at ha

example : (metricsReport (K := ℚ) [1, -1] 3 threeMatrix [1]) = .ok
    { counts := { tp := 1, tn := 1, fp := 0, fn := 1 }, errors := 1, accuracy := some (1 / 3), error := some (2 / 3),
      sensitivity := some (1 / 2), specificity := some 1, precision := some 1, recall := some (1 / 2),
      fscore := some (2 / 3) } := by decide +kernel

omit [IsStrictOrderedRing K] in
/-- C54 refuted on the library's own matrix: for two classes the report made from
`generateConfusionMatrix` has false positives and false negatives exchanged, hence also precision and
recall. -/
theorem C54_pipeline_refuted (a b : Int) (hab : a ≠ b) (os : List Outcome) (hk : KnownLabels [a, b] os) (size : Nat) :
    ∃ m r, confusion [a, b] os = .ok m ∧ metricsReport (K := K) [a, b] size m [a] = .ok r ∧
      r.counts.fp = falseNeg (fun l => decide (l = a)) os ∧ r.counts.fn = falsePos (fun l => decide (l = a)) os ∧
      r.precision = fdiv (truePos (fun l => decide (l = a)) os : K)
        ((truePos (fun l => decide (l = a)) os + falseNeg (fun l => decide (l = a)) os : Nat) : K) ∧
      r.recall = fdiv (truePos (fun l => decide (l = a)) os : K)
        ((truePos (fun l => decide (l = a)) os + falsePos (fun l => decide (l = a)) os : Nat) : K) := by
  have hn : ([a, b] : List Int).Nodup := by simp [hab]
  obtain ⟨m, h1, h2, _⟩ := C52_transposed_partial [a, b] hn (by simp) os hk
  have hm : ConfusionMatrix [a, b] (os.map (fun o => ⟨o.pred, o.y⟩)) m := by
    unfold ConfusionMatrix
    convert h2 using 3
    unfold predictedAs
    simp only [List.countP_map, Function.comp_def, and_comm]
  have hk' : KnownLabels [a, b] (os.map (fun o => ⟨o.pred, o.y⟩)) := by
    intro o ho
    obtain ⟨o', ho', rfl⟩ := List.mem_map.mp ho
    exact ⟨(hk o' ho').2, (hk o' ho').1⟩
  have h3 := report_two_classes (K := K) a b hab _ hk' m hm size
  have e1 : truePos (fun l => decide (l = a)) (os.map (fun o => ⟨o.pred, o.y⟩)) = truePos (fun l => decide (l = a)) os := by
    unfold truePos; simp only [List.countP_map, Function.comp_def, Bool.and_comm]
  have e2 : falsePos (fun l => decide (l = a)) (os.map (fun o => ⟨o.pred, o.y⟩)) = falseNeg (fun l => decide (l = a)) os := by
    unfold falsePos falseNeg; simp only [List.countP_map, Function.comp_def, Bool.and_comm]
  have e3 : falseNeg (fun l => decide (l = a)) (os.map (fun o => ⟨o.pred, o.y⟩)) = falsePos (fun l => decide (l = a)) os := by
    unfold falsePos falseNeg; simp only [List.countP_map, Function.comp_def, Bool.and_comm]
  rw [e1, e2, e3] at h3
  exact ⟨m, _, h1, h3, rfl, rfl, rfl, rfl⟩

/-- The exchange shows: recall is 1/2 but the report says 1. -/
example : falseNeg (fun l => decide (l = 1)) threeAnswers = 1 ∧ falsePos (fun l => decide (l = 1)) threeAnswers = 0 ∧
    (confusion [1, -1] threeAnswers).toOption.bind
      (fun m => (metricsReport (K := ℚ) [1, -1] 3 m [1]).toOption.map (fun r => (r.counts.fp, r.counts.fn, r.recall))) =
      some (1, 0, some 1) := by
  refine ⟨by decide, by decide, by decide +kernel⟩

end

/-- C54 refuted for three classes: a negative sample answered with the other negative class counts as a
false positive although the answer is negative. -/
theorem C54_many_classes_refuted :
    ∃ (os : List Outcome) (cfm : List (List Nat)) (r : Report ℚ), KnownLabels [1, 2, 3] os ∧
      ConfusionMatrix [1, 2, 3] os cfm ∧ metricsReport [1, 2, 3] os.length cfm [1] = .ok r ∧
      falsePos (fun l => decide (l = 1)) os = 0 ∧ r.counts.fp = 1 ∧ r.precision = some (1 / 2) := by
  refine ⟨[⟨1, 1⟩, ⟨2, 3⟩], [[1, 0, 0], [0, 0, 1], [0, 0, 0]], _, by unfold KnownLabels; decide, ?_, rfl, by decide,
    by decide +kernel, by decide +kernel⟩
  refine ⟨rfl, ?_⟩
  intro i a ha
  have key : ∀ i < 3, ∃ row, ([[1, 0, 0], [0, 0, 1], [0, 0, 0]] : List (List Nat))[i]? = some row ∧ row.length = 3 ∧
      ∀ j < 3, row[j]? = some (predictedAs [⟨1, 1⟩, ⟨2, 3⟩] (([1, 2, 3] : List Int).getD i 0) (([1, 2, 3] : List Int).getD j 0)) := by
    intro i hi
    have : i = 0 ∨ i = 1 ∨ i = 2 := by omega
    rcases this with rfl | rfl | rfl <;> refine ⟨_, rfl, rfl, ?_⟩ <;> decide
  obtain ⟨hi, hia⟩ := List.getElem?_eq_some_iff.mp ha
  obtain ⟨row, h1, h2, h3⟩ := key i hi
  refine ⟨row, h1, h2, ?_⟩
  intro j b hb
  obtain ⟨hj, hjb⟩ := List.getElem?_eq_some_iff.mp hb
  rw [h3 j hj, List.getD_eq_getElem _ _ hi, List.getD_eq_getElem _ _ hj, hia, hjb]

/-- C54 refuted: with no sample of the positive class and none predicted so, precision, recall and
F-score are not numbers. -/
theorem C54_zero_denominator_refuted :
    ∃ (os : List Outcome) (r : Report ℚ), os ≠ [] ∧ KnownLabels [1, -1] os ∧
      (∃ m, confusion [1, -1] os = .ok m ∧ metricsReport [1, -1] os.length m [1] = .ok r) ∧
      r.precision = none ∧ r.recall = none ∧ r.fscore = none :=
  ⟨[⟨-1, -1⟩], _, by simp, by unfold KnownLabels; decide, ⟨_, rfl, rfl⟩, by decide +kernel, by decide +kernel,
    by decide +kernel⟩

/-- C54: a positive label that is not a class ends the program. -/
theorem C54_unknown_positive (classes ls : List Int) (size : Nat) (cfm : List (List Nat)) (h : ∃ l ∈ ls, l ∉ classes) :
    metricsReport (K := ℚ) classes size cfm ls = .error .assertFail := by
  unfold metricsReport
  rw [isPositive_unknown classes ls h]
  rfl

example : ∃ l ∈ ([1, 4] : List Int), l ∉ ([1, -1] : List Int) := ⟨4, by decide, by decide⟩

/-- C54 refuted: `print` shows the precision in place of recall and F-score. -/
theorem C54_print_refuted {K : Type} [Field K] (r : Report K) (h : r.recall ≠ r.precision) :
    ("Recall", r.recall) ∉ printed r ∧ ("Recall", r.precision) ∈ printed r ∧
      ("F1-score", r.precision) ∈ printed r := by
  refine ⟨?_, by simp [printed], by simp [printed]⟩
  simp [printed, h]

example : ∃ r : Report ℚ, metricsReport [1, -1] 3 threeMatrix [1] = .ok r ∧ r.recall ≠ r.precision :=
  ⟨_, rfl, by decide +kernel⟩

/-! ### `classificationReport` -/

section
variable {K : Type} [Field K] [LinearOrder K] [IsStrictOrderedRing K]

omit [Field K] [LinearOrder K] [IsStrictOrderedRing K] in
theorem labelsSeen_card (os : List Outcome) : (labelsSeen os).length = (occurringLabels os).card := by
  unfold labelsSeen occurringLabels
  rw [← List.card_toFinset]
  congr 1
  ext x
  simp only [List.mem_toFinset, List.mem_flatMap, List.mem_append, List.mem_map, List.mem_cons, List.not_mem_nil,
    or_false]
  constructor
  · rintro ⟨o, ho, rfl | rfl⟩
    · exact Or.inl ⟨o, ho, rfl⟩
    · exact Or.inr ⟨o, ho, rfl⟩
  · rintro (⟨o, ho, rfl⟩ | ⟨o, ho, rfl⟩)
    · exact ⟨o, ho, Or.inl rfl⟩
    · exact ⟨o, ho, Or.inr rfl⟩

/-- C54: when exactly two labels occur, the counters of a report that is returned are the correct and
wrong answers on label 1 and on the other label, and its accuracy is the fraction of correct answers. -/
theorem C54_classification_counts_partial (os : List Outcome) (h2 : (occurringLabels os).card = 2) (r : Report K)
    (h : classificationReport os = .ok r) :
    r.counts.tp = correctOn (fun l => decide (l = 1)) os ∧ r.counts.tn = correctOn (fun l => decide (l ≠ 1)) os ∧
      r.counts.fp = wrongOn (fun l => decide (l ≠ 1)) os ∧ r.counts.fn = wrongOn (fun l => decide (l = 1)) os ∧
      r.accuracy = some ((correct os : K) / (os.length : K)) := by
  have hlen : (os.length : K) ≠ 0 := by
    have : os.length ≠ 0 := by
      intro hc
      rw [List.length_eq_zero_iff.1 hc] at h2
      simp [occurringLabels] at h2
    exact_mod_cast this
  have hacc : fdiv (correct os : K) (os.length : K) = some ((correct os : K) / (os.length : K)) := by
    unfold fdiv; rw [if_neg hlen]
  rw [← hacc]
  rw [← labelsSeen_card] at h2
  unfold classificationReport at h
  rw [classify_fold] at h
  simp only [h2, decide_true, if_true, Nat.zero_add] at h
  unfold finishClass idiv at h
  dsimp only at h
  split_ifs at h
  all_goals first
    | (simp only [Res_bind_ok, Res_pure] at h; cases h; exact ⟨rfl, rfl, rfl, rfl, rfl⟩)
    | (exfalso; simp [Res_bind_ok, Res_bind_error] at h)

/-- C54 refuted: sensitivity, specificity, precision and recall of every returned report are 0 or 1. -/
theorem C54_integer_division_refuted (os : List Outcome) (r : Report K) (h : classificationReport os = .ok r) :
    ∀ x ∈ [r.sensitivity, r.specificity, r.precision, r.recall], x = some 0 ∨ x = some 1 := by
  have hq : ∀ a b : Nat, a ≤ b → ((a / b : Nat) : K) = 0 ∨ ((a / b : Nat) : K) = 1 := by
    intro a b hab
    rcases Nat.lt_or_ge a b with hlt | hge
    · left; rw [Nat.div_eq_of_lt hlt]; simp
    · have : a = b := by omega
      subst this
      rcases Nat.eq_zero_or_pos a with h0 | h0
      · left; subst h0; simp
      · right; rw [Nat.div_self h0]; simp
  unfold classificationReport finishClass idiv at h
  dsimp only at h
  generalize hT : (List.foldl (classify (decide ((labelsSeen os).length = 2))) (0, {}) os) = cr at h
  split_ifs at h
  all_goals first
    | (simp only [Res_bind_ok, Res_pure] at h
       cases h
       intro x hx
       simp only [List.mem_cons, List.not_mem_nil, or_false] at hx
       rcases hx with rfl | rfl | rfl | rfl
       · simpa using hq cr.2.tp (cr.2.tp + cr.2.fn) (by omega)
       · simpa using hq cr.2.tn (cr.2.fn + cr.2.tn) (by omega)
       · simpa using hq cr.2.tp (cr.2.tp + cr.2.fp) (by omega)
       · simpa using hq cr.2.tp (cr.2.tp + cr.2.fn) (by omega))
    | (exfalso; simp [Res_bind_ok, Res_bind_error] at h)

omit [IsStrictOrderedRing K] in
/-- C54 refuted: unless exactly two labels occur, the call divides by zero. -/
theorem C54_label_count_refuted (os : List Outcome) (h2 : (occurringLabels os).card ≠ 2) :
    classificationReport (K := K) os = .error .divByZero := by
  rw [← labelsSeen_card] at h2
  unfold classificationReport
  rw [classify_fold]
  simp only [h2, decide_false]
  rfl

/-- C54 refuted: it also divides by zero for two labels without a sample of label 1. -/
theorem C54_no_positive_refuted (os : List Outcome) (h : ∀ o ∈ os, o.y ≠ 1) :
    classificationReport (K := ℚ) os = .error .divByZero := by
  unfold classificationReport
  rw [classify_fold]
  have h1 : correctOn (fun l => decide (l = 1)) os = 0 := by
    unfold correctOn
    rw [List.countP_eq_zero]
    intro o ho
    simp [h o ho]
  have h3 : wrongOn (fun l => decide (l = 1)) os = 0 := by
    unfold wrongOn
    rw [List.countP_eq_zero]
    intro o ho
    simp [h o ho]
  rw [h1, h3]
  cases decide ((labelsSeen os).length = 2) <;> rfl

end

/-- Two samples of each of the labels 1 and -1, one of each answered wrongly. -/
def fourAnswers : List Outcome := [⟨1, 1⟩, ⟨1, -1⟩, ⟨-1, -1⟩, ⟨-1, 1⟩]

/-- The true recall and precision are 1/2; the report says 0. -/
example : (occurringLabels fourAnswers).card = 2 ∧
    classificationReport (K := ℚ) fourAnswers = .ok
      { counts := { tp := 1, tn := 1, fp := 1, fn := 1 }, errors := 0, error := some 0, accuracy := some (1 / 2),
        sensitivity := some 0, specificity := some 0, precision := some 0, recall := some 0, fscore := none } := by
  refine ⟨by decide, by decide +kernel⟩

/-- C54 refuted: the specificity divides by the wrong counters: every negative sample is answered
correctly, so it should be 1, and the report says 0. -/
theorem C54_specificity_refuted :
    ∃ (os : List Outcome) (r : Report ℚ), classificationReport os = .ok r ∧ wrongOn (fun l => decide (l ≠ 1)) os = 0 ∧
      0 < correctOn (fun l => decide (l ≠ 1)) os ∧ r.specificity = some 0 :=
  ⟨threeAnswers, _, rfl, by decide, by decide, by decide +kernel⟩

example : (occurringLabels [⟨1, 2⟩, ⟨3, 3⟩]).card ≠ 2 ∧ ∀ o ∈ ([⟨2, 3⟩, ⟨3, 3⟩] : List Outcome), o.y ≠ 1 := by decide

/-! ### C85 -/

section
variable {K : Type} [Field K] [LinearOrder K] [IsStrictOrderedRing K]

/-- C85: with no positive labels given, the accuracy of `metricsReport` is the fraction of correct
answers.  Missing: with positive labels (`C85_positive_labels_refuted`). -/
theorem C85_accuracy_partial (classes : List Int) (hn : classes.Nodup) (os : List Outcome) (ho : os ≠ [])
    (hk : KnownLabels classes os) (cfm : List (List Nat)) (h : ConfusionMatrix classes os cfm) :
    ∃ r, metricsReport (K := K) classes os.length cfm [] = .ok r ∧
      r.accuracy = some ((correct os : K) / (os.length : K)) ∧ r.error = some ((wrong os : K) / (os.length : K)) := by
  have hl : os.length ≠ 0 := fun hc => ho (List.length_eq_zero_iff.mp hc)
  have hlK : (os.length : K) ≠ 0 := by exact_mod_cast hl
  have hc : correctOn (fun l => decide (([] : List Int) = [] ∨ l ∈ ([] : List Int))) os = correct os := by
    unfold correctOn correct; simp
  have ha : (finish (K := K) os.length
      { tp := correctOn (fun l => decide (([] : List Int) = [] ∨ l ∈ ([] : List Int))) os
        tn := correctOn (fun l => !decide (([] : List Int) = [] ∨ l ∈ ([] : List Int))) os
        fp := wrongOn (fun l => !decide (([] : List Int) = [] ∨ l ∈ ([] : List Int))) os
        fn := wrongOn (fun l => decide (([] : List Int) = [] ∨ l ∈ ([] : List Int))) os }).accuracy =
      some ((correct os : K) / (os.length : K)) := by
    show fdiv _ _ = _
    rw [hc]
    exact fdiv_counts _ _ hl
  refine ⟨_, metricsReport_textbook classes hn os hk cfm h os.length [] (by simp), ha, ?_⟩
  show Option.map (fun x => 1 - x) (finish (K := K) os.length _).accuracy = _
  rw [ha, Option.map_some]
  congr 1
  have : (correct os : K) + (wrong os : K) = (os.length : K) := by
    have := List.length_eq_countP_add_countP (p := fun o : Outcome => decide (o.y = o.pred)) (l := os)
    unfold correct wrong
    have h2 : os.countP (fun o => decide (o.y ≠ o.pred)) = os.countP (fun a => decide ¬decide (a.y = a.pred) = true) := by
      apply List.countP_congr; intro o _; simp
    rw [h2]
    exact_mod_cast this.symm
  rw [eq_div_iff hlK, sub_mul, one_mul, div_mul_cancel₀ _ hlK, ← this]
  ring

/-- C85 refuted with positive labels: the accuracy misses every correctly answered sample of another
label. -/
theorem C85_positive_labels_refuted (classes : List Int) (hn : classes.Nodup) (os : List Outcome)
    (hk : KnownLabels classes os) (cfm : List (List Nat)) (h : ConfusionMatrix classes os cfm) (ls : List Int)
    (hls : ∀ l ∈ ls, l ∈ classes) (hne : ls ≠ []) (hm : ∃ o ∈ os, o.y ∉ ls ∧ o.y = o.pred) :
    ∃ r, metricsReport (K := K) classes os.length cfm ls = .ok r ∧
      r.accuracy ≠ some ((correct os : K) / (os.length : K)) := by
  obtain ⟨o, ho, hol, hop⟩ := hm
  have hl : os.length ≠ 0 := fun hc => by rw [List.length_eq_zero_iff.mp hc] at ho; simp at ho
  have hlK : (os.length : K) ≠ 0 := by exact_mod_cast hl
  refine ⟨_, metricsReport_textbook classes hn os hk cfm h os.length ls hls, ?_⟩
  show fdiv _ _ ≠ _
  rw [fdiv_counts _ _ hl]
  intro he
  have h1 := Option.some.inj he
  rw [div_left_inj' hlK] at h1
  have h2 : correctOn (fun l => decide (ls = [] ∨ l ∈ ls)) os = correct os := by exact_mod_cast h1
  have h3 : correctOn (fun l => decide (ls = [] ∨ l ∈ ls)) os +
      correctOn (fun l => !decide (ls = [] ∨ l ∈ ls)) os = correct os := by
    unfold correctOn correct
    clear h hk h1 h2 he hl hlK ho
    induction os with
    | nil => rfl
    | cons o os ih =>
      simp only [List.countP_cons]
      cases hP : decide (ls = [] ∨ o.y ∈ ls) <;> by_cases hyp : o.y = o.pred <;> simp [hyp] at * <;> omega
  have h4 : 0 < correctOn (fun l => !decide (ls = [] ∨ l ∈ ls)) os := by
    unfold correctOn
    rw [List.countP_pos_iff]
    refine ⟨o, ho, ?_⟩
    have : ¬ (ls = [] ∨ o.y ∈ ls) := by rintro (h | h); exacts [hne h, hol h]
    dsimp only
    rw [decide_eq_false this, decide_eq_true hop]; rfl
  omega

example : ConfusionMatrix [1, -1] threeAnswers threeMatrix ∧ ([1] : List Int) ≠ [] ∧
    (∃ o ∈ threeAnswers, o.y ∉ ([1] : List Int) ∧ o.y = o.pred) :=
  ⟨threeMatrix_ok, by simp, ⟨⟨-1, -1⟩, by simp [threeAnswers], by decide, rfl⟩⟩

/-! ## C55: k-fold -/

/-- C55: the error of `kfold` is the mean of the error rates of the folds, and the accuracy 100 minus it.
Missing: empty folds (`C55_empty_fold_refuted`) and the totals (`C55_totals_refuted`). -/
theorem C55_error_partial (two : Bool) (tests : List (List Outcome)) (h0 : tests ≠ []) (hne : ∀ t ∈ tests, t ≠ []) :
    (kfold (K := K) two tests).error = some (mean (tests.map errorRate)) ∧
      (kfold (K := K) two tests).accuracy = some (100 - mean (tests.map errorRate)) := by
  have h1 := kfold_error (K := K) two tests hne { error := some 0, counts := {}, totals := {} } 0 rfl
  have hl : (tests.length : K) ≠ 0 := by
    have : tests.length ≠ 0 := fun hc => h0 (List.length_eq_zero_iff.mp hc)
    exact_mod_cast this
  have he : (kfold (K := K) two tests).error = some (mean (tests.map errorRate)) := by
    unfold kfold
    dsimp only
    rw [h1, Option.bind_some, zero_add]
    unfold fdiv
    rw [if_neg hl]
    simp [mean]
  refine ⟨he, ?_⟩
  show Option.map (fun x => 100 - x) (kfold (K := K) two tests).error = _
  rw [he, Option.map_some]

example : (kfold (K := ℚ) true [threeAnswers, fourAnswers]).error = some (250 / 6) ∧
    (errorRate (K := ℚ) threeAnswers, errorRate (K := ℚ) fourAnswers) = (100 / 3, 50) := by
  refine ⟨by decide +kernel, by decide +kernel⟩

omit [IsStrictOrderedRing K] in
/-- C55 refuted: one empty test fold and neither error nor accuracy is a number. -/
theorem C55_empty_fold_refuted (two : Bool) (tests : List (List Outcome)) (h : [] ∈ tests) :
    (kfold (K := K) two tests).error = none ∧ (kfold (K := K) two tests).accuracy = none := by
  have he : (kfold (K := K) two tests).error = none := by
    unfold kfold
    dsimp only
    rw [kfold_error_empty two tests h, Option.bind_none]
  refine ⟨he, ?_⟩
  show Option.map (fun x => 100 - x) (kfold (K := K) two tests).error = _
  rw [he, Option.map_none]

omit [IsStrictOrderedRing K] in
/-- The number of samples counted by the loop of `kfold`. -/
theorem kfold_loop_sums (tests : List (List Outcome)) :
    let st := tests.foldl (foldStep true) ({ error := some 0, counts := {}, totals := {} } : KState K)
    st.counts.sum = (tests.map List.length).sum ∧
      st.totals.sum = ((List.range tests.length).map (fun j => ((tests.take (j + 1)).map List.length).sum)).sum := by
  induction tests using List.reverseRecOn with
  | nil => exact ⟨rfl, rfl⟩
  | append_singleton ts t ih =>
    obtain ⟨i1, i2⟩ := ih
    rw [List.foldl_append, List.foldl_cons, List.foldl_nil]
    dsimp only [foldStep]
    rw [testOne_fold]
    dsimp only
    rw [if_pos rfl, addCounts_sum, addCounts_sum, addCounts_sum, foldTally_sum, i1, i2]
    refine ⟨by simp, ?_⟩
    rw [List.length_append, List.length_singleton, List.range_succ, List.map_append, List.sum_append]
    congr 1
    · congr 1
      apply List.map_congr_left
      intro j hj
      have : j + 1 ≤ ts.length := List.mem_range.mp hj
      rw [List.take_append_of_le_length this]
    · rw [List.map_singleton, List.sum_singleton, List.take_of_length_le (by simp)]
      simp

omit [IsStrictOrderedRing K] in
/-- C55 refuted: for two classes the totals count the samples of fold `i` once for every fold from `i`
on; with at least two folds, the first not empty, more samples are counted than were tested. -/
theorem C55_totals_refuted (tests : List (List Outcome)) (t : List Outcome) (ts : List (List Outcome))
    (ht : tests = t :: ts) (hts : ts ≠ []) (hne : t ≠ []) :
    (tests.map List.length).sum < (kfold (K := K) true tests).totals.sum ∧
      (kfold (K := K) true tests).totals.sum =
        ((List.range tests.length).map (fun j => ((tests.take (j + 1)).map List.length).sum)).sum := by
  have h := (kfold_loop_sums (K := K) tests).2
  have h' : (kfold (K := K) true tests).totals.sum =
      ((List.range tests.length).map (fun j => ((tests.take (j + 1)).map List.length).sum)).sum := h
  refine ⟨?_, h'⟩
  rw [h', ht, List.length_cons, List.range_succ, List.map_append, List.sum_append, List.map_singleton,
    List.sum_singleton, List.take_of_length_le (by simp)]
  have h1 : 0 < t.length := List.length_pos_iff.mpr hne
  have h2 : 0 < ts.length := List.length_pos_iff.mpr hts
  have h3 : 0 < ((List.range ts.length).map (fun j => (((t :: ts).take (j + 1)).map List.length).sum)).sum := by
    obtain ⟨n, hn⟩ : ∃ n, ts.length = n + 1 := ⟨ts.length - 1, by omega⟩
    rw [hn, List.range_succ_eq_map, List.map_cons, List.sum_cons]
    simp only [Nat.zero_add, List.take_succ_cons, List.take_zero, List.map_cons, List.map_nil, List.sum_cons,
      List.sum_nil, Nat.add_zero]
    omega
  omega

example : (kfold (K := ℚ) true [threeAnswers, fourAnswers]).totals = { tp := 3, tn := 3, fp := 1, fn := 3 } := by
  decide +kernel

omit [IsStrictOrderedRing K] in
/-- C55 refuted: unless there are two classes, the totals stay zero. -/
theorem C55_multiclass_totals_refuted (tests : List (List Outcome)) :
    (kfold (K := K) false tests).totals = {} := by
  unfold kfold
  dsimp only
  have : ∀ st : KState K, (tests.foldl (foldStep false) st).totals = st.totals := by
    intro st
    induction tests generalizing st with
    | nil => rfl
    | cons t ts ih => rw [List.foldl_cons, ih]; rfl
  rw [this]

/-! ## C87: repeated k-fold -/

/-- C87: the error of `kkfold` is the mean of the errors of its runs.  Missing: the totals
(`C87_totals_refuted`). -/
theorem C87_average_partial (errors : List K) (h0 : errors ≠ []) :
    (kkfold (errors.map some)).error = some (mean errors) ∧
      (kkfold (errors.map some)).accuracy = some (100 - mean errors) := by
  have hl : (errors.length : K) ≠ 0 := by
    have : errors.length ≠ 0 := fun hc => h0 (List.length_eq_zero_iff.mp hc)
    exact_mod_cast this
  have hs : ∀ (l : List K) (a : K),
      (l.map some).foldl (fun (s : Option K) (e : Option K) => s.bind (fun a => e.map (a + ·))) (some a) =
        some (a + l.sum) := by
    intro l
    induction l with
    | nil => intro a; simp
    | cons x l ih =>
      intro a
      rw [List.map_cons, List.foldl_cons, Option.bind_some, Option.map_some, ih, List.sum_cons, add_assoc]
  unfold kkfold sumErrors
  rw [if_pos (by simpa using List.length_pos_iff.mpr h0), hs, zero_add]
  dsimp only
  rw [Option.bind_some, List.length_map]
  unfold fdiv
  rw [if_neg hl]
  exact ⟨by simp [mean], by simp [mean]⟩

omit [IsStrictOrderedRing K] in
/-- C87 refuted: the counters of `kkfold` are zero whatever the runs found. -/
theorem C87_totals_refuted (two : Bool) (runs : List (List (List Outcome))) :
    (kkfold (runs.map (fun tests => (kfold (K := K) two tests).error))).totals = {} := by
  unfold kkfold
  split_ifs <;> rfl

example : (kfold (K := ℚ) true [threeAnswers, fourAnswers]).totals ≠ {} ∧
    (kkfold ([[threeAnswers, fourAnswers]].map (fun tests => (kfold (K := ℚ) true tests).error))).error =
      some (250 / 6) := by
  refine ⟨by decide +kernel, by decide +kernel⟩

end

/-! ## C86: what a fold is trained on -/

section
variable {T : Type}
open MLTK.Data

/-- C86: a classifier that is not dual is trained on exactly the training samples of the fold.  Missing:
dual classifiers (`C86_dual_refuted`). -/
theorem C86_train_partial (m : Mem T) (train test : Data) (h : Consistent m train) :
    ∃ m' d, trainingSet m false train test = .ok (m', d) ∧ samples m' d = samples m train := by
  obtain ⟨m', c, h1, h2, _⟩ := C05_copy_independent m train h
  exact ⟨m', c, h1, h2⟩

/-- C86 refuted for dual classifiers: they are trained on the test samples and the training samples. -/
theorem C86_dual_refuted (m : Mem T) (train test : Data) (h1 : Consistent m train) (h2 : Consistent m test)
    (hdim : test.mdim ≤ train.mdim) (hc : test.cdistComputed = false) :
    ∃ m' d, trainingSet m true train test = .ok (m', d) ∧ samples m' d = samples m test ++ samples m train := by
  obtain ⟨c, e, hp, _, hcl, hdi, hmd, hty, hix, hms, hcn, hcd, hie, hna⟩ := copy_ok h2
  obtain ⟨m', c', e', hs1, hs2, hcl', hdi', hfn', hcons, _⟩ := C05_copy_independent m test h2
  rw [e] at e'
  cases e'
  have htr : Consistent (m ++ samples m test) train := by
    have hlv : ∀ r ∈ train.points, (m ++ samples m test)[r]? = m[r]? := by
      intro r hr
      obtain ⟨p, hp⟩ := h1.live r hr
      have : r < m.length := (List.getElem?_eq_some_iff.mp hp).1
      rw [List.getElem?_append_left this]
    have hsm : samples (m ++ samples m test) train = samples m train := by
      unfold samples
      apply List.filterMap_congr
      intro r hr
      exact hlv r hr
    exact ⟨fun r hr => by rw [hlv r hr]; exact h1.live r hr, h1.msize, h1.cls,
      by unfold labels; rw [hsm]; exact h1.counts, by rw [hsm]; exact h1.dims, h1.mdim0⟩
  have hsm : samples (m ++ samples m test) train = samples m train := by
    unfold samples
    apply List.filterMap_congr
    intro r hr
    obtain ⟨p, hp⟩ := h1.live r hr
    have : r < m.length := (List.getElem?_eq_some_iff.mp hp).1
    rw [List.getElem?_append_left this]
  obtain ⟨m2, d2, extra, hj, hsj, _⟩ := C07_join_partial (m ++ samples m test) c train hcons htr
    (by rw [hmd]; exact hdim) (by rw [hcd]; exact hc)
  refine ⟨m2, d2, ?_, ?_⟩
  · unfold trainingSet
    rw [if_pos rfl, e, Res_bind_ok]
    exact hj
  · rw [hsj, hs1, hsm]

example : ∃ m' d, trainingSet demoMem true demoData demoData = .ok (m', d) ∧ (samples m' d).length = 6 :=
  ⟨_, _, rfl, by decide +kernel⟩

end
end MLTK.Props
