import Verif.Model.ValidationMore
import Verif.Spec.ValidationMore
import Verif.Props.Validation
import Verif.Props.KernelOwner
/-!
# C195, C196: the rates of cross-validation, and the final validation of repeated cross-validation
-/
namespace MLTK.Props
open MLTK.Spec MLTK.Valid
open MLTK.Data (Res_bind_ok Res_bind_error Res_pure)

section
variable {K : Type} [Field K] [LinearOrder K] [IsStrictOrderedRing K]

private theorem tally_append (a b : List Outcome) : addCounts (foldTally true a) (foldTally true b) = foldTally true (a ++ b) := by
  simp [addCounts, foldTally, correctOn, wrongOn, List.countP_append]

private theorem tally_known {os : List Outcome} (h : KnownLabels [1, -1] os) :
    foldTally true os = { tp := truePos isOne os, tn := trueNeg isOne os, fp := falsePos isOne os, fn := falseNeg isOne os } := by
  have key : ∀ o ∈ os, (o.y = 1 ∨ o.y = -1) ∧ (o.pred = 1 ∨ o.pred = -1) := fun o ho => by
    have := h o ho
    simpa using this
  unfold foldTally correctOn wrongOn truePos trueNeg falsePos falseNeg
  congr 1 <;> refine List.countP_congr (fun o ho => ?_) <;>
    obtain ⟨h1 | h1, h2 | h2⟩ := key o ho <;> simp [isOne, h1, h2]

omit [IsStrictOrderedRing K] in
/-- The loop of `kfold` over the folds `tests`, after the answers `pre`. -/
private theorem rates_loop : ∀ (tests : List (List Outcome)) (pre : List Outcome) (p r t : Option K),
    (tests.foldl (rateStep true) (foldTally true pre, ⟨p, r, t⟩)).2 =
      ⟨(List.range tests.length).foldl (fun s j => addRate s (foldTally true (pre ++ firstFolds tests (j + 1))).tp
          (foldTally true (pre ++ firstFolds tests (j + 1))).fp) p,
       (List.range tests.length).foldl (fun s j => addRate s (foldTally true (pre ++ firstFolds tests (j + 1))).tp
          (foldTally true (pre ++ firstFolds tests (j + 1))).fn) r,
       (List.range tests.length).foldl (fun s j => addRate s (foldTally true (pre ++ firstFolds tests (j + 1))).tn
          (foldTally true (pre ++ firstFolds tests (j + 1))).fp) t⟩
  | [], pre, p, r, t => rfl
  | a :: tests, pre, p, r, t => by
    rw [List.foldl_cons]
    have h1 : rateStep true (foldTally true pre, (⟨p, r, t⟩ : Rates K)) a = (foldTally true (pre ++ a),
        ⟨addRate p (foldTally true (pre ++ a)).tp (foldTally true (pre ++ a)).fp,
          addRate r (foldTally true (pre ++ a)).tp (foldTally true (pre ++ a)).fn,
          addRate t (foldTally true (pre ++ a)).tn (foldTally true (pre ++ a)).fp⟩) := by
      simp only [rateStep, testOne_fold, tally_append, if_true]
    rw [h1, rates_loop tests (pre ++ a)]
    have h2 : ∀ j, pre ++ firstFolds (a :: tests) (j + 1) = pre ++ a ++ firstFolds tests j := fun j => by
      simp [firstFolds]
    have h3 : firstFolds tests 0 = [] := by simp [firstFolds]
    rw [List.length_cons, List.range_succ_eq_map]
    simp only [List.foldl_cons, List.foldl_map, h2, h3, List.append_nil]

omit [IsStrictOrderedRing K] in
private theorem addRate_sum (num den : Nat → Nat) (f : Nat → K) (hf : ∀ j, f j = (num j : K) / ((num j + den j : Nat) : K)) :
    ∀ (l : List Nat), (∀ j ∈ l, ((num j + den j : Nat) : K) ≠ 0) → ∀ a : K,
    l.foldl (fun s j => addRate s (num j) (den j)) (some a) = some (a + (l.map f).sum)
  | [], _, a => by simp
  | j :: l, h, a => by
    have : addRate (some a) (num j) (den j) = some (a + f j) := by
      have h0 := h j List.mem_cons_self
      rw [Nat.cast_add] at h0
      simp [addRate, fdiv, h0, hf]
    rw [List.foldl_cons, this, addRate_sum num den f hf l (fun i hi => h i (List.mem_cons_of_mem _ hi)), List.map_cons, List.sum_cons, add_assoc]

omit [IsStrictOrderedRing K] in
private theorem addRate_none (num den : Nat → Nat) : ∀ l : List Nat,
    l.foldl (fun (s : Option K) j => addRate s (num j) (den j)) none = none
  | [] => rfl
  | _ :: l => addRate_none num den l

private theorem known_first {tests : List (List Outcome)} (hk : ∀ t ∈ tests, KnownLabels [1, -1] t) (j : Nat) :
    KnownLabels [1, -1] (firstFolds tests j) := by
  intro o ho
  obtain ⟨t, ht, ho⟩ := List.mem_flatten.1 ho
  exact hk t (List.mem_of_mem_take ht) o ho

omit [IsStrictOrderedRing K] in
private theorem rates_eq (tests : List (List Outcome)) (hk : ∀ t ∈ tests, KnownLabels [1, -1] t) :
    kfoldRates (K := K) true tests =
      ⟨(List.range tests.length).foldl (fun s j => addRate s (truePos isOne (firstFolds tests (j + 1))) (falsePos isOne (firstFolds tests (j + 1)))) (some 0),
       (List.range tests.length).foldl (fun s j => addRate s (truePos isOne (firstFolds tests (j + 1))) (falseNeg isOne (firstFolds tests (j + 1)))) (some 0),
       (List.range tests.length).foldl (fun s j => addRate s (trueNeg isOne (firstFolds tests (j + 1))) (falsePos isOne (firstFolds tests (j + 1)))) (some 0)⟩ := by
  have h := rates_loop (K := K) tests [] (some 0) (some 0) (some 0)
  have h0 : foldTally true [] = {} := rfl
  simp only [List.nil_append, tally_known (known_first hk _)] at h
  rw [h0] at h
  exact h

/-- Numbers of the answers of the first folds only grow. -/
private theorem first_count (p : Outcome → Bool) (t : List Outcome) (ts : List (List Outcome)) (j : Nat) :
    t.countP p ≤ (firstFolds (t :: ts) (j + 1)).countP p := by
  simp [firstFolds, List.countP_append]

private theorem pos_or_of {a b c d : Nat} (h1 : a ≤ c) (h2 : b ≤ d) (h : 0 < a + b) : ((c + d : Nat) : K) ≠ 0 := by
  have : 0 < c + d := by omega
  exact_mod_cast this.ne'

/-- **C195 (partial)** With the labels 1 and -1, if in the first fold some sample is answered 1, some has the label 1 and some has the label -1: the
precision, recall and true negative rate that `kfold` reports are the sums, over the folds, of the rates of the answers in this and all earlier
folds. -/
theorem C195_sums_partial (t : List Outcome) (ts : List (List Outcome)) (hk : ∀ x ∈ t :: ts, KnownLabels [1, -1] x)
    (hp : ∃ o ∈ t, o.pred = 1) (hr : ∃ o ∈ t, o.y = 1) (hn : ∃ o ∈ t, o.y = -1) :
    kfoldRates (K := K) true (t :: ts) =
      ⟨some (((List.range (ts.length + 1)).map (fun j => precisionOf (firstFolds (t :: ts) (j + 1)))).sum),
       some (((List.range (ts.length + 1)).map (fun j => recallOf (firstFolds (t :: ts) (j + 1)))).sum),
       some (((List.range (ts.length + 1)).map (fun j => specificityOf (firstFolds (t :: ts) (j + 1)))).sum)⟩ := by
  have key : ∀ o ∈ t, (o.y = 1 ∨ o.y = -1) ∧ (o.pred = 1 ∨ o.pred = -1) := fun o ho => by
    have := hk t List.mem_cons_self o ho
    simpa using this
  have hpos : ∀ p q : Outcome → Bool, (∃ o ∈ t, p o = true ∨ q o = true) → 0 < t.countP p + t.countP q := by
    rintro p q ⟨o, ho, h | h⟩
    · have := List.countP_pos_iff.2 ⟨o, ho, h⟩; omega
    · have := List.countP_pos_iff.2 ⟨o, ho, h⟩; omega
  rw [rates_eq _ hk, List.length_cons]
  rw [addRate_sum _ _ (fun j => precisionOf (firstFolds (t :: ts) (j + 1))) (fun _ => rfl),
    addRate_sum _ _ (fun j => recallOf (firstFolds (t :: ts) (j + 1))) (fun _ => rfl),
    addRate_sum _ _ (fun j => specificityOf (firstFolds (t :: ts) (j + 1))) (fun _ => rfl)]
  · simp only [zero_add]
  · intro j _
    refine pos_or_of (first_count _ t ts j) (first_count _ t ts j) (hpos _ _ ?_)
    obtain ⟨o, ho, h⟩ := hn
    refine ⟨o, ho, ?_⟩
    rcases (key o ho).2 with h2 | h2 <;> simp [isOne, h, h2]
  · intro j _
    refine pos_or_of (first_count _ t ts j) (first_count _ t ts j) (hpos _ _ ?_)
    obtain ⟨o, ho, h⟩ := hr
    refine ⟨o, ho, ?_⟩
    rcases (key o ho).2 with h2 | h2 <;> simp [isOne, h, h2]
  · intro j _
    refine pos_or_of (first_count _ t ts j) (first_count _ t ts j) (hpos _ _ ?_)
    obtain ⟨o, ho, h⟩ := hp
    refine ⟨o, ho, ?_⟩
    rcases (key o ho).1 with h2 | h2 <;> simp [isOne, h, h2]

example : kfoldRates (K := ℚ) true [[⟨1, 1⟩, ⟨-1, 1⟩], [⟨1, 1⟩, ⟨1, -1⟩]] = ⟨some (7 / 6), some (5 / 3), some 0⟩ := by decide +kernel

/-- **C195 (refuted)** A classifier that is always right: the three rates are the number of folds. -/
theorem C195_perfect_refuted (t : List Outcome) (ts : List (List Outcome)) (hk : ∀ x ∈ t :: ts, KnownLabels [1, -1] x)
    (hright : ∀ x ∈ t :: ts, ∀ o ∈ x, o.pred = o.y) (hr : ∃ o ∈ t, o.y = 1) (hn : ∃ o ∈ t, o.y = -1) :
    kfoldRates (K := K) true (t :: ts) = ⟨some ((ts.length + 1 : Nat) : K), some ((ts.length + 1 : Nat) : K), some ((ts.length + 1 : Nat) : K)⟩ := by
  have hp : ∃ o ∈ t, o.pred = 1 := by
    obtain ⟨o, ho, h⟩ := hr
    exact ⟨o, ho, by rw [hright t List.mem_cons_self o ho, h]⟩
  have hall : ∀ j, ∀ o ∈ firstFolds (t :: ts) j, o.pred = o.y := by
    intro j o ho
    obtain ⟨x, hx, ho⟩ := List.mem_flatten.1 ho
    exact hright x (List.mem_of_mem_take hx) o ho
  have hfp : ∀ j, falsePos isOne (firstFolds (t :: ts) j) = 0 := fun j => List.countP_eq_zero.2 (fun o ho => by
    rw [hall j o ho]; cases isOne o.y <;> simp)
  have hfn : ∀ j, falseNeg isOne (firstFolds (t :: ts) j) = 0 := fun j => List.countP_eq_zero.2 (fun o ho => by
    rw [hall j o ho]; cases isOne o.y <;> simp)
  have htp : ∀ j, ((truePos isOne (firstFolds (t :: ts) (j + 1)) : Nat) : K) ≠ 0 := fun j => by
    have h1 : 0 < t.countP (fun o => isOne o.y && isOne o.pred) := by
      obtain ⟨o, ho, h⟩ := hr
      exact List.countP_pos_iff.2 ⟨o, ho, by rw [hright t List.mem_cons_self o ho, h]; rfl⟩
    have h2 := first_count (fun o => isOne o.y && isOne o.pred) t ts j
    have h3 : 0 < truePos isOne (firstFolds (t :: ts) (j + 1)) := lt_of_lt_of_le h1 h2
    exact_mod_cast h3.ne'
  have htn : ∀ j, ((trueNeg isOne (firstFolds (t :: ts) (j + 1)) : Nat) : K) ≠ 0 := fun j => by
    have h1 : 0 < t.countP (fun o => !isOne o.y && !isOne o.pred) := by
      obtain ⟨o, ho, h⟩ := hn
      exact List.countP_pos_iff.2 ⟨o, ho, by rw [hright t List.mem_cons_self o ho, h]; rfl⟩
    have h2 := first_count (fun o => !isOne o.y && !isOne o.pred) t ts j
    have h3 : 0 < trueNeg isOne (firstFolds (t :: ts) (j + 1)) := lt_of_lt_of_le h1 h2
    exact_mod_cast h3.ne'
  rw [C195_sums_partial t ts hk hp hr hn]
  simp only [precisionOf, recallOf, specificityOf, hfp, hfn, Nat.add_zero, div_self (htp _), div_self (htn _)]
  simp

omit [IsStrictOrderedRing K] in
/-- **C195 (refuted)** If no sample of the first fold is answered 1, the precision that `kfold`
reports is not a number, whatever happens in the other folds. -/
theorem C195_nan_refuted (t : List Outcome) (ts : List (List Outcome)) (hk : ∀ x ∈ t :: ts, KnownLabels [1, -1] x)
    (hp : ∀ o ∈ t, o.pred ≠ 1) : (kfoldRates (K := K) true (t :: ts)).precision = none := by
  rw [rates_eq _ hk, List.length_cons, List.range_succ_eq_map]
  have h0 : firstFolds (t :: ts) (0 + 1) = t := by simp [firstFolds]
  have h1 : truePos isOne t = 0 := List.countP_eq_zero.2 (fun o ho => by simp [isOne, hp o ho])
  have h2 : falsePos isOne t = 0 := List.countP_eq_zero.2 (fun o ho => by simp [isOne, hp o ho])
  simp only [List.foldl_cons, h0, h1, h2]
  have h3 : addRate (some (0 : K)) 0 0 = none := by simp [addRate, fdiv]
  rw [h3, addRate_none]

omit [IsStrictOrderedRing K] in
/-- **C195 (refuted)** The rates of `kkfold` are zero, whatever the rates of its executions. -/
theorem C195_kkfold_refuted (qtde fold : Nat) (hf : ((qtde * fold : Nat) : K) ≠ 0) (runs : List (Rates K)) :
    kkfoldRates qtde fold runs = ⟨some 0, some 0, some 0⟩ := by
  unfold kkfoldRates
  split
  · simp only [fdiv, if_neg hf, zero_div]
  · rfl

example : ((3 * 10 : Nat) : ℚ) ≠ 0 := by norm_num

omit [IsStrictOrderedRing K] in
/-- **C195 (refuted)** With any number of classes other than two the rates of `kfold` are zero. -/
theorem C195_classes_refuted (tests : List (List Outcome)) : kfoldRates (K := K) false tests = ⟨some 0, some 0, some 0⟩ := by
  have : ∀ (tests : List (List Outcome)) (c : Tally) (r : Rates K), (tests.foldl (rateStep false) (c, r)).2 = r := by
    intro tests
    induction tests with
    | nil => intro c r; rfl
    | cons t ts ih => intro c r; rw [List.foldl_cons]; exact ih _ _
  exact this tests _ _

end

/-! ## C196 -/

section
variable {T : Type}
open MLTK.Data

/-- **C196 (partial)** The final validation of `kkfold` trains a classifier that is not dual on exactly the training samples. -/
theorem C196_primal_partial (m : Mem T) (classes : List Int) (train test : Data) (h : Consistent m (setClasses train classes)) :
    ∃ m' d, finalTrainingSet m false classes train test = .ok (m', d) ∧ samples m' d = samples m train := by
  obtain ⟨m', c, h1, h2, _⟩ := C05_copy_independent m (setClasses train classes) h
  exact ⟨m', c, h1, h2⟩

/-- **C196 (refuted)** It trains a dual classifier on the held-out samples and the training samples. -/
theorem C196_leak_refuted (m : Mem T) (classes : List Int) (train test : Data) (h1 : Consistent m train) (h2 : Consistent m test)
    (hdim : test.mdim ≤ train.mdim) :
    ∃ m' d, finalTrainingSet m true classes train test = .ok (m', d) ∧ samples m' d = samples m test ++ samples m train := by
  have ha : Consistent m (assign empty test) := ⟨h2.live, h2.msize, h2.cls, h2.counts, h2.dims, h2.mdim0⟩
  obtain ⟨m2, d2, extra, hj, hsj, _⟩ := C07_join_partial m (assign empty test) train ha h1 hdim rfl
  refine ⟨m2, setClasses d2 classes, ?_, hsj⟩
  unfold finalTrainingSet
  rw [if_pos rfl, hj]
  rfl

example : ∃ m' d, finalTrainingSet demoMem true [1, -1] demoData demoData = .ok (m', d) ∧ (samples m' d).length = 6 := by
  obtain ⟨m', d, h, hs⟩ := C196_leak_refuted demoMem [1, -1] demoData demoData demo_consistent demo_consistent (le_refl _)
  exact ⟨m', d, h, by rw [hs]; rfl⟩
end

section
open MLTK.KOwn MLTK.Kernel

/-- The world in which `kkfold` works: one classifier with one kernel. -/
private def oneWorld (k : Kern) (s : KData) (log : List (Nat × List (List ℝ))) : World :=
  ⟨[some k], [some ⟨.perc, s, .innerProduct, 0, some 0⟩], [], log⟩

private theorem fold_one {t : KType} (ht : Defined t) {p : ℝ} {k : Kern} (hkt : k.type = t) (hkp : k.param = p) (s : KData)
    (log : List (Nat × List (List ℝ))) (f : KData × KData) (hf : RectSamples f.2) :
    ∃ k', (foldOps f).foldlM step (oneWorld k s log) = .ok (oneWorld k' f.2 (log ++ [(0, k'.K)])) ∧ k'.type = t ∧ k'.param = p ∧
      k'.computed = true ∧ IsKernelMatrix t p f.2.dim f.2.xs k'.K := by
  obtain ⟨k', h1, h2, _, e1, e2, hc⟩ := C27_matrix (recompute k) (by show Defined k.type; rw [hkt]; exact ht) rfl f.2.dim f.2.xs hf none
  have e1' : k'.type = t := e1.trans hkt
  have e2' : k'.param = p := e2.trans hkp
  refine ⟨k', ?_, e1', e2', hc, by rw [← hkt, ← hkp]; exact h2⟩
  have hs : step (oneWorld (recompute k) f.2 log) (.train 0) = .ok (oneWorld k' f.2 (log ++ [(0, k'.K)])) := by
    show ((compute (recompute k) f.2.dim f.2.xs none) >>= _) = _
    rw [h1]; rfl
  show List.foldlM step (oneWorld k s log) [.setSamples 0 f.1, .setSamples 0 f.2, .recompute 0, .train 0, .evaluate 0] = _
  rw [List.foldlM_cons, show step (oneWorld k s log) (.setSamples 0 f.1) = .ok (oneWorld k f.1 log) from rfl, Res_bind_ok,
    List.foldlM_cons, show step (oneWorld k f.1 log) (.setSamples 0 f.2) = .ok (oneWorld k f.2 log) from rfl, Res_bind_ok,
    List.foldlM_cons, show step (oneWorld k f.2 log) (.recompute 0) = .ok (oneWorld (recompute k) f.2 log) from rfl, Res_bind_ok,
    List.foldlM_cons, hs, Res_bind_ok]
  rfl

private theorem folds_all {t : KType} (ht : Defined t) {p : ℝ} : ∀ (folds : List (KData × KData)) (last : KData × KData) (k : Kern),
    k.type = t → k.param = p → ∀ (s : KData) (log : List (Nat × List (List ℝ))), (∀ f ∈ folds ++ [last], RectSamples f.2) →
    ∃ k' log', ((folds ++ [last]).flatMap foldOps).foldlM step (oneWorld k s log) = .ok (oneWorld k' last.2 log') ∧ k'.type = t ∧
      k'.param = p ∧ k'.computed = true ∧ IsKernelMatrix t p last.2.dim last.2.xs k'.K
  | [], last, k, hkt, hkp, s, log, hr => by
    obtain ⟨k', h1, h2⟩ := fold_one ht hkt hkp s log last (hr last (by simp))
    refine ⟨k', log ++ [(0, k'.K)], ?_, h2⟩
    rw [List.nil_append, List.flatMap_cons, List.flatMap_nil, List.append_nil]
    exact h1
  | f :: folds, last, k, hkt, hkp, s, log, hr => by
    obtain ⟨k1, h1, e1, e2, _⟩ := fold_one ht hkt hkp s log f (hr f (by simp))
    obtain ⟨k', log', h2, h3⟩ := folds_all ht folds last k1 e1 e2 f.2 _ (fun g hg => hr g (by
      rw [List.cons_append]; exact List.mem_cons_of_mem _ hg))
    refine ⟨k', log', ?_, h3⟩
    rw [List.cons_append, List.flatMap_cons, List.foldlM_append, h1, Res_bind_ok]
    exact h2

/-- **C196 (refuted)** The final validation of `kkfold` with a dual perceptron or `IMADual`, for any numbers of executions and folds: the kernel matrix it
trains with is that of the samples of the last fold of the last execution, in their order, and not that of the samples it was given, if these have
another kernel value anywhere. -/
theorem C196_kernel_refuted (d0 : KData) (t : KType) (ht : Defined t) (p : ℝ) (folds : List (KData × KData)) (last final : KData × KData)
    (hr : ∀ f ∈ folds ++ [last], RectSamples f.2) :
    ∃ w M, run (.newPerc d0 t p :: kkfoldOps (folds ++ [last]) final) = .ok w ∧ w.log.getLast? = some (0, M) ∧
      IsKernelMatrix t p last.2.dim last.2.xs M ∧
      ((∃ (i j : Nat) (x y x' y' : List ℝ), last.2.xs[i]? = some x ∧ last.2.xs[j]? = some y ∧ final.2.xs[i]? = some x' ∧ final.2.xs[j]? = some y' ∧
        kernelValue t p last.2.dim x y ≠ kernelValue t p final.2.dim x' y') → ¬ IsKernelMatrix t p final.2.dim final.2.xs M) := by
  obtain ⟨k, log, h1, hkt, hkp, hc, hm⟩ := folds_all ht folds last (newK t p) rfl rfl d0 [] hr
  have h3 : compute k final.2.dim final.2.xs none = .ok k := by rw [compute, if_pos hc]; rfl
  refine ⟨oneWorld k final.2 (log ++ [(0, k.K)]), k.K, ?_, by simp [oneWorld], hm, ?_⟩
  · show List.foldlM step World.empty _ = _
    rw [List.foldlM_cons, show step World.empty (.newPerc d0 t p) = .ok (oneWorld (newK t p) d0 []) from rfl, Res_bind_ok, kkfoldOps,
      List.foldlM_append, h1, Res_bind_ok]
    have hs : step (oneWorld k final.2 log) (.train 0) = .ok (oneWorld k final.2 (log ++ [(0, k.K)])) := by
      show ((compute k final.2.dim final.2.xs none) >>= _) = _
      rw [h3]; rfl
    rw [List.foldlM_cons, show step (oneWorld k last.2 log) (.setSamples 0 final.1) = .ok (oneWorld k final.1 log) from rfl, Res_bind_ok,
      List.foldlM_cons, show step (oneWorld k final.1 log) (.setSamples 0 final.2) = .ok (oneWorld k final.2 log) from rfl, Res_bind_ok,
      List.foldlM_cons, hs, Res_bind_ok]
    rfl
  · rintro ⟨i, j, x, y, x', y', a1, a2, a3, a4, hne⟩ hf
    have b1 := hm.2.2 i j x y a1 a2
    have b2 := hf.2.2 i j x' y' a3 a4
    rw [b1] at b2
    injection b2 with b2
    exact hne b2

/-- The same two samples in another order have another kernel matrix. -/
example : kernelValue .innerProduct 0 1 [1] [1] ≠ kernelValue .innerProduct 0 1 [2] [2] := by
  norm_num [kernelValue, innerProd]

/-- The world in which `kkfold` works with an SMO classifier. -/
private def smoWorld (ks : List (Option Kern)) (s : KData) (t : KType) (p : ℝ) (a : Option Nat) (log : List (Nat × List (List ℝ))) : World :=
  ⟨ks, [some ⟨.smo, s, t, p, a⟩], [], log⟩

/-- The object's pointer is null or points to a kernel. -/
private def Points (ks : List (Option Kern)) (a : Option Nat) : Prop := a = none ∨ ∃ i k, a = some i ∧ ks[i]? = some (some k)

private theorem smo_train {t : KType} (ht : Defined t) {p : ℝ} {ks : List (Option Kern)} {a : Option Nat} (ha : Points ks a) (s : KData)
    (hs : RectSamples s) (log : List (Nat × List (List ℝ))) :
    ∃ ks' a' k, step (smoWorld ks s t p a log) (.train 0) = .ok (smoWorld ks' s t p (some a') (log ++ [(0, k.K)])) ∧
      ks'[a']? = some (some k) ∧ IsKernelMatrix t p s.dim s.xs k.K := by
  obtain ⟨k, h1, h2, _⟩ := C27_matrix (newK t p) ht rfl s.dim s.xs hs none
  have hd : ∃ ks1, deleteK ks a = .ok ks1 := by
    rcases ha with rfl | ⟨i, k0, rfl, hk0⟩
    · exact ⟨ks, rfl⟩
    · exact ⟨ks.set i none, by simp [deleteK, hk0]⟩
  obtain ⟨ks1, hd⟩ := hd
  refine ⟨ks1 ++ [some k], ks1.length, k, ?_, by simp, h2⟩
  show ((deleteK ks a) >>= _) = _
  rw [hd, Res_bind_ok]
  show ((compute (newK t p) s.dim s.xs none) >>= _) = _
  rw [h1]
  rfl

private theorem smo_recompute {t : KType} {p : ℝ} {ks : List (Option Kern)} {a : Option Nat} (ha : Points ks a) (s : KData)
    (log : List (Nat × List (List ℝ))) :
    ∃ ks', step (smoWorld ks s t p a log) (.recompute 0) = .ok (smoWorld ks' s t p a log) ∧ Points ks' a := by
  rcases ha with rfl | ⟨i, k, rfl, hk⟩
  · exact ⟨ks, rfl, Or.inl rfl⟩
  · refine ⟨ks.set i (some (recompute k)), ?_, Or.inr ⟨i, recompute k, rfl, ?_⟩⟩
    · show ((derefK ks (some i)) >>= _) = _
      have : derefK ks (some i) = .ok k := by simp [derefK, hk]
      rw [this]; rfl
    · have := (List.getElem?_eq_some_iff.1 hk).1
      simp [this]

private theorem smo_evaluate {t : KType} {p : ℝ} {ks : List (Option Kern)} {a : Nat} {k : Kern} (hk : ks[a]? = some (some k)) (s : KData)
    (log : List (Nat × List (List ℝ))) : step (smoWorld ks s t p (some a) log) (.evaluate 0) = .ok (smoWorld ks s t p (some a) log) := by
  show ((derefK ks (some a)) >>= _) = _
  have : derefK ks (some a) = .ok k := by simp [derefK, hk]
  rw [this]; rfl

private theorem smo_folds {t : KType} (ht : Defined t) {p : ℝ} : ∀ (folds : List (KData × KData)), (∀ f ∈ folds, RectSamples f.2) →
    ∀ (ks : List (Option Kern)) (a : Option Nat) (s : KData) (log : List (Nat × List (List ℝ))), Points ks a →
    ∃ ks' a' s' log', (folds.flatMap foldOps).foldlM step (smoWorld ks s t p a log) = .ok (smoWorld ks' s' t p a' log') ∧ Points ks' a'
  | [], _, ks, a, s, log, ha => ⟨ks, a, s, log, rfl, ha⟩
  | f :: folds, hr, ks, a, s, log, ha => by
    obtain ⟨ks1, h1, ha1⟩ := smo_recompute (t := t) (p := p) ha f.2 log
    obtain ⟨ks2, a2, k, h2, hk, _⟩ := smo_train ht (p := p) ha1 f.2 (hr f List.mem_cons_self) log
    obtain ⟨ks3, a3, s3, log3, h3, ha3⟩ := smo_folds ht (p := p) folds (fun g hg => hr g (List.mem_cons_of_mem _ hg)) ks2 (some a2) f.2
      (log ++ [(0, k.K)]) (Or.inr ⟨a2, k, rfl, hk⟩)
    refine ⟨ks3, a3, s3, log3, ?_, ha3⟩
    have hf : (foldOps f).foldlM step (smoWorld ks s t p a log) = .ok (smoWorld ks2 f.2 t p (some a2) (log ++ [(0, k.K)])) := by
      rw [foldOps, List.foldlM_cons, show step (smoWorld ks s t p a log) (.setSamples 0 f.1) = .ok (smoWorld ks f.1 t p a log) from rfl, Res_bind_ok,
        List.foldlM_cons, show step (smoWorld ks f.1 t p a log) (.setSamples 0 f.2) = .ok (smoWorld ks f.2 t p a log) from rfl, Res_bind_ok,
        List.foldlM_cons, h1, Res_bind_ok, List.foldlM_cons, h2, Res_bind_ok, List.foldlM_cons, smo_evaluate hk]
      rfl
    rw [List.flatMap_cons, List.foldlM_append, hf, Res_bind_ok]
    exact h3

/-- **C196 (partial)** With SMO the final validation trains with the kernel matrix of the samples it was given. -/
theorem C196_smo_partial (d0 : KData) (t : KType) (ht : Defined t) (p : ℝ) (folds : List (KData × KData)) (final : KData × KData)
    (hr : ∀ f ∈ folds ++ [final], RectSamples f.2) :
    ∃ w M, run (.newSmo d0 t p :: kkfoldOps folds final) = .ok w ∧ w.log.getLast? = some (0, M) ∧
      IsKernelMatrix t p final.2.dim final.2.xs M := by
  obtain ⟨ks, a, s, log, h1, ha⟩ := smo_folds ht (p := p) folds (fun f hf => hr f (List.mem_append_left _ hf)) [] none d0 [] (Or.inl rfl)
  obtain ⟨ks2, a2, k, h2, hk, hm⟩ := smo_train ht (p := p) ha final.2 (hr final (by simp)) log
  refine ⟨smoWorld ks2 final.2 t p (some a2) (log ++ [(0, k.K)]), k.K, ?_, by simp [smoWorld], hm⟩
  show List.foldlM step World.empty _ = _
  rw [List.foldlM_cons, show step World.empty (.newSmo d0 t p) = .ok (smoWorld [] d0 t p none []) from rfl, Res_bind_ok, kkfoldOps,
    List.foldlM_append, h1, Res_bind_ok,
    List.foldlM_cons, show step (smoWorld ks s t p a log) (.setSamples 0 final.1) = .ok (smoWorld ks final.1 t p a log) from rfl, Res_bind_ok,
    List.foldlM_cons, show step (smoWorld ks final.1 t p a log) (.setSamples 0 final.2) = .ok (smoWorld ks final.2 t p a log) from rfl, Res_bind_ok,
    List.foldlM_cons, h2, Res_bind_ok, List.foldlM_cons, smo_evaluate hk]
  rfl

end
end MLTK.Props
