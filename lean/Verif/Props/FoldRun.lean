import Verif.Spec.FoldRun
import Verif.Props.Ensemble
/-!
# Cross-validation with one classifier object (C169)
-/
namespace MLTK.Props
open MLTK.Ens MLTK.Valid MLTK.Spec
open MLTK.Data (Res_bind_ok Res_bind_error Res_pure)
variable {D M X K : Type}

private theorem fold_honest {k : Kind D M X} (hk : Restarts k) {s : Nat} (m0 m m' : M) {f : D × List (X × Int)}
    {os : List Outcome} (h : foldOne k s m f = .ok (os, m')) : honestFold k s m0 f = .ok os := by
  unfold foldOne at h
  obtain ⟨⟨a, d1⟩, h1, h2⟩ := Aos.bind_inv h
  obtain ⟨os', h3, h4⟩ := Aos.bind_inv h2
  simp only [Res_pure, Except.ok.injEq, Prod.mk.injEq] at h4
  obtain ⟨rfl, -⟩ := h4
  rcases hk s m m0 f.1 with ⟨e, h5, _⟩ | ⟨b, b', d2, d2', h5, h6, h7⟩
  · rw [h1] at h5; cases h5
  · rw [h1] at h5
    cases h5
    unfold honestFold
    rw [h6, Res_bind_ok]
    rw [← h3]
    exact mapM_congr _ _ _ (fun t _ => by rw [h7])

/-- C169.  For a classifier whose training starts over, `kfold` reports what the folds give when each is evaluated with the
classifier as it was given, trained on the training samples of that fold only. -/
theorem C169_fresh_partial [Field K] [LinearOrder K] (two : Bool) (k : Kind D M X) (hk : Restarts k) (s : Nat) (m m' : M)
    (folds : List (D × List (X × Int))) (r : KFold K) (h : crossValidate two k s m folds = .ok (r, m')) :
    ∃ os, folds.mapM (honestFold k s m) = .ok os ∧ r = kfold two os := by
  unfold crossValidate at h
  obtain ⟨⟨os, m1⟩, h1, h2⟩ := Aos.bind_inv h
  simp only [Res_pure, Except.ok.injEq, Prod.mk.injEq] at h2
  obtain ⟨rfl, rfl⟩ := h2
  refine ⟨os, ?_, rfl⟩
  clear h
  have key : ∀ (folds : List (D × List (X × Int))) (ma mb : M) (os : List (List Outcome)),
      foldRun k s ma folds = .ok (os, mb) → folds.mapM (honestFold k s m) = .ok os := by
    intro folds
    induction folds with
    | nil =>
      intro ma mb os h
      unfold foldRun at h
      simp only [Except.ok.injEq, Prod.mk.injEq] at h
      rw [← h.1]
      rfl
    | cons f fs ih =>
      intro ma mb os h
      unfold foldRun at h
      obtain ⟨⟨o1, m2⟩, h1, h2⟩ := Aos.bind_inv h
      obtain ⟨⟨rest, m3⟩, h3, h4⟩ := Aos.bind_inv h2
      simp only [Res_pure, Except.ok.injEq, Prod.mk.injEq] at h4
      obtain ⟨rfl, rfl⟩ := h4
      rw [List.mapM_cons, fold_honest hk m ma m2 h1, Res_bind_ok, ih m2 m3 rest h3, Res_bind_ok]
      rfl
  exact key folds m m1 os h1

theorem knn_restarts {T : Type} [Field K] [LinearOrder K] (nth : Knn.NthFn) (c : Knn.Cfg K) (dist : List T → List T → Res K) :
    Restarts (knnKind nth c dist) := fun _ m m' d => Or.inr ⟨m, m', d, d, rfl, rfl, fun _ => rfl⟩

theorem balanced_restarts [Field K] [LinearOrder K] (c : Bal.BCfg K) (late : Nat → Bool) (w0 : Nat → Nat → List K)
    (shuf : Nat → List (Perc.Sample K) → List (Perc.Sample K)) : Restarts (balancedKind c late w0 shuf) := by
  intro s m m' d
  have e : (balancedKind c late w0 shuf).fit s m d = (balancedKind c late w0 shuf).fit s m' d := rfl
  cases h : (balancedKind c late w0 shuf).fit s m' d with
  | error e' => exact Or.inl ⟨e', e.trans h, rfl⟩
  | ok r => exact Or.inr ⟨r.1, r.1, r.2, r.2, e.trans h, rfl, fun _ => rfl⟩

private def lm0 : Perc.Libm ℚ := ⟨fun x => x, fun x _ => x⟩

private def newPrimal : Life.Primal ℚ :=
  { Life.Primal.new with cls := { Life.Classifier.new with base := { Life.Learner.new with maxIt := 10, maxUp := 10 } } }

private def partA : List (Perc.Sample ℚ) := [⟨[1], 1⟩, ⟨[-1], -1⟩]
private def partB : List (Perc.Sample ℚ) := [⟨[0], 1⟩]

private def twoFolds : List (Life.DS ℚ × List (List ℚ × Int)) :=
  [(⟨1, partA, [0, 1]⟩, [([0], 1)]), (⟨1, partB, [0]⟩, [([1], 1), ([-1], -1)])]

/-- C169 in full is refuted: a new primal perceptron, two folds (the training samples of each are the test samples of the
other).  `kfold` reports no error; trained afresh for each fold, the classifier errs on a quarter of the samples.  The
weights learnt in the first fold, from what are the test samples of the second, are still there in the second. -/
theorem C169_leak_refuted : ∃ (folds : List (Life.DS ℚ × List (List ℚ × Int))) (o : Life.Primal ℚ) (lm : Perc.Libm ℚ)
    (clock : Nat → Bool) (r : KFold ℚ) (o' : Life.Primal ℚ) (os : List (List Outcome)),
    o.cls.sol = Life.Sol.new ∧ o.w = [] ∧
    (∃ a b, folds = [(⟨1, a, List.range a.length⟩, b.map (fun p : Perc.Sample ℚ => (p.x, if p.y = 1 then 1 else -1))),
      (⟨1, b, List.range b.length⟩, a.map (fun p : Perc.Sample ℚ => (p.x, if p.y = 1 then 1 else -1)))]) ∧
    crossValidate true (primalKind lm clock) 0 o folds = .ok (r, o') ∧
    folds.mapM (honestFold (primalKind lm clock) 0 o) = .ok os ∧
    r.error = some 0 ∧ (kfold true os : KFold ℚ).error = some 25 := by
  have h1 : (crossValidate (K := ℚ) true (primalKind lm0 (fun _ => true)) 0 newPrimal twoFolds).map
      (fun r => r.1.error) = .ok (some 0) := by decide +kernel
  have h2 : (twoFolds.mapM (honestFold (primalKind lm0 (fun _ => true)) 0 newPrimal)) =
      .ok [[⟨1, 1⟩], [⟨1, 1⟩, ⟨-1, 1⟩]] := by decide +kernel
  cases h : crossValidate (K := ℚ) true (primalKind lm0 (fun _ => true)) 0 newPrimal twoFolds with
  | error e => rw [h] at h1; cases h1
  | ok r =>
    rw [h] at h1
    refine ⟨twoFolds, newPrimal, lm0, fun _ => true, r.1, r.2, _, rfl, rfl, ⟨partA, partB, by decide +kernel⟩, h, h2, ?_, ?_⟩
    · simpa [Except.map] using h1
    · decide +kernel

/-- Two folds of a balanced perceptron, which starts over: the report is the honest one. -/
example : ∃ (r : KFold ℚ) (m' : Model ℚ), Restarts (balancedKind (K := ℚ) ⟨1, 5, 100, 1000⟩ (fun _ => false)
      (fun _ n => List.replicate n 1) (fun _ l => l)) ∧
    crossValidate true (balancedKind ⟨1, 5, 100, 1000⟩ (fun _ => false) (fun _ n => List.replicate n 1) (fun _ l => l)) 0
      (.balanced [] 0) [(⟨1, partA, [0, 1]⟩, [([2], 1), ([-3], 1)])] = .ok (r, m') ∧ r.error = some 50 := by
  have h1 : (crossValidate (K := ℚ) true (balancedKind ⟨1, 5, 100, 1000⟩ (fun _ => false) (fun _ n => List.replicate n 1)
      (fun _ l => l)) 0 (.balanced [] 0) [(⟨1, partA, [0, 1]⟩, [([2], 1), ([-3], 1)])]).map
      (fun r => r.1.error) = .ok (some 50) := by decide +kernel
  cases h : crossValidate (K := ℚ) true (balancedKind ⟨1, 5, 100, 1000⟩ (fun _ => false) (fun _ n => List.replicate n 1)
      (fun _ l => l)) 0 (.balanced [] 0) [(⟨1, partA, [0, 1]⟩, [([2], 1), ([-3], 1)])] with
  | error e => rw [h] at h1; cases h1
  | ok r =>
    rw [h] at h1
    exact ⟨r.1, r.2, balanced_restarts _ _ _ _, rfl, by simpa [Except.map] using h1⟩

end MLTK.Props
