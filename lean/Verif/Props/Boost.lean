import Mathlib.Tactic.NormNum
import Verif.Lemmas.Boost
/-!
# C47, C78: boosting
-/
namespace MLTK.Props
open MLTK.Spec MLTK.Vote
open MLTK.Data (Res_bind_ok Res_bind_error Res_pure)

/-- C47 for at least two samples and two classes: whatever the weak learners get wrong, after every
number `k` of rounds the sample weights are positive and add up to one. -/
theorem C47_distribution_partial (n nc : Nat) (hn : 2 ≤ n) (hc : 2 ≤ nc) (outcomes : List (List Bool))
    (hm : ∀ miss ∈ outcomes, miss.length = n) (k : Nat) :
    ∃ ws alpha, boostTrain n nc (outcomes.take k) = .ok (ws, alpha) ∧ ws.length = n ∧ Distribution ws ∧
      alpha.length = (outcomes.take k).length := by
  obtain ⟨ws, as, h1, h2, h3, h4⟩ := boostLoop_ok nc hc (outcomes.take k) (List.replicate n (1 / (n : ℝ)))
    (uniform_distribution n (by omega)) (by simpa using hn)
    (fun miss h => by simpa using hm miss (List.mem_of_mem_take h))
  exact ⟨ws, as, h1, by simpa using h3, h2, h4⟩

example : ∀ miss ∈ [[true, false, true], [false, false, false], [true, true, true]], miss.length = 3 := by
  decide

/-- C47 refuted for one sample: when the first learner misclassifies it the estimator weight is `log 0`,
whatever the number of classes. -/
theorem C47_single_sample_refuted (nc : Nat) (rest : List (List Bool)) :
    boostTrain 1 nc ([true] :: rest) = .error .nonFinite := by
  unfold boostTrain
  rw [boostLoop]
  have h1 : errOf [(1 : ℝ)] (errorsOf [1] [true]) = .ok 1 := by
    unfold errOf errorsOf; norm_num
  have h2 : alphaOf 1 nc = .error .nonFinite := by
    unfold alphaOf
    rw [if_pos (by norm_num)]
    unfold logC
    rw [if_neg (by norm_num)]; rfl
  have h3 : boostRound nc (List.replicate 1 (1 / ((1 : ℕ) : ℝ))) [true] = .error .nonFinite := by
    unfold boostRound
    simp only [List.replicate_one, Nat.cast_one, div_one]
    rw [h1, Res_bind_ok, h2]; rfl
  rw [h3]; rfl

/-- C47 refuted for one class: the estimator weight of the first round contains `log 0`, whatever the
samples and the learner's answers. -/
theorem C47_single_class_refuted (n : Nat) (miss : List Bool) (rest : List (List Bool)) :
    boostTrain n 1 (miss :: rest) = .error .nonFinite := by
  have h1 : ∀ e, alphaOf e 1 = .error .nonFinite := by
    intro e
    unfold alphaOf
    have hb : logC ((decSize 1 : Nat) : ℝ) = .error .nonFinite := by
      unfold logC; rw [if_neg (by simp [decSize])]
    by_cases he : 0 < e
    · rw [if_pos he]
      unfold logC
      by_cases hp : 0 < (1 - e) / e
      · rw [if_pos hp, Res_bind_ok, if_neg (by simp [decSize])]; rfl
      · rw [if_neg hp]; rfl
    · rw [if_neg he, Res_bind_ok, hb]; rfl
  have h2 : ∀ ws, boostRound 1 ws miss = .error .nonFinite := by
    intro ws
    unfold boostRound
    dsimp only
    unfold errOf
    by_cases hs : ws.sum = 0
    · rw [if_pos hs]; rfl
    · rw [if_neg hs, Res_bind_ok, h1]; rfl
  unfold boostTrain
  rw [boostLoop, h2]; rfl

/-- C78 (what the code computes).  The weight of the first estimator is
`log((1-e)/e) + log(K-1)` where `e` is the sum of the squared weights of the misclassified samples, or
`1 + log(K-1)` when none is misclassified. -/
theorem C78_alpha_partial (nc : Nat) (hc : 2 ≤ nc) (ws : List ℝ) (hw : Distribution ws) (hl : 2 ≤ ws.length)
    (miss : List Bool) (hm : miss.length = ws.length) :
    ∃ ws' a, boostRound nc ws miss = .ok (ws', a) ∧
      a = (if 0 < weightedError (ws.map (fun w => w * w)) miss then
            Real.log ((1 - weightedError (ws.map (fun w => w * w)) miss) /
              weightedError (ws.map (fun w => w * w)) miss) else 1) + Real.log ((nc : ℝ) - 1) := by
  obtain ⟨ws', a, h1, _, h3, h4⟩ := boostRound_ok nc hc ws hw hl miss hm
  refine ⟨ws', a, h1, ?_⟩
  rw [h4]
  have : (List.zipWith (fun w b => if b then w * w else 0) ws miss).sum =
      weightedError (ws.map (fun w => w * w)) miss := by
    clear h1 h3 h4 hm hl hw
    induction ws generalizing miss with
    | nil => simp [weightedError]
    | cons x l ih =>
      cases miss with
      | nil => simp [weightedError_nil]
      | cons b r => simp [ih r, weightedError_cons]
  rw [this]

/-- C78 refuted.  With four equally weighted samples of two classes and three of them misclassified, the
weighted error is 3/4, yet the estimator gets a positive weight. -/
theorem C78_weak_learner_refuted :
    ∃ ws' a, boostRound 2 (List.replicate 4 (1 / ((4 : ℕ) : ℝ))) [true, true, true, false] = .ok (ws', a) ∧
      weightedError (List.replicate 4 (1 / ((4 : ℕ) : ℝ))) [true, true, true, false] = 3 / 4 ∧
      Real.log ((1 - 3 / 4) / (3 / 4)) + Real.log ((2 : ℝ) - 1) < 0 ∧ 0 < a := by
  obtain ⟨ws', a, h1, _, _, h4⟩ := boostRound_ok 2 le_rfl _ (uniform_distribution 4 (by norm_num)) (by simp)
    [true, true, true, false] (by simp)
  refine ⟨ws', a, h1, ?_, ?_, ?_⟩
  · simp only [List.replicate, weightedError_cons, weightedError_nil]; norm_num
  · have h : Real.log ((1 - 3 / 4) / (3 / 4)) < 0 := Real.log_neg (by norm_num) (by norm_num)
    have h' : Real.log ((2 : ℝ) - 1) = 0 := by norm_num
    rw [h', add_zero]; exact h
  · have he : (List.zipWith (fun (w : ℝ) b => if b then w * w else 0) (List.replicate 4 (1 / ((4 : ℕ) : ℝ)))
        [true, true, true, false]).sum = 3 / 16 := by
      simp [List.replicate]; norm_num
    rw [h4]
    dsimp only
    rw [he, if_pos (by norm_num)]
    have h : 0 < Real.log ((1 - 3 / 16) / (3 / 16)) := Real.log_pos (by norm_num)
    have h' : Real.log (((2 : ℕ) : ℝ) - 1) = 0 := by norm_num
    rw [h', add_zero]; exact h

end MLTK.Props
