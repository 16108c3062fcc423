import Mathlib.Algebra.Order.Field.Rat
import Mathlib.Data.Rat.Floor
import Mathlib.Tactic.Linarith
import Mathlib.Tactic.NormNum
import Verif.Model.Batch
import Verif.Spec.Batch
import Verif.Lemmas.Data
/-!
# C158, C159: asking about a whole dataset
-/
namespace MLTK.Props
open MLTK.Batch MLTK.Spec
open MLTK.Data (Res_bind_ok Res_bind_error Res_pure)
variable {S K X : Type}

private theorem batch_loop (ev : S → X → Res (K × S)) (points : List X) (s0 : S) (hs : Steady ev s0)
    (hok : ∀ x ∈ points, ∃ y, answer ev s0 x = .ok y) :
    ∀ (order : List Nat) (preds : List K) (s : S), (∀ i ∈ order, i < points.length) → preds.length = points.length →
      Asked ev s0 s →
      ∃ preds' s', order.foldlM (visit ev points) (preds, s) = .ok (preds', s') ∧ Asked ev s0 s' ∧
        preds'.length = points.length ∧
        (∀ (i : Nat), i ∉ order → preds'[i]? = preds[i]?) ∧
        ∀ (i : Nat) x, i ∈ order → points[i]? = some x → ∃ y, answer ev s0 x = .ok y ∧ preds'[i]? = some y
  | [], preds, s, _, hl, ha => ⟨preds, s, rfl, ha, hl, fun _ _ => rfl, fun i x hi => by cases hi⟩
  | i :: order, preds, s, hi, hl, ha => by
    have hlt := hi i (by simp)
    have hx := List.getElem?_eq_getElem hlt
    obtain ⟨y, hy⟩ := hok _ (List.getElem_mem hlt)
    have hy' := hs s ha points[i]
    rw [hy] at hy'
    unfold answer at hy'
    cases he : ev s points[i] with
    | error e => rw [he] at hy'; cases hy'
    | ok r =>
      obtain ⟨y', s1⟩ := r
      rw [he] at hy'
      obtain rfl : y' = y := by cases hy'; rfl
      have hv : visit ev points (preds, s) i = .ok (preds.set i y', s1) := by
        unfold visit
        rw [vget, hx]
        simp only [Res_bind_ok, he, vset]
        rw [if_pos (by omega)]
        rfl
      obtain ⟨preds', s', h1, h2, h3, h4, h5⟩ := batch_loop ev points s0 hs hok order (preds.set i y') s1
        (fun j hj => hi j (by simp [hj])) (by simp [hl]) (.more ha he)
      refine ⟨preds', s', ?_, h2, h3, ?_, ?_⟩
      · rw [List.foldlM_cons, hv]; exact h1
      · intro j hj
        simp at hj
        rw [h4 j hj.2, List.getElem?_set_ne (fun h => hj.1 h.symm)]
      · intro j x hj hjx
        by_cases hjo : j ∈ order
        · exact h5 j x hjo hjx
        · have hji : j = i := by simpa [hjo] using hj
          subst hji
          rw [hx] at hjx; cases hjx
          exact ⟨y', hy, by rw [h4 j hjo, List.getElem?_set_self (by omega)]⟩

/-- **C158** Asking about a dataset gives one entry for each sample, in the order of the samples: the answer `evaluate` gives
to that sample alone — whatever order the library computes them in, for every learner whose answers do not change by
being asked. -/
theorem C158_batch [Zero K] (ev : S → X → Res (K × S)) (s : S) (points : List X) (order : List Nat)
    (ho : order.Perm (List.range points.length)) (hs : Steady ev s) (hok : ∀ x ∈ points, ∃ y, answer ev s x = .ok y) :
    ∃ preds s', batchEvaluate ev order s points = .ok (preds, s') ∧ EachAnswered ev s points preds ∧
      ∀ x, answer ev s' x = answer ev s x := by
  obtain ⟨preds, s', h1, h2, h3, _, h5⟩ := batch_loop ev points s hs hok order (List.replicate points.length 0) s
    (fun i hi => by simpa using ho.mem_iff.1 hi) (by simp) .none
  refine ⟨preds, s', h1, ⟨h3, fun i x hx => h5 i x ?_ hx⟩, hs s' h2⟩
  rw [ho.mem_iff, List.mem_range]
  by_contra hc
  rw [List.getElem?_eq_none (by omega)] at hx; cases hx

/-- **C158 (faults)** If one of the samples has no answer, neither has the dataset. -/
theorem C158_fault [Zero K] (ev : S → X → Res (K × S)) (s : S) (points : List X) (order : List Nat)
    (ho : order.Perm (List.range points.length)) (hs : Steady ev s) (x : X) (hx : x ∈ points) (f : Fault)
    (hf : answer ev s x = .error f) : ∃ f', batchEvaluate ev order s points = .error f' := by
  have key : ∀ (order : List Nat) (preds : List K) (t : S) (r : List K × S), Asked ev s t →
      order.foldlM (visit ev points) (preds, t) = .ok r → ∀ i ∈ order, ∀ x, points[i]? = some x → ∃ y, answer ev s x = .ok y := by
    intro order
    induction order with
    | nil => intro preds t r _ _ i hi; cases hi
    | cons j order ih =>
      intro preds t r ha h i hi x hx
      rw [List.foldlM_cons] at h
      cases hv : visit ev points (preds, t) j with
      | error e => rw [hv] at h; cases h
      | ok q =>
        rw [hv] at h
        unfold visit at hv
        cases hg : vget points j with
        | error e => rw [hg] at hv; cases hv
        | ok z =>
          rw [hg, Res_bind_ok] at hv
          cases he : ev t z with
          | error e => simp only [he] at hv; cases hv
          | ok yq =>
            obtain ⟨y, t'⟩ := yq
            simp only [he, Res_bind_ok] at hv
            cases hw : vset preds j y with
            | error e => rw [hw] at hv; cases hv
            | ok p =>
              rw [hw] at hv
              cases hv
              rcases List.mem_cons.1 hi with rfl | hi
              · have hz : points[i]? = some z := by
                  unfold vget at hg
                  split at hg
                  · cases hg; assumption
                  · cases hg
                rw [hz] at hx; cases hx
                exact ⟨y, by rw [← hs t ha x, answer, he]; rfl⟩
              · exact ih p t' r (.more ha he) h i hi x hx
  cases hb : batchEvaluate ev order s points with
  | error f' => exact ⟨f', rfl⟩
  | ok r =>
    obtain ⟨i, hi, hix⟩ := List.mem_iff_getElem.1 hx
    have := key order _ s r .none hb i (by rw [ho.mem_iff]; simpa using hi) x (by rw [List.getElem?_eq_getElem hi, hix])
    obtain ⟨y, hy⟩ := this
    rw [hf] at hy; cases hy

/-- **C158 (learners)** Primal classifiers, nearest-neighbour classifiers and voting ensembles are such learners, in every
state. -/
theorem C158_learners {F T : Type} [Field F] [LinearOrder F] :
    (∀ o : Life.Primal F, Steady primalLearner o) ∧
    (∀ (nth : Knn.NthFn) (c : Knn.Cfg F) (dist : List T → List T → Res F) (dim : Nat) (samples : List (Pt T))
      (classes : List Int) (prob : F), Steady (knnLearner nth c dist dim samples classes) prob) ∧
    ∀ (classes : List Int) (answers : X → List Int) (v : Vote.Voter F), Steady (votingLearner classes answers) v := by
  refine ⟨fun o s' h => ?_, fun nth c dist dim samples classes prob s' _ x => rfl, fun classes answers v s' h => ?_⟩
  · have : s' = o := by
      induction h with
      | none => rfl
      | more _ he ih => cases he; exact ih
    intro x; rw [this]
  · have : s'.soft = v.soft ∧ (v.soft = true → s' = v) := by
      induction h with
      | none => exact ⟨rfl, fun _ => rfl⟩
      | @more s' s'' x y _ he ih =>
        unfold votingLearner Vote.evaluateVoting at he
        cases hsf : s'.soft
        · rw [hsf] at he
          have hvs : v.soft = false := by rw [← ih.1, hsf]
          simp only [Bool.false_eq_true, if_false, Res_bind_ok] at he
          refine ⟨?_, fun h => by rw [hvs] at h; cases h⟩
          cases ht : Vote.tally classes (List.replicate (answers x).length (1 : F)) (answers x) 0
              (List.replicate classes.length 0) with
          | error e => rw [ht] at he; cases he
          | ok votes =>
            rw [ht, Res_bind_ok] at he
            cases hg : vget classes (Vote.maxElement votes) with
            | error e => rw [hg] at he; cases he
            | ok c => rw [hg] at he; cases he; exact hvs.symm
        · rw [hsf] at he
          have hvs : v.soft = true := by rw [← ih.1, hsf]
          simp only [if_true] at he
          by_cases hw : s'.weights = []
          · rw [if_pos hw] at he; cases he
          · rw [if_neg hw, Res_bind_ok] at he
            cases ht : Vote.tally classes s'.weights (answers x) 0 (List.replicate classes.length 0) with
            | error e => rw [ht] at he; cases he
            | ok votes =>
              rw [ht, Res_bind_ok] at he
              cases hg : vget classes (Vote.maxElement votes) with
              | error e => rw [hg] at he; cases he
              | ok c => rw [hg] at he; cases he; exact ih
    intro x
    cases hv : v.soft
    · have h1 : s'.soft = false := by rw [this.1, hv]
      unfold answer votingLearner Vote.evaluateVoting
      rw [hv, h1]
      simp only [Bool.false_eq_true, if_false, Res_bind_ok]
    · rw [this.2 hv]

/-- A learner that counts the questions and answers with the length of the point. -/
example : Steady (fun (n : Nat) (x : List Int) => .ok (x.length, n + 1)) 0 ∧
    batchEvaluate (fun (n : Nat) (x : List Int) => .ok (x.length, n + 1)) [1, 0] 0 [[5], [5, 6]] = .ok ([1, 2], 2) :=
  ⟨fun _ _ _ => rfl, rfl⟩

/-- **C159 refuted.**  Whatever the classifier and the samples, every entry `batchEvaluateProbability` gives is zero. -/
theorem C159_refuted {F : Type} [Field F] [LinearOrder F] [IsStrictOrderedRing F] [FloorRing F] (points : List X) :
    batchProbability (evaluateProbability : X → F) points = List.replicate points.length 0 := by
  unfold batchProbability evaluateProbability toInt
  simp

/-- **C159 refuted** for every class that would override the probability of one sample, too: the result holds integers, and
a probability below one becomes zero. -/
theorem C159_integers_refuted {F : Type} [Field F] [LinearOrder F] [IsStrictOrderedRing F] [FloorRing F] (prob : X → F)
    (points : List X) (hp : ∀ x ∈ points, 0 ≤ prob x ∧ prob x < 1) :
    batchProbability prob points = List.replicate points.length 0 := by
  rw [List.eq_replicate_iff]
  refine ⟨by simp [batchProbability], fun b hb => ?_⟩
  obtain ⟨x, hx, rfl⟩ := List.mem_map.1 hb
  obtain ⟨h0, h1⟩ := hp x hx
  rw [toInt, if_pos h0, Int.floor_eq_iff]
  exact ⟨by simpa using h0, by simpa using h1⟩

/-- **C159 (partial)** What it gives in general: for each sample, in order, the probability cut to an integer; so it is
right when the probability is zero or one. -/
theorem C159_partial {F : Type} [Field F] [LinearOrder F] [IsStrictOrderedRing F] [FloorRing F] (prob : X → F)
    (points : List X) :
    (batchProbability prob points).length = points.length ∧
    ∀ (i : Nat) x, points[i]? = some x → ∃ k, (batchProbability prob points)[i]? = some k ∧
      |(k : F)| ≤ |prob x| ∧ |prob x - k| < 1 ∧ (∀ n : Int, prob x = n → k = n) := by
  refine ⟨by simp [batchProbability], fun i x hx => ⟨toInt (prob x), by simp [batchProbability, hx], ?_⟩⟩
  unfold toInt
  split
  · rename_i h
    have h1 := Int.floor_le (prob x)
    have h2 := Int.lt_floor_add_one (prob x)
    have h3 : (0 : F) ≤ (⌊prob x⌋ : F) := by exact_mod_cast Int.floor_nonneg.2 h
    refine ⟨by rw [abs_of_nonneg h, abs_of_nonneg h3]; exact h1, by rw [abs_lt]; constructor <;> linarith, ?_⟩
    intro n hn; rw [hn]; simp
  · rename_i h
    have h0 : prob x < 0 := not_le.1 h
    have h1 := Int.le_ceil (prob x)
    have h2 := Int.ceil_lt_add_one (prob x)
    have h3 : (⌈prob x⌉ : F) ≤ 0 := by exact_mod_cast Int.ceil_le.2 (by simpa using h0.le)
    refine ⟨by rw [abs_of_neg h0, abs_of_nonpos h3]; linarith, by rw [abs_lt]; constructor <;> linarith, ?_⟩
    intro n hn; rw [hn]; simp

example : batchProbability (fun x : ℚ => x) [1, 9 / 10, -3 / 2] = [1, 0, -1] := by decide +kernel

end MLTK.Props
