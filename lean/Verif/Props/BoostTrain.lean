import Verif.Model.BoostTrain
import Verif.Props.Boost
import Verif.Props.Voting
/-!
# C212: what the estimators of AdaBoost are trained on
-/
namespace MLTK.Props
open MLTK.Spec MLTK.Vote
open MLTK.Data (Res_bind_ok Res_bind_error Res_pure)

section
variable {T : Type}

private theorem adaLoop_ok (fit : Nat → List (Pt T) → List T → Int) (seed nc : Nat) (hc : 2 ≤ nc) (samples : List (Pt T))
    (hl : 2 ≤ samples.length) (n : Nat) : ∀ (i : Nat) (ws : List ℝ), Distribution ws → ws.length = samples.length →
      ∃ alpha, adaLoop fit seed nc samples n i ws = .ok ((List.range n).map (fun k => fit (seed + (i + k)) samples), alpha) ∧
        alpha.length = n := by
  induction n with
  | zero => intro i ws _ _; exact ⟨[], rfl, rfl⟩
  | succ n ih =>
    intro i ws hw hwl
    obtain ⟨ws', a, h1, h2, h3, _⟩ := boostRound_ok nc hc ws hw (by omega)
      (samples.map (fun p => decide (p.y ≠ fit (seed + i) samples p.x))) (by simp [hwl])
    obtain ⟨alpha, h4, h5⟩ := ih (i + 1) ws' h2 (h3.trans hwl)
    refine ⟨a :: alpha, ?_, by simp [h5]⟩
    rw [adaLoop, h1, Res_bind_ok, h4, Res_bind_ok, Res_pure]
    congr 2
    rw [List.range_succ_eq_map, List.map_cons, List.map_map]
    congr 1
    apply List.map_congr_left
    intro k _
    simp only [Function.comp_apply]
    congr 1
    omega

/-- **C212, negation.**  Training succeeds, and estimator `i` is what the base estimator makes of the samples and the seed
`seed + i`: the weights computed for the samples reach no estimator. -/
theorem C212_unweighted_refuted (fit : Nat → List (Pt T) → List T → Int) (seed n nc : Nat) (hc : 2 ≤ nc)
    (samples : List (Pt T)) (hl : 2 ≤ samples.length) :
    ∃ alpha, adaTrain fit seed n nc samples = .ok ((List.range n).map (fun i => fit (seed + i) samples), alpha) ∧
      alpha.length = n := by
  obtain ⟨alpha, h1, h2⟩ := adaLoop_ok fit seed nc hc samples hl n 0
    (List.replicate samples.length (1 / (samples.length : ℝ))) (uniform_distribution _ (by omega)) (by simp)
  refine ⟨alpha, ?_, h2⟩
  unfold adaTrain
  rw [h1]
  simp

/-- **C212, negation.**  With a base estimator that makes no use of its seed, the trained ensemble answers at every point
what the base estimator alone answers there, however many estimators it has and whatever they got wrong, if the weights of
the estimators add up to more than nothing. -/
theorem C212_same_answers_refuted (fit : List (Pt T) → List T → Int) (seed n nc : Nat) (samples : List (Pt T))
    (learners : List (List T → Int)) (alpha : List ℝ)
    (hc : 2 ≤ nc) (hl : 2 ≤ samples.length) (h : adaTrain (fun _ => fit) seed n nc samples = .ok (learners, alpha))
    (ha : 0 < alpha.sum) (classes : List Int) (x : List T) (hx : fit samples x ∈ classes) :
    adaEvaluate learners alpha classes x = .ok (fit samples x) := by
  obtain ⟨al, h1, h2⟩ := C212_unweighted_refuted (fun _ => fit) seed n nc hc samples hl
  rw [h1] at h
  simp only [Except.ok.injEq, Prod.mk.injEq] at h
  obtain ⟨rfl, rfl⟩ := h
  have hp : ((List.range n).map (fun _ => fit samples)).map (fun l => l x) = List.replicate n (fit samples x) := by
    rw [List.map_map, List.eq_replicate_iff]
    refine ⟨by simp, fun b hb => ?_⟩
    obtain ⟨_, _, rfl⟩ := List.mem_map.1 hb
    rfl
  unfold adaEvaluate
  rw [hp]
  obtain ⟨c, e1, a, b, e2, e3, _⟩ := C79_boosted_vote classes (List.ne_nil_of_mem hx) al (List.replicate n (fit samples x))
    (by simpa using h2)
  simp only [List.length_replicate] at e1
  simp only [List.length_map, List.length_range]
  rw [e1]
  by_contra hne
  have hne' : c ≠ fit samples x := fun he => hne (by rw [he])
  have h3 := e3 _ hx
  have s1 : support al (List.replicate n (fit samples x)) c = 0 := by
    unfold support
    apply Finset.sum_eq_zero
    intro i hi
    simp only [Finset.mem_filter, List.getElem?_replicate] at hi
    obtain ⟨_, hi⟩ := hi
    split at hi
    · exact absurd (Option.some.inj hi).symm hne'
    · cases hi
  have s2 : support al (List.replicate n (fit samples x)) (fit samples x) = al.sum := by
    unfold support
    rw [Finset.filter_true_of_mem, List.length_replicate, ← h2]
    · clear * -
      induction al with
      | nil => simp
      | cons v l ih => 
        rw [List.length_cons, Finset.sum_range_succ', List.sum_cons, add_comm, ← ih]
        rfl
    · intro i hi
      simp only [Finset.mem_range, List.length_replicate] at hi
      simp [hi]
  rw [s1, s2] at h3
  linarith

end

/-- The hypotheses are met: four samples, three of which the base estimator gets wrong, and one estimator. -/
example : ∃ learners alpha, adaTrain (fun _ _ _ => -1) 7 1 2
      [(⟨[1], 1, 0, 1⟩ : Pt Int), ⟨[2], 1, 0, 2⟩, ⟨[3], 1, 0, 3⟩, ⟨[4], -1, 0, 4⟩] = .ok (learners, alpha) ∧ 0 < alpha.sum := by
  obtain ⟨ws', a, h1, _, _, h2⟩ := C78_weak_learner_refuted
  refine ⟨[fun _ => -1], [a], ?_, by simpa using h2⟩
  unfold adaTrain adaLoop
  simp only [List.map_cons, List.map_nil, List.length_cons, List.length_nil]
  have : ([decide ((1 : Int) ≠ -1), decide ((1 : Int) ≠ -1), decide ((1 : Int) ≠ -1), decide ((-1 : Int) ≠ -1)] : List Bool) =
    [true, true, true, false] := by decide
  rw [this]
  rw [show (0 + 1 + 1 + 1 + 1 : Nat) = 4 from rfl, h1, Res_bind_ok, adaLoop, Res_bind_ok, Res_pure]

end MLTK.Props
