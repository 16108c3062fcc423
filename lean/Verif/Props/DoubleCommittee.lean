import Verif.Model.DoubleCommittee
import Verif.Props.DoubleBalanced
import Verif.Props.DoubleVote
/-!
# C247: the perceptron committee in double arithmetic
-/
namespace MLTK.Spec
open MLTK.Fp

/-- A member whose training answered `true` and left a finite bias. -/
def soundMember (m : Bool × List Dbl × Dbl) : Bool :=
  m.1 && match m.2.2 with
    | .fin _ => true
    | _ => false

end MLTK.Spec

namespace MLTK.Props
open MLTK.Fp MLTK.Spec
open MLTK.Perc (Sample)
open MLTK.Data (Res_bind_ok Res_bind_error Res_pure)

private theorem gammas_dots {w : List Dbl} {bias : Dbl} : ∀ (samples : List (Sample Dbl)) (g r : Dbl × Dbl),
    Fp.balGammas w bias samples g = .ok r → ∀ p ∈ samples, ∃ d, balDot w p.x = .ok d := by
  intro samples
  induction samples with
  | nil => intro g r _ p hp; simp at hp
  | cons q rest ih =>
    intro g r h p hp
    rw [Fp.balGammas] at h
    cases hd : balDot w q.x with
    | error f => rw [hd, Res_bind_error] at h; simp at h
    | ok d =>
      rw [hd, Res_bind_ok] at h
      rcases List.mem_cons.1 hp with rfl | hp
      · exact ⟨d, hd⟩
      · exact ih _ r h p hp

/-- A trained member answers every training sample, with 1 or -1. -/
private theorem member_answers {rate : Dbl} {maxEpoch maxUp : Nat} {late : Nat → Bool} {samples : List (Sample Dbl)}
    {w0 : List Dbl} {m : Bool × List Dbl × Dbl} (h : Fp.balTrain rate maxEpoch maxUp late samples w0 = .ok m) :
    ∀ p ∈ samples, ∃ a, comAnswer p.x m = .ok a ∧ (a = 1 ∨ a = -1) ∧
      ∀ y : Int, Fp.balEvaluate m.2.1 m.2.2 p.x false = .ok (.fin y) → y = 1 ∨ y = -1 → a = y := by
  unfold Fp.balTrain at h
  cases hl : Fp.balLoop rate maxUp late samples maxEpoch 0 ⟨w0, .fin 0, 0⟩ 0 with
  | error f => rw [hl, Res_bind_error] at h; simp at h
  | ok r =>
    rw [hl, Res_bind_ok] at h
    cases hg : Fp.balGammas r.1.w r.1.bias samples (.fin dblMax, .fin dblMax) with
    | error f => rw [hg, Res_bind_error] at h; simp at h
    | ok g =>
      rw [hg, Res_bind_ok, Res_pure] at h
      simp only [Except.ok.injEq] at h
      subst h
      intro p hp
      obtain ⟨d, hd⟩ := gammas_dots samples _ g hg p hp
      unfold comAnswer Fp.balEvaluate
      simp only [hd, Res_bind_ok, Res_pure, Bool.false_eq_true, if_false]
      refine ⟨_, rfl, by split_ifs <;> simp, fun y hy hy1 => ?_⟩
      simp only [Except.ok.injEq] at hy
      rw [hy]
      rcases hy1 with rfl | rfl
      · simp
      · rw [if_neg]
        intro hc
        injection hc with hc
        norm_num at hc

private theorem mapM_get {α β : Type} {f : α → Res β} : ∀ {l : List α} {r : List β}, l.mapM f = .ok r →
    ∀ b ∈ r, ∃ a ∈ l, f a = .ok b := by
  intro l
  induction l with
  | nil => intro r h b hb; simp [pure, Except.pure] at h; subst h; simp at hb
  | cons a l ih =>
    intro r h b hb
    rw [List.mapM_cons] at h
    cases ha : f a with
    | error e => rw [ha, Res_bind_error] at h; simp at h
    | ok x =>
      rw [ha, Res_bind_ok] at h
      cases hl : l.mapM f with
      | error e => rw [hl, Res_bind_error] at h; simp at h
      | ok xs =>
        rw [hl, Res_bind_ok, Res_pure] at h
        simp only [Except.ok.injEq] at h
        subst h
        rcases List.mem_cons.1 hb with rfl | hb
        · exact ⟨a, by simp, ha⟩
        · obtain ⟨a', h1, h2⟩ := ih hl b hb
          exact ⟨a', by simp [h1], h2⟩

private theorem mapM_all {α β : Type} {f : α → Res β} (l : List α) (g : α → β) (h : ∀ a ∈ l, f a = .ok (g a)) :
    l.mapM f = .ok (l.map g) := by
  induction l with
  | nil => rfl
  | cons a l ih =>
    rw [List.mapM_cons, h a (by simp), Res_bind_ok, ih (fun b hb => h b (by simp [hb])), Res_bind_ok, Res_pure]
    rfl

private theorem count_two {l : List Int} {a b : Int} (h : a ≠ b) : l.count a + l.count b ≤ l.length := by
  induction l with
  | nil => simp
  | cons x l ih =>
    rw [List.count_cons, List.count_cons, List.length_cons]
    by_cases h1 : x = a
    · subst h1; simp [h]; omega
    · simp [h1]; split_ifs <;> omega

/-- **C247 (partial).**  In double arithmetic, whatever the samples, the orders they are shuffled into, the start weights and the
rate: if the training of more than half of the members (and at most `2 ^ 53` members) succeeded and left a finite bias, the
committee answers every training sample by its label. -/
theorem C247_majority_partial (rate : Dbl) (maxEpoch maxUp : Nat) (late : Nat → Nat → Bool) (samples : List (Sample Dbl))
    (runs : List (List (Sample Dbl) × List Dbl)) (hruns : ∀ r ∈ runs, r.1.Perm samples) (hep : 0 < maxEpoch)
    (classes : List Int) (hn : classes.Nodup) (h1 : 1 ∈ classes) (h2 : -1 ∈ classes)
    (members : List (Bool × List Dbl × Dbl)) (h : comTrain rate maxEpoch maxUp late runs = .ok members)
    (hlen : members.length ≤ 2 ^ 53) (hmaj : members.length < 2 * members.countP soundMember) :
    ∀ p ∈ samples, ∃ c : Int, comEvaluate classes members p.x = .ok c ∧ p.y = .fin c := by
  intro p hp
  have hm : ∀ m ∈ members, ∃ order w0 lt, order.Perm samples ∧ Fp.balTrain rate maxEpoch maxUp lt order w0 = .ok m := by
    intro m hmm
    obtain ⟨r, hr, hb⟩ := mapM_get h m hmm
    obtain ⟨hr1, hr2⟩ := List.mem_zipIdx' hr
    exact ⟨r.1.1, r.1.2, late r.2, hruns r.1 (hr2 ▸ List.getElem_mem hr1), hb⟩
  have hsound : ∀ m ∈ members, soundMember m = true → Fp.balEvaluate m.2.1 m.2.2 p.x false = .ok p.y := by
    intro m hmm hs
    obtain ⟨order, w0, lt, hperm, ht⟩ := hm m hmm
    obtain ⟨ok, w, b⟩ := m
    unfold soundMember at hs
    cases b with
    | fin b =>
      simp only [Bool.and_true] at hs
      subst hs
      exact C246_answers_partial rate maxEpoch maxUp lt order w0 w b hep ht p (hperm.mem_iff.2 hp)
    | inf s => simp at hs
    | nan => simp at hs
  -- every member answers
  have hans : ∀ m ∈ members, ∃ a, comAnswer p.x m = .ok a ∧ (a = 1 ∨ a = -1) ∧
      ∀ y : Int, Fp.balEvaluate m.2.1 m.2.2 p.x false = .ok (.fin y) → y = 1 ∨ y = -1 → a = y := by
    intro m hmm
    obtain ⟨order, w0, lt, hperm, ht⟩ := hm m hmm
    exact member_answers ht p (hperm.mem_iff.2 hp)
  -- the label is 1 or -1
  obtain ⟨m0, hm0, hs0⟩ : ∃ m ∈ members, soundMember m = true := by
    by_contra hcon
    push Not at hcon
    have : members.countP soundMember = 0 := List.countP_eq_zero.2 (fun m hmm => hcon m hmm)
    omega
  obtain ⟨c, hc, hpm⟩ : ∃ c : Int, p.y = .fin c ∧ (c = 1 ∨ c = -1) := by
    have he := hsound m0 hm0 hs0
    unfold Fp.balEvaluate at he
    cases hd : balDot m0.2.1 p.x with
    | error f => rw [hd, Res_bind_error] at he; simp at he
    | ok d =>
      rw [hd, Res_bind_ok, Res_pure] at he
      simp only [Bool.false_eq_true, if_false, Except.ok.injEq] at he
      unfold balPred at he
      split_ifs at he
      · exact ⟨1, by rw [← he]; simp, .inl rfl⟩
      · exact ⟨-1, by rw [← he]; simp, .inr rfl⟩
  let g : Bool × List Dbl × Dbl → Int := fun m => match comAnswer p.x m with
    | .ok a => a
    | .error _ => 0
  have hg : ∀ m ∈ members, comAnswer p.x m = .ok (g m) ∧ (g m = 1 ∨ g m = -1) ∧ (soundMember m = true → g m = c) := by
    intro m hmm
    obtain ⟨a, ha, ha1, ha2⟩ := hans m hmm
    have hga : g m = a := by simp only [g, ha]
    rw [hga]
    exact ⟨ha, ha1, fun hs => ha2 c (by rw [← hc]; exact hsound m hmm hs) hpm⟩
  have hpreds := mapM_all members g (fun m hmm => (hg m hmm).1)
  have hcls : ∀ q ∈ members.map g, q ∈ classes := by
    intro q hq
    obtain ⟨m, hmm, rfl⟩ := List.mem_map.1 hq
    rcases (hg m hmm).2.1 with h | h <;> rw [h] <;> assumption
  obtain ⟨c0, hv, before, after, e1, e2, _⟩ := C230_hard classes hn (List.ne_nil_of_mem h1) (members.map g) hcls
    (by simpa using hlen) []
  refine ⟨c0, by unfold comEvaluate; rw [hpreds, Res_bind_ok, hv], ?_⟩
  have hcount : members.countP soundMember ≤ (members.map g).count c := by
    rw [List.count, List.countP_map]
    exact List.countP_mono_left (fun m hmm hs => by simpa using (hg m hmm).2.2 hs)
  have hcc : c0 = c := by
    by_contra hne
    have k1 := e2 c (by rcases hpm with rfl | rfl <;> assumption)
    have k2 := count_two (l := members.map g) hne
    rw [List.length_map] at k2
    simp only at k1
    omega
  rw [hcc, hc]

/-- Two samples, and two members that start from different weights and see them in different orders. -/
def comSamples : List (Sample Dbl) := [⟨[.fin 1, .fin (-1)], .fin 1⟩, ⟨[.fin (-1), .fin 1], .fin (-1)⟩]

example : comTrain (.fin (1 / 4)) 10 10 (fun _ _ => false) [(comSamples, [.fin 1, .fin 0]), (comSamples.reverse, [.fin 0, .fin 1]),
    (comSamples, [.fin (1 / 2), .fin 0])] = .ok [(true, [.fin 1, .fin 0], .fin 0), (true, [.fin (3 / 4), .fin (1 / 4)], .fin 0),
      (true, [.fin (1 / 2), .fin 0], .fin 0)] := by decide +kernel

example : ∀ p ∈ comSamples, ∃ c : Int, comEvaluate [1, -1] [(true, [.fin 1, .fin 0], .fin 0), (true, [.fin (3 / 4), .fin (1 / 4)], .fin 0),
    (true, [.fin (1 / 2), .fin 0], .fin 0)] p.x = .ok c ∧ p.y = .fin c :=
  C247_majority_partial (.fin (1 / 4)) 10 10 (fun _ _ => false) comSamples [(comSamples, [.fin 1, .fin 0]),
    (comSamples.reverse, [.fin 0, .fin 1]), (comSamples, [.fin (1 / 2), .fin 0])]
    (by
      intro r hr
      simp only [List.mem_cons, List.not_mem_nil, or_false] at hr
      rcases hr with rfl | rfl | rfl
      · exact List.Perm.refl _
      · exact List.reverse_perm _
      · exact List.Perm.refl _)
    (by norm_num) [1, -1] (by decide) (by decide) (by decide) _ (by decide +kernel) (by norm_num) (by decide +kernel)

/-- **C247 refuted** for half of the members: with one member of two separating the samples, training is reported as a success and
a training sample is answered wrong. -/
theorem C247_half_refuted :
    comTrain (.fin (1 / 4)) 1 10 (fun _ _ => false) [(comSamples, [.fin 1, .fin 0]), (comSamples, [.fin 0, .fin 1])] =
      .ok [(true, [.fin 1, .fin 0], .fin 0), (false, [.fin (1 / 2), .fin (1 / 2)], .fin 0)] ∧
    comEvaluate [1, -1] [(true, [.fin 1, .fin 0], .fin 0), (false, [.fin (1 / 2), .fin (1 / 2)], .fin 0)]
      [.fin (-1), .fin 1] = .ok 1 := by decide +kernel

/-- **C247 refuted** for values beyond `2 ^ 1022`: all members report success, each with an infinite bias, and a training sample is
answered wrong. -/
theorem C247_overflow_refuted :
    comTrain (.fin 1) 10 10 (fun _ _ => false) (List.replicate 3 ([⟨[.fin (2 ^ 1023)], .fin 1⟩, ⟨[.fin (-(2 ^ 1023))], .fin (-1)⟩],
      [.fin 1])) = .ok (List.replicate 3 (true, [.fin 1], .inf true)) ∧
    comEvaluate [1, -1] (List.replicate 3 (true, [.fin 1], .inf true)) [.fin (2 ^ 1023)] = .ok (-1) := by decide +kernel

end MLTK.Props
