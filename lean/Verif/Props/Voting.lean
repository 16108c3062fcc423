import Mathlib.Tactic.NormNum
import Verif.Lemmas.Voting
import Verif.Props.DataCopy
import Verif.Spec.Perceptron
/-!
# C44-C46, C48, C77, C79: combining classifiers
-/
namespace MLTK.Props
open MLTK.Spec MLTK.Vote
open MLTK.Data (Res_bind_ok Res_bind_error Res_pure)

section
variable {T : Type}

/-- C44 (training).  The classifier for class `i` against class `j` is trained on exactly the samples
of these two classes, in order, those of class `i` labelled 1 and the others -1; the points are fresh,
and every point that existed before is unchanged. -/
theorem C44_train (m : Mem T) (d : Data) (h : Consistent m d) :
    ∃ (e : List (Pt T)) (rows : List (List (Option Data))),
      trainOvO d m d.classes = .ok (m ++ e, rows) ∧ rows.length = d.classes.length ∧
      ∀ (i j : Nat) (ci cj : Int), d.classes[i]? = some ci → d.classes[j]? = some cj →
        ∃ row o, rows[i]? = some row ∧ row[j]? = some o ∧
          TrainedOn (m ++ e) m.length (samples m d) ci cj o := by
  obtain ⟨e, rows, h1, h2, h3⟩ := trainOvO_spec d.classes h
  refine ⟨e, rows, h1, h2, fun i j ci cj hi hj => ?_⟩
  obtain ⟨row, a1, _, a3⟩ := h3 i ci hi
  obtain ⟨o, b1, b2⟩ := a3 j cj hj
  exact ⟨row, o, a1, b1, b2⟩

/-- C45 (training).  Classifier `i` is trained on all the samples, in order, those of class `i`
labelled 1 and the others -1; the points are fresh and existing points are unchanged. -/
theorem C45_train (m : Mem T) (d : Data) (h : Consistent m d) :
    ∃ (e : List (Pt T)) (ts : List Data),
      trainOvA d m d.classes = .ok (m ++ e, ts) ∧ ts.length = d.classes.length ∧
      ∀ (i : Nat) (c : Int), d.classes[i]? = some c → ∃ t, ts[i]? = some t ∧ t.classes = [-1, 1] ∧
        (∀ r ∈ t.points, m.length ≤ r) ∧ samples (m ++ e) t = oneAgainst c (samples m d) := by
  obtain ⟨e, ts, h1, h2, h3⟩ := trainOvA_spec d.classes h
  refine ⟨e, ts, h1, h2, fun i c hi => ?_⟩
  obtain ⟨t, a1, a2, _, a4, a5⟩ := h3 i c hi
  exact ⟨t, a1, a2, a4, a5⟩

/-- The dataset of the copy properties meets the hypothesis of the two theorems above. -/
example : Consistent demoMem demoData ∧ 2 ≤ demoData.classes.length :=
  ⟨demo_consistent, by decide⟩

end

section
variable {K : Type} [Field K] [LinearOrder K]

/-- C44 (prediction).  One-vs-one returns the first class with the most duels won; the duels won add
up to `n(n-1)`. -/
theorem C44_most_duels (classes : List Int) (hn : classes.Nodup) (hne : classes ≠ []) (ans : Nat → Nat → K) :
    ∃ i c, evaluateOvO classes ans = .ok c ∧ classes[i]? = some c ∧
      FirstMax classes.length (duelsWon classes.length ans) i ∧
      ∑ j ∈ Finset.range classes.length, duelsWon classes.length ans j =
        classes.length * (classes.length - 1) := by
  obtain ⟨v, h1, h2, h3⟩ := votesOvO_spec hn ans
  have hv : v ≠ [] := by
    intro h; subst h; exact hne (List.length_eq_zero_iff.mp (by simpa using h2.symm))
  obtain ⟨a1, a2, a3⟩ := maxElement_spec v hv
  rw [h2] at a1 a2
  refine ⟨maxElement v, classes[maxElement v], ?_, by simp [a1], ⟨a1, ?_, ?_⟩, duelsWon_total _ _⟩
  · unfold evaluateOvO
    rw [h1, Res_bind_ok]
    simp [a1]
  · intro j hj
    rw [← h3 j hj, ← h3 _ a1]; exact a2 j hj
  · intro j hj
    rw [← h3 j (by omega), ← h3 _ a1]; exact a3 j hj

/-- C44 (prediction).  The votes counted by the code are the duels won. -/
theorem C44_votes (classes : List Int) (hn : classes.Nodup) (ans : Nat → Nat → K) :
    ∃ votes, votesOvO classes ans = .ok votes ∧ votes.length = classes.length ∧
      (∀ i < classes.length, votes.getD i 0 = duelsWon classes.length ans i) ∧
      votes.sum = classes.length * (classes.length - 1) := by
  obtain ⟨v, h1, h2, h3⟩ := votesOvO_spec hn ans
  refine ⟨v, h1, h2, h3, ?_⟩
  rw [← duelsWon_total classes.length ans]
  have : v = (List.range classes.length).map (duelsWon classes.length ans) := by
    apply List.ext_getElem (by simp [h2])
    intro i hi hi'
    have := h3 i (by omega)
    rw [List.getD_eq_getElem _ _ hi] at this
    simp [this]
  rw [this]
  generalize classes.length = n
  clear * -
  have h1 : ∀ m (g : Nat → Nat), ((List.range m).map g).sum = ∑ i ∈ Finset.range m, g i := by
    intro m g
    induction m with
    | zero => simp
    | succ m ih => rw [List.range_succ, List.map_append, List.sum_append, ih, Finset.sum_range_succ]; simp
  exact h1 _ _

/-- C44 (prediction).  A class that wins all its duels is returned. -/
theorem C44_undefeated (classes : List Int) (hn : classes.Nodup) (ans : Nat → Nat → K) (i : Nat) (c : Int)
    (hc : classes[i]? = some c)
    (hwin : ∀ j < classes.length, j ≠ i → ans i j = 1 ∧ ans j i ≠ 1) :
    evaluateOvO classes ans = .ok c := by
  have hil : i < classes.length := (List.getElem?_eq_some_iff.mp hc).1
  obtain ⟨k, c', h1, h2, h3, _⟩ := C44_most_duels classes hn (by rintro rfl; simp at hil) ans
  have hik : i = k := by
    by_contra hne
    obtain ⟨hk, h4, _⟩ := h3
    -- the winner has all 2(n-1) votes, any other class misses two
    have hi : duelsWon classes.length ans i = (classes.length - 1) + (classes.length - 1) := by
      unfold duelsWon
      have e1 : (Finset.range classes.length).filter (fun j => j ≠ i ∧ ans i j = 1) =
          (Finset.range classes.length).erase i := by
        ext j; simp only [Finset.mem_filter, Finset.mem_range, Finset.mem_erase]
        exact ⟨fun h => ⟨h.2.1, h.1⟩, fun h => ⟨h.2, h.1, (hwin j h.2 h.1).1⟩⟩
      have e2 : (Finset.range classes.length).filter (fun j => j ≠ i ∧ ans j i ≠ 1) =
          (Finset.range classes.length).erase i := by
        ext j; simp only [Finset.mem_filter, Finset.mem_range, Finset.mem_erase]
        exact ⟨fun h => ⟨h.2.1, h.1⟩, fun h => ⟨h.2, h.1, (hwin j h.2 h.1).2⟩⟩
      rw [e1, e2, Finset.card_erase_of_mem (Finset.mem_range.mpr hil), Finset.card_range]
    have hkk : duelsWon classes.length ans k ≤ (classes.length - 2) + (classes.length - 2) := by
      unfold duelsWon
      have hsub : ∀ s : Finset Nat, s ⊆ ((Finset.range classes.length).erase k).erase i →
          s.card ≤ classes.length - 2 := by
        intro s hs
        have := Finset.card_le_card hs
        rw [Finset.card_erase_of_mem (Finset.mem_erase.mpr ⟨hne, Finset.mem_range.mpr hil⟩),
          Finset.card_erase_of_mem (Finset.mem_range.mpr hk), Finset.card_range] at this
        omega
      apply Nat.add_le_add
      · apply hsub
        intro j hj
        simp only [Finset.mem_filter, Finset.mem_range, Finset.mem_erase] at *
        refine ⟨?_, hj.2.1, hj.1⟩
        rintro rfl
        exact (hwin k hk (Ne.symm hne)).2 hj.2.2
      · apply hsub
        intro j hj
        simp only [Finset.mem_filter, Finset.mem_range, Finset.mem_erase] at *
        refine ⟨?_, hj.2.1, hj.1⟩
        rintro rfl
        exact hj.2.2 (hwin k hk (Ne.symm hne)).1
    have := h4 i hil
    omega
  subst hik
  rw [hc] at h2
  rw [h1, Option.some.inj h2]

/-- Three classes, the second undefeated. -/
example : evaluateOvO (K := ℚ) [7, 3, 5] (fun i j => if i = 1 then 1 else if j = 1 then -1 else 1) = .ok 3 := by
  decide +kernel

/-- C45 (prediction).  One-vs-all returns the first class for which the base classifier's answer to
`evaluate(p, true)` is greatest. -/
theorem C45_argmax (classes : List Int) (hne : classes ≠ []) (vals : List K) (hl : vals.length = classes.length) :
    ∃ i c, evaluateOvA classes vals = .ok c ∧ classes[i]? = some c ∧
      FirstMax classes.length (fun j => vals.getD j 0) i := by
  have hv : vals ≠ [] := by
    intro h; subst h; exact hne (List.length_eq_zero_iff.mp (by simpa using hl.symm))
  have hm := maxElement_spec vals hv
  rw [hl] at hm
  refine ⟨maxElement vals, classes[maxElement vals]'hm.1, ?_, by simp [hm.1], hm⟩
  simp [evaluateOvA, hm.1]

/-- C45 for base classifiers that honour `raw_value` (`IMAp` and `IMApFixedMargin`): the class whose
decision function `w·x + b` is greatest at the query is returned. -/
theorem C45_decision_value_partial (classes : List Int) (hne : classes ≠ []) (ws : List (List K × K × K × K))
    (hl : ws.length = classes.length) (p : List K) (hp : ∀ w ∈ ws, w.1.length = p.length) :
    ∃ i c, evaluateOvA classes (ws.map (fun w => imaEvaluate w.1 w.2.1 w.2.2.1 w.2.2.2 p true)) = .ok c ∧
      classes[i]? = some c ∧
      FirstMax classes.length (fun j => affine p.length (ws.getD j ([], 0, 0, 0)).1 (ws.getD j ([], 0, 0, 0)).2.1 p) i := by
  obtain ⟨i, c, h1, h2, h3⟩ := C45_argmax classes hne
    (ws.map (fun w => imaEvaluate w.1 w.2.1 w.2.2.1 w.2.2.2 p true)) (by simpa using hl)
  have hval : ∀ j < classes.length,
      (ws.map (fun w => imaEvaluate w.1 w.2.1 w.2.2.1 w.2.2.2 p true)).getD j 0 =
        affine p.length (ws.getD j ([], 0, 0, 0)).1 (ws.getD j ([], 0, 0, 0)).2.1 p := by
    intro j hj
    have hj' : j < ws.length := by omega
    have hw := hp ws[j] (List.getElem_mem hj')
    simp only [List.getD_eq_getElem?_getD, List.getElem?_map, List.getElem?_eq_getElem hj', Option.map_some,
      Option.getD_some]
    unfold imaEvaluate affine ip Perc.decision
    rw [if_neg (by simpa using hw.symm), if_pos rfl, hw, foldl_add_sum]
    have h1 : ∀ m (g : Nat → K), ((List.range m).map g).sum = ∑ i ∈ Finset.range m, g i := by
      intro m g
      induction m with
      | zero => simp
      | succ m ih => rw [List.range_succ, List.map_append, List.sum_append, ih, Finset.sum_range_succ]; simp
    rw [h1, add_comm]
  refine ⟨i, c, h1, h2, h3.1, ?_, ?_⟩
  · intro j hj
    have := h3.2.1 j hj
    simp only at this ⊢
    rwa [hval j hj, hval i h3.1] at this
  · intro j hj
    have := h3.2.2 j hj
    simp only at this ⊢
    rwa [hval j (by have := h3.1; omega), hval i h3.1] at this

end

/-- C45 refuted for primal classifiers such as `PerceptronPrimal`, whose `evaluate` ignores
`raw_value`: both decision values are positive, the second is greater, and the first class is returned. -/
theorem C45_primal_refuted :
    ∃ (classes : List Int) (w0 w1 : List ℚ) (b0 b1 : ℚ) (p : List ℚ),
      affine 1 w0 b0 p < affine 1 w1 b1 p ∧
      evaluateOvA classes [primalEvaluate w0 b0 p true, primalEvaluate w1 b1 p true] = .ok 1 ∧
      classes = [1, 2] :=
  ⟨[1, 2], [1], [5], 0, 0, [1], by simp [affine, ip], by decide +kernel, rfl⟩

example : evaluateOvA [1, 2] [imaEvaluate [1] 0 0 1 [1] true, imaEvaluate [5] 0 0 1 [(1 : ℚ)] true] = .ok 2 := by
  decide +kernel

/-! ### Ensembles -/
section
variable {K : Type} [Field K] [LinearOrder K] [IsStrictOrderedRing K]

omit [LinearOrder K] [IsStrictOrderedRing K] in
/-- Weight one for every voter: the support is the number of votes. -/
theorem support_ones (preds : List Int) (c : Int) :
    support (List.replicate preds.length (1 : K)) preds c = (preds.count c : K) := by
  unfold support
  have h1 : ∀ i ∈ (Finset.range preds.length).filter (fun i => preds[i]? = some c),
      (List.replicate preds.length (1 : K)).getD i 0 = 1 := by
    intro i hi
    have : i < preds.length := by simpa using (Finset.mem_filter.mp hi).1
    simp [this]
  rw [Finset.sum_congr rfl h1, Finset.sum_const, nsmul_eq_mul, mul_one]
  congr 1
  induction preds using List.reverseRecOn with
  | nil => rfl
  | append_singleton l a ih =>
    rw [List.count_append, ← ih (fun i hi => by
        have : i < l.length := by simpa using (Finset.mem_filter.mp hi).1
        simp [this]),
      List.length_append, List.length_singleton, Finset.range_add_one, Finset.filter_insert]
    have h2 : (Finset.range l.length).filter (fun i => (l ++ [a])[i]? = some c) =
        (Finset.range l.length).filter (fun i => l[i]? = some c) := by
      apply Finset.filter_congr
      intro i hi
      rw [List.getElem?_append_left (by simpa using hi)]
    rw [h2]
    by_cases hac : a = c
    · rw [if_pos (by simp [hac]), Finset.card_insert_of_notMem (by simp), hac]; simp
    · rw [if_neg (by simp [hac])]; simp [hac]

/-- C46 (hard voting).  The earliest class with the most votes is returned, whatever weights were set. -/
theorem C46_hard (v : Voter K) (hv : v.soft = false) (classes : List Int) (hn : classes.Nodup)
    (hne : classes ≠ []) (preds : List Int) (hq : ∀ q ∈ preds, q ∈ classes) :
    ∃ v' c, evaluateVoting v classes preds = .ok (v', c) ∧ FirstBest classes (fun c => preds.count c) c := by
  obtain ⟨votes, c, h1, h2, h3⟩ := tally_best hn hne (List.replicate preds.length (1 : K)) preds hq (by simp)
  refine ⟨{ v with weights := List.replicate preds.length 1 }, c, ?_, ?_⟩
  · unfold evaluateVoting
    rw [if_neg (by simp [hv]), Res_bind_ok]
    dsimp only
    rw [h1, Res_bind_ok, h2, Res_bind_ok]; rfl
  · obtain ⟨a, b, e1, e2, e3⟩ := h3
    refine ⟨a, b, e1, fun c' hc' => ?_, fun c' hc' => ?_⟩
    · have := e2 c' hc'
      rw [support_ones, support_ones] at this
      exact_mod_cast this
    · have := e3 c' hc'
      rw [support_ones, support_ones] at this
      exact_mod_cast this

/-- C46 (soft voting).  The earliest class whose voters have the greatest total weight is returned, and
the ensemble is unchanged. -/
theorem C46_soft (v : Voter K) (hv : v.soft = true) (classes : List Int) (hn : classes.Nodup)
    (hne : classes ≠ []) (preds : List Int) (hq : ∀ q ∈ preds, q ∈ classes)
    (hw : v.weights.length = preds.length) (hw0 : v.weights ≠ []) :
    ∃ c, evaluateVoting v classes preds = .ok (v, c) ∧ FirstBest classes (support v.weights preds) c := by
  obtain ⟨votes, c, h1, h2, h3⟩ := tally_best hn hne v.weights preds hq (by omega)
  refine ⟨c, ?_, h3⟩
  unfold evaluateVoting
  rw [if_pos hv, if_neg hw0, Res_bind_ok]
  dsimp only
  rw [h1, Res_bind_ok, h2, Res_bind_ok]; rfl

/-- C46.  `setWeights` accepts exactly one weight per learner, and these are then the weights of the soft
vote. -/
theorem C46_weights_set (v : Voter K) (hv : v.soft = true) (classes : List Int) (hn : classes.Nodup)
    (hne : classes ≠ []) (preds : List Int) (hq : ∀ q ∈ preds, q ∈ classes) (ws : List K) :
    (ws.length ≠ preds.length → setWeights v preds.length ws = .error .assertFail) ∧
    (ws.length = preds.length → ws ≠ [] → ∃ v' c, setWeights v preds.length ws = .ok v' ∧
      evaluateVoting v' classes preds = .ok (v', c) ∧ FirstBest classes (support ws preds) c) := by
  refine ⟨fun h => ?_, fun h h0 => ?_⟩
  · unfold setWeights; rw [if_neg h]
  · obtain ⟨c, h1, h2⟩ := C46_soft { v with weights := ws } hv classes hn hne preds hq h h0
    refine ⟨_, c, ?_, h1, h2⟩
    unfold setWeights; rw [if_pos h]

/-- C46.  The perceptron committee is a hard vote. -/
theorem C46_committee (classes : List Int) (hn : classes.Nodup) (hne : classes ≠ []) (preds : List Int)
    (hq : ∀ q ∈ preds, q ∈ classes) :
    ∃ c, evaluateCommittee (K := K) classes preds = .ok c ∧ FirstBest classes (fun c => preds.count c) c := by
  obtain ⟨votes, c, h1, h2, h3⟩ := tally_best hn hne (List.replicate preds.length (1 : K)) preds hq (by simp)
  refine ⟨c, ?_, ?_⟩
  · unfold evaluateCommittee
    rw [h1, Res_bind_ok, h2]
  · obtain ⟨a, b, e1, e2, e3⟩ := h3
    refine ⟨a, b, e1, fun c' hc' => ?_, fun c' hc' => ?_⟩
    · have := e2 c' hc'
      rw [support_ones, support_ones] at this
      exact_mod_cast this
    · have := e3 c' hc'
      rw [support_ones, support_ones] at this
      exact_mod_cast this

/-- A prediction outside the known classes writes past the end of the votes. -/
theorem C46_unknown_label_refuted (v : Voter K) (hv : v.soft = false) (classes : List Int) (q : Int)
    (hq : q ∉ classes) (preds : List Int) :
    evaluateVoting v classes (q :: preds) = .error .outOfBounds := by
  have hf : classes.findIdx (· == q) = classes.length := by
    rw [List.findIdx_eq_length]
    intro x hx
    simp only [beq_eq_false_iff_ne, ne_eq]
    rintro rfl
    exact hq hx
  unfold evaluateVoting
  rw [if_neg (by simp [hv]), Res_bind_ok]
  have : tally classes (List.replicate (q :: preds).length (1 : K)) (q :: preds) 0
      (List.replicate classes.length 0) = .error .outOfBounds := by
    rw [tally, hf]
    have h1 : vget (List.replicate (q :: preds).length (1 : K)) 0 = .ok 1 := by simp
    have h2 : addAt (List.replicate classes.length (0 : K)) classes.length 1 = .error .outOfBounds := by
      unfold addAt vget
      rw [List.getElem?_eq_none (by simp)]; rfl
    rw [h1, Res_bind_ok, h2]; rfl
  dsimp only
  rw [this]; rfl

/-- C77 (part).  Soft voting leaves the ensemble as it was. -/
theorem C77_soft_partial (v v' : Voter K) (hv : v.soft = true) (classes preds : List Int) (c : Int)
    (h : evaluateVoting v classes preds = .ok (v', c)) : v' = v := by
  unfold evaluateVoting at h
  rw [if_pos hv] at h
  by_cases hw : v.weights = []
  · rw [if_pos hw] at h; simp at h
  · rw [if_neg hw, Res_bind_ok] at h
    dsimp only at h
    cases h1 : tally classes v.weights preds 0 (List.replicate classes.length 0) with
    | error f => rw [h1] at h; simp at h
    | ok votes =>
      rw [h1, Res_bind_ok] at h
      cases h2 : vget classes (maxElement votes) with
      | error f => rw [h2] at h; simp at h
      | ok c' =>
        rw [h2, Res_bind_ok] at h
        injection h with h
        exact (Prod.mk.inj h).1.symm

/-- C48.  Bagging returns the earliest class with the most votes of its estimators. -/
theorem C48_plurality (classes : List Int) (hn : classes.Nodup) (hne : classes ≠ []) (preds : List Int)
    (hq : ∀ q ∈ preds, q ∈ classes) :
    ∃ c, evaluateBagging preds.length classes preds = .ok c ∧
      FirstBest classes (fun c => preds.count c) c := by
  have key : ∀ n ≤ preds.length, ∃ votes : List Int,
      (List.range n).foldlM (fun (votes : List Int) (i : Nat) => do
        let pred ← vget preds i
        addAt votes (classes.findIdx (· == pred)) 1) (List.replicate classes.length 0) = .ok votes ∧
      votes.length = classes.length ∧
      ∀ k (hk : k < classes.length), votes.getD k 0 = ((preds.take n).count classes[k] : Int) := by
    intro n
    induction n with
    | zero => intro _; exact ⟨List.replicate classes.length 0, rfl, by simp, fun k hk => by simp [hk]⟩
    | succ n ih =>
      intro hnl
      obtain ⟨v, h1, h2, h3⟩ := ih (by omega)
      have hnl' : n < preds.length := by omega
      obtain ⟨hp, hpos⟩ := findIdx_class hn (hq preds[n] (List.getElem_mem hnl'))
      obtain ⟨v', a1, a2, a3⟩ := addAt_ok v (classes.findIdx (· == preds[n])) (1 : Int) (by omega)
      refine ⟨v', ?_, by omega, ?_⟩
      · rw [List.range_succ, List.foldlM_append, h1, Res_bind_ok, List.foldlM_cons]
        have : vget preds n = .ok preds[n] := by simp [hnl']
        rw [this, Res_bind_ok, a1, Res_bind_ok]; rfl
      · intro k hk
        rw [a3 k, h3 k hk, List.take_add_one, List.getElem?_eq_getElem hnl']
        simp only [Option.toList_some, List.count_append, List.count_singleton]
        by_cases hkq : preds[n] = classes[k]
        · rw [if_pos ((hpos k hk).mpr hkq.symm), if_pos (by simpa using hkq)]; simp
        · rw [if_neg (fun h => hkq ((hpos k hk).mp h).symm), if_neg (by simpa using hkq)]; simp
  obtain ⟨v, h1, h2, h3⟩ := key preds.length le_rfl
  have hv : v ≠ [] := by
    intro h; subst h; exact hne (List.length_eq_zero_iff.mp (by simpa using h2.symm))
  have hm := maxElement_spec v hv
  rw [h2] at hm
  obtain ⟨c, h4, a, b, e1, e2, e3⟩ := firstBest_of_firstMax (score := fun c => (preds.count c : Int)) hm (by
    intro k hk
    show v.getD k 0 = _
    rw [h3 k hk, List.take_length])
  refine ⟨c, ?_, a, b, e1, fun c' hc' => ?_, fun c' hc' => ?_⟩
  · unfold evaluateBagging
    rw [h1, Res_bind_ok, h4]
  · have := e2 c' hc'
    dsimp only at this ⊢
    exact_mod_cast this
  · have := e3 c' hc'
    dsimp only at this ⊢
    exact_mod_cast this

omit [IsStrictOrderedRing K] in
/-- C79.  A boosted ensemble returns the earliest class whose voters have the greatest total estimator
weight. -/
theorem C79_boosted_vote (classes : List Int) (hne : classes ≠ []) (alpha : List K) (preds : List Int)
    (hl : alpha.length = preds.length) :
    ∃ c, evaluateBoost preds.length alpha classes preds = .ok c ∧ FirstBest classes (support alpha preds) c := by
  have key : ∀ c, ∀ n ≤ preds.length, boostScore alpha preds c n =
      .ok (∑ i ∈ Finset.range n, if preds[i]? = some c then alpha.getD i 0 else 0) := by
    intro c n
    induction n with
    | zero => intro _; rfl
    | succ n ih =>
      intro hn
      have hn' : n < preds.length := by omega
      have h1 : vget preds n = .ok preds[n] := by simp [hn']
      have h2 : vget alpha n = .ok (alpha.getD n 0) := by
        have : n < alpha.length := by omega
        simp [this]
      rw [boostScore, ih (by omega), Res_bind_ok, h1, Res_bind_ok, Finset.sum_range_succ,
        List.getElem?_eq_getElem hn']
      by_cases hc : preds[n] = c
      · rw [if_pos hc, h2, Res_bind_ok, if_pos (by rw [hc])]; rfl
      · rw [if_neg hc, if_neg (fun h => hc (Option.some.inj h)), add_zero]; rfl
  have hmap : classes.mapM (fun c => boostScore alpha preds c preds.length) =
      .ok (classes.map (support alpha preds)) := by
    apply Feat.mapM_ok
    intro c _
    rw [key c _ le_rfl]
    unfold support
    rw [Finset.sum_filter]
  have hm := maxElement_spec (classes.map (support alpha preds)) (by simpa using hne)
  rw [List.length_map] at hm
  obtain ⟨c, h4, h5⟩ := firstBest_of_firstMax (score := support alpha preds) hm (by
    intro k hk; simp [hk])
  refine ⟨c, ?_, h5⟩
  unfold evaluateBoost
  rw [hmap, Res_bind_ok, h4]

end

/-- C77 refuted: evaluating in hard mode discards the weights set before, so that soft voting afterwards
gives another answer than it would have given. -/
theorem C77_hard_refuted :
    ∃ (v v' : Voter ℚ) (classes preds : List Int) (c : Int),
      setWeights { soft := false } 3 [5, 1, 1] = .ok v ∧
      evaluateVoting v classes preds = .ok (v', c) ∧ v'.weights ≠ v.weights ∧
      evaluateVoting { v with soft := true } classes preds = .ok ({ v with soft := true }, 1) ∧
      evaluateVoting { v' with soft := true } classes preds = .ok ({ v' with soft := true }, 2) :=
  ⟨{ weights := [5, 1, 1] }, { weights := [1, 1, 1] }, [1, 2], [1, 2, 2], 2, by decide +kernel, by decide +kernel,
    by decide +kernel, by decide +kernel, by decide +kernel⟩

example : evaluateBagging 5 [4, 6, 9] [9, 4, 9, 6, 6] = .ok 6 := by decide +kernel

example : evaluateBoost 3 [(1 : ℚ), 1, 3] [4, 6] [4, 4, 6] = .ok 6 := by decide +kernel

end MLTK.Props
