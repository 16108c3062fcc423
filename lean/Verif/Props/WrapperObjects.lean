import Verif.Props.Voting
import Verif.Spec.MultiClass
/-!
# C44, C45 for the wrapper objects: build, train, ask
-/
namespace MLTK.Props
open MLTK.Spec MLTK.Multi
open MLTK.Data (Res_bind_ok Res_bind_error Res_pure)
variable {X M K : Type}

/-! ### One against one -/

/-- The matrix with the entries `f i j`. -/
private def mat (n : Nat) (f : Nat → Nat → Option M) : List (List (Option M)) :=
  (List.range n).map (fun i => (List.range n).map (f i))

private theorem map_range_getD {α β : Type} (l : List α) (x : α) (g : α → β) :
    l.map g = (List.range l.length).map (fun i => g (l.getD i x)) := by
  apply List.ext_getElem (by simp)
  intro i h1 h2
  have h : i < l.length := by simpa using h1
  simp [h]

private theorem set_map_range {β : Type} (n i : Nat) (g : Nat → β) (b : β) :
    ((List.range n).map g).set i b = (List.range n).map (fun k => if k = i then b else g k) := by
  apply List.ext_getElem (by simp)
  intro k h1 h2
  have h : k < n := by simpa using h2
  rw [List.getElem_set]
  by_cases hk : i = k
  · subst hk; simp
  · simp [hk, Ne.symm hk]

private theorem getD_get {l : List Int} {i : Nat} (h : i < l.length) : l[i]? = some (l.getD i 0) := by simp [h]

private theorem pairData_eq (d : DS X) (ci cj : Int) : pairData d ci cj = duelData d ci cj := by
  unfold pairData duelData
  congr 1
  induction d.samples with
  | nil => rfl
  | cons s l ih =>
    rw [List.filterMap_cons, List.filter_cons]
    by_cases h1 : s.2 = ci
    · rw [if_pos (by simp [h1]), List.map_cons, ih, if_pos h1, if_pos h1]
    · by_cases h2 : s.2 = cj
      · rw [if_pos (by simp [h2]), List.map_cons, ih, if_neg h1, if_neg h1, if_pos h2]
      · rw [if_neg (by simp [h1, h2]), if_neg h1, if_neg h2, ih]

private theorem applyOver_eq (over : Option (DS X → DS X)) (t : DS X) : applyOver over t = over.getD id t := by
  cases over <;> rfl

private theorem trainPair_mat (B : Base X M K) (fit : M → DS X → M) (hfit : ∀ m t, B.fit m t = .ok (fit m t)) (o : OvO X M)
    (d : DS X) (f : Nat → Nat → Option M) (i j : Nat) (hi : i < d.classes.length) (hj : j < d.classes.length) (base : M)
    (hf : d.classes.getD i 0 ≠ d.classes.getD j 0 → f i j = some base) :
    OvO.trainPair B o d (mat d.classes.length f) (i, j) = .ok (mat d.classes.length (fun a b =>
      if a = i ∧ b = j ∧ d.classes.getD i 0 ≠ d.classes.getD j 0 then
        some (fit base (o.over.getD id (duelData d (d.classes.getD i 0) (d.classes.getD j 0)))) else f a b)) := by
  unfold OvO.trainPair
  rw [vget_eq_ok.mpr (getD_get hi), Res_bind_ok, vget_eq_ok.mpr (getD_get hj), Res_bind_ok]
  by_cases hc : d.classes.getD i 0 ≠ d.classes.getD j 0
  · rw [if_pos hc]
    have h1 : vget (mat d.classes.length f) i = .ok ((List.range d.classes.length).map (f i)) := by
      rw [vget_eq_ok]; simp [mat, hi]
    have h2 : vget ((List.range d.classes.length).map (f i)) j = .ok (f i j) := by
      rw [vget_eq_ok]; simp [hj]
    simp only [h1, Res_bind_ok, h2, hf hc, hfit, applyOver_eq, pairData_eq]
    unfold vset
    rw [if_pos (by simpa using hj), Res_bind_ok, if_pos (by simpa [mat] using hi)]
    congr 1
    unfold mat
    rw [set_map_range]
    apply List.map_congr_left
    intro a _
    by_cases ha : a = i
    · rw [if_pos ha, set_map_range]
      subst ha
      apply List.map_congr_left
      intro b _
      dsimp only
      by_cases hb : b = j
      · rw [if_pos hb, if_pos ⟨rfl, hb, hc⟩]
      · rw [if_neg hb, if_neg (fun h => hb h.2.1)]
    · rw [if_neg ha]
      apply List.map_congr_left
      intro b _
      dsimp only
      rw [if_neg (fun h => ha h.1)]
  · rw [if_neg hc]
    congr 2
    funext a b
    rw [if_neg (fun h => hc h.2.2)]

private theorem train_mat (B : Base X M K) (fit : M → DS X → M) (hfit : ∀ m t, B.fit m t = .ok (fit m t)) (o : OvO X M)
    (d : DS X) (base : M) : ∀ (ps : List (Nat × Nat)) (f : Nat → Nat → Option M), ps.Nodup →
      (∀ p ∈ ps, p.1 < d.classes.length ∧ p.2 < d.classes.length) →
      (∀ p ∈ ps, d.classes.getD p.1 0 ≠ d.classes.getD p.2 0 → f p.1 p.2 = some base) →
      ps.foldlM (OvO.trainPair B o d) (mat d.classes.length f) = .ok (mat d.classes.length (fun a b =>
        if (a, b) ∈ ps ∧ d.classes.getD a 0 ≠ d.classes.getD b 0 then
          some (fit base (o.over.getD id (duelData d (d.classes.getD a 0) (d.classes.getD b 0)))) else f a b)) := by
  intro ps
  induction ps with
  | nil => intro f _ _ _; simp
  | cons p ps ih =>
    obtain ⟨i, j⟩ := p
    intro f hn hr hf
    rw [List.nodup_cons] at hn
    obtain ⟨h1, h2⟩ := hr (i, j) (by simp)
    rw [List.foldlM_cons, trainPair_mat B fit hfit o d f i j h1 h2 base (hf (i, j) (by simp)), Res_bind_ok,
      ih _ hn.2 (fun p hp => hr p (by simp [hp]))]
    · congr 2
      funext a b
      by_cases hc : d.classes.getD a 0 ≠ d.classes.getD b 0
      · by_cases hab : (a, b) ∈ ps
        · rw [if_pos ⟨hab, hc⟩, if_pos ⟨by simp [hab], hc⟩]
        · rw [if_neg (fun h => hab h.1)]
          by_cases he : a = i ∧ b = j
          · obtain ⟨rfl, rfl⟩ := he
            rw [if_pos ⟨rfl, rfl, hc⟩, if_pos ⟨by simp, hc⟩]
          · rw [if_neg (fun h => he ⟨h.1, h.2.1⟩), if_neg]
            rintro ⟨h, -⟩
            rcases List.mem_cons.1 h with h | h
            · exact he (by simpa using h)
            · exact hab h
      · rw [if_neg (fun h => hc h.2), if_neg (fun h => hc (by rw [h.1, h.2.1]; exact h.2.2)), if_neg (fun h => hc h.2)]
    · intro p hp hc
      rw [if_neg]
      · exact hf p (by simp [hp]) hc
      · rintro ⟨h3, h4, -⟩
        exact hn.1 (by rw [← h3, ← h4]; exact hp)

private theorem pairsOf_nodup (n m : Nat) : (pairsOf n m).Nodup := by
  unfold pairsOf
  rw [List.nodup_flatMap]
  refine ⟨fun i _ => List.Nodup.map (fun a b h => by simpa using h) List.nodup_range, ?_⟩
  refine List.Pairwise.imp_of_mem (R := (· ≠ ·)) ?_ List.nodup_range
  intro a b _ _ hab p h1 h2
  simp only [List.mem_map] at h1 h2
  obtain ⟨x, _, rfl⟩ := h1
  obtain ⟨y, _, h⟩ := h2
  exact hab (by have := congrArg Prod.fst h; exact this.symm)

private theorem zipIdx_map_range {α : Type} (n : Nat) (g : Nat → α) :
    ((List.range n).map g).zipIdx = (List.range n).map (fun i => (g i, i)) := by
  apply List.ext_getElem (by simp)
  intro i h1 h2
  simp

private theorem foldlM_congr' {α β : Type} {f g : β → α → Res β} : ∀ (l : List α) (s : β),
    (∀ a ∈ l, ∀ s, f s a = g s a) → l.foldlM f s = l.foldlM g s := by
  intro l
  induction l with
  | nil => intro s _; rfl
  | cons a l ih =>
    intro s h
    rw [List.foldlM_cons, List.foldlM_cons, h a (by simp)]
    congr 1
    funext t
    exact ih t (fun b hb => h b (by simp [hb]))

private theorem foldlM_flatMap' {α β γ : Type} (f : β → γ → Res β) (g : α → List γ) : ∀ (l : List α) (s : β),
    (l.flatMap g).foldlM f s = l.foldlM (fun s a => (g a).foldlM f s) s := by
  intro l
  induction l with
  | nil => intro s; rfl
  | cons a l ih =>
    intro s
    rw [List.flatMap_cons, List.foldlM_append, List.foldlM_cons]
    congr 1
    funext t
    exact ih t

/-- C44 (the object).  Build a one-vs-one classifier, train it and ask it: the answer is the first class with the most duels won,
where the duel of class `i` against class `j` is decided by a copy of the base classifier trained on exactly the samples of the two
classes, labelled 1 and -1 (and over-sampled if a method was given).  The base classifier may be anything that trains and answers
without a fault. -/
theorem C44_object [Field K] [LinearOrder K] (B : Base X M K) (fit : M → DS X → M) (hfit : ∀ m t, B.fit m t = .ok (fit m t))
    (ans : M → X → Bool → K) (hans : ∀ m x r, B.ans m x r = .ok (ans m x r)) (base : M) (over : Option (DS X → DS X))
    (d : DS X) (hn : d.classes.Nodup) (hne : d.classes ≠ []) (x : X) :
    ∃ i c, builtOvO B base over d x = .ok c ∧ d.classes[i]? = some c ∧
      FirstMax d.classes.length (duelsWon d.classes.length (fun i j =>
        ans (fit base (over.getD id (duelData d (d.classes.getD i 0) (d.classes.getD j 0)))) x false)) i := by
  set n := d.classes.length with hnl
  set a : Nat → Nat → K := fun i j =>
        ans (fit base (over.getD id (duelData d (d.classes.getD i 0) (d.classes.getD j 0)))) x false with ha
  obtain ⟨i, c, h1, h2, h3, -⟩ := C44_most_duels d.classes hn hne a
  refine ⟨i, c, ?_, h2, h3⟩
  have hnew : (newOvO d base over).learners = mat n (fun i j =>
      if d.classes.getD i 0 ≠ d.classes.getD j 0 then some base else none) := by
    unfold newOvO mat
    simp only
    rw [map_range_getD d.classes 0]
    apply List.map_congr_left
    intro i _
    rw [map_range_getD d.classes 0]
  have htr := train_mat B fit hfit (newOvO d base over) d base (pairsOf n n) (fun i j =>
      if d.classes.getD i 0 ≠ d.classes.getD j 0 then some base else none) (pairsOf_nodup n n)
      (fun p hp => by obtain ⟨i, j⟩ := p; simpa [pairsOf] using hp) (fun p _ hc => if_pos hc)
  rw [← hnl, ← hnew] at htr
  unfold builtOvO OvO.train
  rw [show (newOvO d base over).data = some d from rfl]
  simp only
  rw [← hnl, htr]
  simp only [Res_bind_ok, Res_pure]
  unfold OvO.evaluate
  simp only
  rw [← h1]
  unfold Vote.evaluateOvO
  congr 1
  unfold Vote.votesOvO mat
  rw [← hnl, zipIdx_map_range, List.foldlM_map, foldlM_flatMap']
  apply foldlM_congr'
  intro i hi s
  rw [zipIdx_map_range, List.foldlM_map, List.foldlM_map]
  apply foldlM_congr'
  intro j hj s
  have hi := List.mem_range.1 hi
  have hj := List.mem_range.1 hj
  unfold OvO.vote Vote.duel
  simp only
  rw [vget_eq_ok.mpr (getD_get hi), Res_bind_ok, vget_eq_ok.mpr (getD_get hj), Res_bind_ok]
  by_cases hc : d.classes.getD i 0 ≠ d.classes.getD j 0
  · have hmem : (i, j) ∈ pairsOf n n := by simp [pairsOf, hi, hj]
    rw [if_pos hc, if_pos ⟨hmem, hc⟩]
    simp only [hans, Res_bind_ok]
    rw [if_pos hc]
    rfl
  · rw [if_neg hc]
    simp only [Res_bind_ok]
    rw [if_neg hc]

/-- Non-vacuous: three classes, a base that remembers its training data and answers by the side with more samples. -/
example : let B : Base Nat (DS Nat) ℚ := ⟨fun _ t => .ok t, fun m _ _ => .ok (if 1 < (m.samples.filter (·.2 = 1)).length then 1 else -1), fun _ => ""⟩
    let d : DS Nat := ⟨[5, 7, 9], [(0, 5), (1, 7), (2, 9), (3, 7)]⟩
    builtOvO B d none d 0 = .ok 7 := by decide +kernel

/-! ### One against all -/

private theorem allData_eq (d : DS X) (i : Nat) (h : i < d.classes.length) :
    allData d i = .ok (againstData d (d.classes.getD i 0)) := by
  unfold allData
  rw [vget_eq_ok.mpr (getD_get h)]
  have : d.samples.mapM (fun s => (do
      let c ← (Except.ok (d.classes.getD i 0) : Res Int)
      return (s.1, if s.2 = c then 1 else -1) : Res (X × Int))) =
      .ok (d.samples.map (fun s => (s.1, if s.2 = d.classes.getD i 0 then 1 else -1))) :=
    Feat.mapM_ok _ _ _ (fun _ _ => rfl)
  rw [this]
  unfold againstData
  rw [Res_bind_ok, Res_pure]
  congr 2
  apply List.map_congr_left
  intro s _
  split <;> rfl

/-- C45 (the object).  Build a one-vs-all classifier, train it and ask it: the answer is the first class whose copy of the base
classifier, trained on all samples with those of the class labelled 1 and the others -1 (over-sampled if a method was given),
gives the greatest raw value. -/
theorem C45_object [Field K] [LinearOrder K] (B : Base X M K) (fit : M → DS X → M) (hfit : ∀ m t, B.fit m t = .ok (fit m t))
    (ans : M → X → Bool → K) (hans : ∀ m x r, B.ans m x r = .ok (ans m x r)) (base : M) (over : Option (DS X → DS X))
    (d : DS X) (hne : d.classes ≠ []) (x : X) :
    ∃ i c, builtOvA B base over d x = .ok c ∧ d.classes[i]? = some c ∧
      FirstMax d.classes.length (fun i =>
        ans (fit base (over.getD id (againstData d (d.classes.getD i 0)))) x true) i := by
  set n := d.classes.length with hnl
  set val : Nat → K := fun i => ans (fit base (over.getD id (againstData d (d.classes.getD i 0)))) x true with hv
  obtain ⟨i, c, h1, h2, h3⟩ := C45_argmax d.classes hne ((List.range n).map val) (by simp [hnl])
  have hnew : (newOvA d base over).learners.zipIdx = (List.range n).map (fun i => (base, i)) := by
    unfold newOvA
    simp only
    rw [map_range_getD d.classes 0, zipIdx_map_range]
  have htr : ((List.range n).map (fun i => (base, i))).mapM (fun (l : M × Nat) => do
      let t ← allData d l.2
      B.fit l.1 (applyOver over t)) =
      .ok ((List.range n).map (fun i => fit base (over.getD id (againstData d (d.classes.getD i 0))))) := by
    rw [Feat.mapM_ok _ (fun l => fit l.1 (over.getD id (againstData d (d.classes.getD l.2 0)))), List.map_map]
    · rfl
    · intro l hl
      obtain ⟨k, hk, rfl⟩ := List.mem_map.1 hl
      simp only [allData_eq d k (List.mem_range.1 hk), Res_bind_ok, hfit, applyOver_eq]
  refine ⟨i, c, ?_, h2, ?_⟩
  · unfold builtOvA OvA.train
    rw [show (newOvA d base over).data = some d from rfl]
    simp only
    rw [hnew, show (newOvA d base over).over = over from rfl, htr]
    simp only [Res_bind_ok, Res_pure]
    unfold OvA.evaluate
    simp only
    rw [Feat.mapM_ok _ (fun m => ans m x true) _ (fun m _ => hans m x true), Res_bind_ok, List.map_map, ← h1]
    rfl
  · have hi : i < n := h3.1
    refine ⟨hi, fun j hj => ?_, fun j hj => ?_⟩
    · have := h3.2.1 j hj
      simpa [hi, hj, ← hnl] using this
    · have := h3.2.2 j hj
      simpa [hi, lt_trans hj hi, ← hnl] using this

/-- Non-vacuous: the raw value is the number of samples labelled 1. -/
example : let B : Base Nat (DS Nat) ℚ := ⟨fun _ t => .ok t, fun m _ r => .ok (if r then (m.samples.filter (·.2 = 1)).length else 0), fun _ => ""⟩
    let d : DS Nat := ⟨[5, 7, 9], [(0, 5), (1, 7), (2, 9), (3, 7)]⟩
    builtOvA B d none d 0 = .ok 7 := by decide +kernel

end MLTK.Props
