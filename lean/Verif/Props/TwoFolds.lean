import Verif.Props.Split
/-!
# C11: two folds, for every dataset

`C11_two_folds_refuted` is one dataset; here the same failure is shown for all of them.
-/
namespace MLTK.Props
open MLTK MLTK.Data MLTK.Spec

variable {T : Type}

private structure TwinPair (m0 m : Mem T) (folds : List Data) (i : Nat) (pr : TrainTest) : Prop where
  trainC : Consistent m pr.train
  testC : Consistent m pr.test
  train : (samples m pr.train).Perm (samples m0 (foldAt folds i))
  test : (samples m pr.test).Perm (samples m0 (foldAt folds i))

private theorem TwinPair.alloc {m0 m : Mem T} {folds : List Data} {i : Nat} {pr : TrainTest} (h : TwinPair m0 m folds i pr) (e : List (Pt T)) :
    TwinPair m0 (m ++ e) folds i pr := by
  have h1 : samples (m ++ e) pr.train = samples m pr.train := by
    rw [samples_eq_pts, h.trainC.livePts.pts_append_mem]; rfl
  have h2 : samples (m ++ e) pr.test = samples m pr.test := by
    rw [samples_eq_pts, h.testC.livePts.pts_append_mem]; rfl
  exact ⟨consistent_alloc h.trainC e, consistent_alloc h.testC e, by rw [h1]; exact h.train, by rw [h2]; exact h.test⟩

private theorem twin_step {D : Nat} (folds : List Data) (hk : folds.length = 2) (name : String)
    {σ1 σ2 : List Nat → List Nat} (h1 : ∀ l, (σ1 l).Perm l) (h2 : ∀ l, (σ2 l).Perm l)
    (m : Mem T) (i : Nat) (hi : i < folds.length) (hf : ∀ f ∈ folds, FoldOK m D f) :
    ∃ e pr, kfoldStep folds name σ1 σ2 m i = .ok (m ++ e, pr) ∧ TwinPair m (m ++ e) folds i pr := by
  have h0 : 0 < folds.length := by omega
  obtain ⟨t1, e1, a1, a2, a3⟩ := join_fold (foldOK_empty m D) rfl (hf _ (foldAt_mem h0 i))
  obtain ⟨M, hM⟩ : ∃ M, M = m ++ samples m (foldAt folds i) := ⟨_, rfl⟩
  rw [← hM] at e1 a1 a3
  have hft : FoldOK M D (foldAt folds i) := by
    rw [hM]; exact (hf _ (foldAt_mem h0 _)).alloc _
  obtain ⟨c, e3, c1, c2, c3, c4, _, _⟩ := copy_fold hft
  have hts : samples M (foldAt folds i) = samples m (foldAt folds i) := by
    rw [hM]; exact (hf _ (foldAt_mem h0 _)).samples_append _
  obtain ⟨M2, hM2⟩ : ∃ M2, M2 = M ++ samples M (foldAt folds i) := ⟨_, rfl⟩
  rw [← hM2] at e3 c1 c2 c3
  have b1' : FoldOK M2 D t1 := by rw [hM2]; exact a1.alloc _
  obtain ⟨t3, e4, d1, d2, _, _⟩ := shuffle_fold b1' h1
  obtain ⟨c', e5, f1, f2, _, _⟩ := shuffle_fold c1 h2
  obtain ⟨t4, ht4⟩ : ∃ t4, t4 = resetIndex { t3 with name := name ++ "_train_fold_" ++ toString (i + 1) } :=
    ⟨_, rfl⟩
  obtain ⟨c4', hc4⟩ : ∃ c4, c4 = resetIndex { c' with name := name ++ "_test_fold_" ++ toString (i + 1) } :=
    ⟨_, rfl⟩
  have d1' : FoldOK M2 D t4 := by
    rw [ht4]
    exact ⟨⟨d1.counted.live, d1.counted.msize, d1.counted.cls, d1.counted.counts⟩, d1.dims, d1.cdist,
      by simp [resetIndex]⟩
  have f1' : FoldOK M2 D c4' := by
    rw [hc4]
    exact ⟨⟨f1.counted.live, f1.counted.msize, f1.counted.cls, f1.counted.counts⟩, f1.dims, f1.cdist,
      by simp [resetIndex]⟩
  have d2' : samples M2 t4 = samples M2 t3 := by rw [ht4]; rfl
  have f2' : samples M2 c4' = samples M2 c' := by rw [hc4]; rfl
  obtain ⟨tr, e6, g1, g2, g3, _, _, g4⟩ := copy_fold d1'
  obtain ⟨te, e7, k1, k2, k3, _, _, k4⟩ := copy_fold (f1'.alloc (samples M2 t4))
  have hend : m ++ (samples m (foldAt folds i) ++ samples M (foldAt folds i) ++ samples M2 t4 ++ samples (M2 ++ samples M2 t4) c4')
      = M2 ++ samples M2 t4 ++ samples (M2 ++ samples M2 t4) c4' := by
    have hassoc : ∀ a b c u v : List (Pt T), a ++ (b ++ c ++ u ++ v) = a ++ b ++ c ++ u ++ v := by
      intro a b c u v; simp only [List.append_assoc]
    have hm : m ++ samples m (foldAt folds i) ++ samples M (foldAt folds i) = M2 := by rw [← hM, ← hM2]
    exact (hassoc _ _ _ _ _).trans (congrArg (· ++ samples M2 t4 ++ samples (M2 ++ samples M2 t4) c4') hm)
  refine ⟨samples m (foldAt folds i) ++ samples M (foldAt folds i) ++ samples M2 t4 ++ samples (M2 ++ samples M2 t4) c4',
    { train := tr, test := te, fold := i + 1 }, ?_, ?_⟩
  · rw [hend]
    have hnext : (i + 2) % folds.length % folds.length = i := by
      rw [Nat.mod_mod, hk]; omega
    unfold kfoldStep
    simp only [vget_foldAt hi, Res_bind_ok, e1]
    rw [show folds.length - 2 = 0 by omega]
    simp only [joinLoop, Res_bind_ok]
    rw [hnext, vget_foldAt hi]
    simp only [Res_bind_ok, e3, e4, e5]
    rw [← ht4, ← hc4]
    simp only [e6, Res_bind_ok, e7, Res_pure]
  · rw [hend]
    refine ⟨consistent_alloc g2 _, k2, ?_, ?_⟩
    · show (samples _ tr).Perm _
      rw [g1.samples_append, g3, d2']
      refine d2.trans ?_
      rw [hM2, a1.samples_append, a3]
      exact List.Perm.of_eq (List.nil_append _)
    · show (samples _ te).Perm _
      rw [k3, f1'.samples_append, f2']
      refine f2.trans ?_
      rw [c3, hts]

private theorem twin_loop {D : Nat} (folds : List Data) (hk : folds.length = 2) (name : String)
    {σ1 σ2 : Nat → List Nat → List Nat} (h1 : ∀ i l, (σ1 i l).Perm l) (h2 : ∀ i l, (σ2 i l).Perm l) :
    ∀ (is : List Nat) (m : Mem T), (∀ i ∈ is, i < folds.length) → (∀ f ∈ folds, FoldOK m D f) →
    ∃ e prs, kfoldLoop folds name σ1 σ2 m is = .ok (m ++ e, prs) ∧
      List.Forall₂ (fun i pr => TwinPair m (m ++ e) folds i pr) is prs := by
  intro is
  induction is with
  | nil => intro m _ _; exact ⟨[], [], by simp [kfoldLoop], List.Forall₂.nil⟩
  | cons i is ih =>
    intro m hi hf
    obtain ⟨e, pr, e1, hp⟩ := twin_step folds hk name (h1 i) (h2 i) m i (hi i (by simp)) hf
    obtain ⟨e', prs, e2, hps⟩ := ih (m ++ e) (fun j hj => hi j (by simp [hj])) (fun f hf' => (hf f hf').alloc e)
    refine ⟨e ++ e', pr :: prs, ?_, ?_⟩
    · simp only [kfoldLoop, e1, Res_bind_ok, e2, Res_pure, List.append_assoc]
    · rw [← List.append_assoc]
      refine List.Forall₂.cons (hp.alloc e') ?_
      refine hps.imp ?_
      intro j pr hpr
      have h0 : 0 < folds.length := by omega
      have hs : ∀ t, samples (m ++ e) (foldAt folds t) = samples m (foldAt folds t) :=
        fun t => (hf _ (foldAt_mem h0 t)).samples_append e
      refine ⟨hpr.trainC, hpr.testC, ?_, ?_⟩
      · have := hpr.train; rw [hs] at this; exact this
      · have := hpr.test; rw [hs] at this; exact this

/-- **C11 (refuted)** With two folds, for every dataset (stratified, or of even size), whatever the shuffles: both pairs come back, each sample is tested
once, and in each pair the training set has exactly the samples of the test set. -/
theorem C11_two_folds_every_refuted (m : Mem T) (d : Data) (h : Consistent m d) (hidx : d.size ≤ d.index.length) (stratified keep : Bool)
    (hs : stratified = true ∨ 2 ∣ d.size) (σ : List Nat → List Nat) (σtrain σtest : Nat → List Nat → List Nat) (hσ : ∀ l, (σ l).Perm l)
    (hσ1 : ∀ i l, (σtrain i l).Perm l) (hσ2 : ∀ i l, (σtest i l).Perm l) :
    ∃ m' prs, kfoldsplit m d 2 stratified keep σ σtrain σtest = .ok (m', prs) ∧ prs.length = 2 ∧
      (∀ pr ∈ prs, (samples m' pr.train).Perm (samples m' pr.test)) ∧
      ((prs.flatMap (fun pr => samples m' pr.test)).map content).Perm ((samples m d).map content) := by
  obtain ⟨s, e1, hp, h1, h2, h3, h4, h5, h6, h7, _⟩ := copy_ok h
  have hss := copy_samples h hp
  have hsc := copy_consistent h hp h2 h3 h4 h5 h7
  have hsz : s.size = d.size := by rw [size, hp]; simp
  obtain ⟨m2, parts, e2, hr, hpp, _⟩ :=
    splitSample_full hsc (by rw [hsz, h6]; exact hidx) (k := 2) (by omega) stratified keep (by rw [hsz]; exact hs) hσ
  obtain ⟨u1, u2, u3⟩ := hr.union hsc hpp
  rw [hss] at u1 u2
  have hlen := hr.length
  obtain ⟨e, prs, e3, hF⟩ := twin_loop (D := s.mdim) parts hlen d.name hσ1 hσ2 (List.range 2) m2
    (fun i hi => by rw [hlen]; exact List.mem_range.1 hi) (fun f hf => (hr.ok f hf).fold)
  refine ⟨m2 ++ e, prs, ?_, ?_, ?_, ?_⟩
  · unfold kfoldsplit
    simp only [e1, Res_bind_ok, e2]
    rw [if_neg (by omega)]
    exact e3
  · rw [← hF.length_eq]; simp
  · intro pr hpr
    obtain ⟨i, _, hi⟩ := forall₂_mem_right hF hpr
    exact hi.train.trans hi.test.symm
  · have htests : (prs.flatMap (fun pr => samples (m2 ++ e) pr.test)).Perm (parts.flatMap (samples m2)) := by
      refine (forall₂_flatMap_perm (f := fun pr : TrainTest => samples (m2 ++ e) pr.test) (g := fun i => samples m2 (foldAt parts i))
        (fun a b hab => hab.test) hF).trans ?_
      have := flatMap_rotate parts (samples m2) 0
      rw [hlen, List.rotate_zero] at this
      simp only [Nat.zero_add] at this
      exact List.Perm.of_eq this
    exact (htests.map content).trans u1

example : ∃ m' prs, kfoldsplit demoMem demoData 2 true true List.reverse (fun _ => List.reverse) (fun _ => id) = .ok (m', prs) ∧
    prs.length = 2 ∧ ∀ pr ∈ prs, (samples m' pr.train).Perm (samples m' pr.test) := by
  obtain ⟨m', prs, e, h1, h2, _⟩ := C11_two_folds_every_refuted demoMem demoData demo_consistent (by decide) true true (Or.inl rfl)
    List.reverse (fun _ => List.reverse) (fun _ => id) List.reverse_perm (fun _ => List.reverse_perm) (fun _ _ => List.Perm.refl _)
  exact ⟨m', prs, e, h1, h2⟩

end MLTK.Props
