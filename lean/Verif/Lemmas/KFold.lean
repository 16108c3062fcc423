import Verif.Lemmas.SplitClass
namespace MLTK.Data
open MLTK.Spec
variable {T : Type}

/-! ## What a split gives -/

theorem keyOf_of_get {m : Mem T} {r : Nat} {p : Pt T} (h : m[r]? = some p) :
    keyOf m r = labelKey p.y := by simp [keyOf, h]

theorem count_labels_pts (m : Mem T) (c : Int) (rs : List Nat) (h : Live m rs) :
    ((pts m rs).map Pt.y).count c = (rs.filter (fun r => keyOf m r = labelKey c)).length := by
  induction rs with
  | nil => rfl
  | cons r rs ih =>
    obtain ⟨⟨p, hp⟩, h2⟩ := h.cons
    rw [pts_cons hp, List.map_cons, List.count_cons, ih h2, List.filter_cons, keyOf_of_get hp]
    by_cases hc : p.y = c
    · rw [if_pos (by simp [hc]), if_pos (by simp [hc])]; simp
    · rw [if_neg (by simpa using hc), if_neg]
      · simp
      · simpa using fun e => hc (labelKey_inj e)

theorem content_y (l : List (Pt T)) : l.map Pt.y = (l.map content).map (fun c => c.2.1) := by
  simp [content, Function.comp_def]

/-- The union of the parts of a split, when their points are those of `order` up to permutation. -/
theorem SplitRes.union {m m' : Mem T} {d : Data} {keep : Bool} {k : Nat} {parts : List Data}
    (h : SplitRes m m' d keep k parts) (hd : Consistent m d)
    (hp : (parts.flatMap Data.points).Perm (List.range' m.length d.size)) :
    ((parts.flatMap (samples m')).map content).Perm ((samples m d).map content) ∧
    (keep = true → (parts.flatMap (samples m')).Perm (samples m d)) ∧
    (parts.flatMap Data.points).Nodup := by
  have hl : (samples m d).length = d.size := hd.livePts.length
  have hperm : ∀ M : Mem T, (parts.flatMap (samples M)).Perm (pts M (List.range' m.length d.size)) := by
    intro M
    rw [flatMap_samples, ← List.flatMap_def]
    exact hp.filterMap _
  have hfresh : pts (m ++ samples m d) (List.range' m.length d.size) = samples m d := by
    rw [← hl]; exact pts_fresh _ _
  refine ⟨?_, ?_, ?_⟩
  · refine ((hperm m').map content).trans ?_
    rw [← SameUpToIds_pts h.same, hfresh]
  · intro hk
    have := hperm m'
    rw [h.keeps hk] at this ⊢
    rw [hfresh] at this
    exact this
  · rw [hp.nodup_iff]; exact List.nodup_range'

theorem SplitRes.source {m m' : Mem T} {d : Data} {keep : Bool} {k : Nat} {parts : List Data}
    (h : SplitRes m m' d keep k parts) {ps : List Nat} (hl : Live m ps) : pts m' ps = pts m ps :=
  pts_frame (fun _ hx => hl.lt hx) h.frame

theorem strat_flat {parts : List Data} {k : Nat} (hk : 0 < k) {order : List Nat}
    (hp : parts.map Data.points = (List.range k).map (fun j => deal k j 0 order)) :
    (parts.flatMap Data.points).Perm order := by
  rw [List.flatMap_def, hp, ← List.flatMap_def]
  exact deal_partition k hk order 0

theorem plain_flat {parts : List Data} {k q : Nat} {order : List Nat} (hq : k * q ≤ order.length)
    (hp : parts.map Data.points = (List.range k).map (fun j => (order.drop (j * q)).take q)) :
    parts.flatMap Data.points = order.take (k * q) := by
  rw [List.flatMap_def, hp, chunks_flatten q k order hq]

theorem getElem_of_map_points {parts : List Data} {k : Nat} {f : Nat → List Nat}
    (hp : parts.map Data.points = (List.range k).map f) {p : Data} (hm : p ∈ parts) :
    ∃ j, j < k ∧ p.points = f j := by
  have : p.points ∈ parts.map Data.points := List.mem_map.2 ⟨p, hm, rfl⟩
  rw [hp] at this
  obtain ⟨j, hj, e⟩ := List.mem_map.1 this
  exact ⟨j, List.mem_range.1 hj, e.symm⟩

theorem last_points {parts : List Data} {k : Nat} (hk : 0 < k) {f : Nat → List Nat}
    (hp : parts.map Data.points = (List.range k).map f) :
    ∃ p, parts[k - 1]? = some p ∧ p.points = f (k - 1) := by
  have h1 : (parts.map Data.points)[k - 1]? = some (f (k - 1)) := by
    rw [hp]; simp [List.getElem?_range (show k - 1 < k by omega)]
  rw [List.getElem?_map] at h1
  cases h : parts[k - 1]? with
  | none => rw [h] at h1; simp at h1
  | some p => rw [h] at h1; simp at h1; exact ⟨p, rfl, h1⟩

theorem deal_last_length {α : Type} (k : Nat) (hk : 0 < k) (l : List α) :
    (deal k (k - 1) 0 l).length = l.length / k := by
  have h := deal_length k (k - 1) (by omega) l 0
  rw [Nat.count_modEq_card _ hk, Nat.count_modEq_card _ hk, Nat.mod_eq_of_lt (by omega : k - 1 < k)] at h
  have h2 : ¬ (k - 1 < (0 + l.length) % k) := by
    have := Nat.mod_lt (0 + l.length) hk; omega
  rw [if_neg h2] at h
  simp at h
  exact h

/-! ## Datasets whose dimension field may be stale -/

/-- Enough for joining and copying: live, counted, of common dimension `D`, distribution flag clear. -/
structure FoldOK (m : Mem T) (D : Nat) (d : Data) : Prop where
  counted : Counted m d
  dims : ∀ p ∈ samples m d, p.x.length = D
  cdist : d.cdistComputed = false
  index : d.index.length = d.points.length

theorem PartOK.fold {m : Mem T} {D : Nat} {d : Data} (h : PartOK m D d) : FoldOK m D d := by
  refine ⟨h.cons.counted, ?_, h.cdist, h.index⟩
  intro p hp
  have hne : d.points ≠ [] := by
    intro he; rw [samples_eq_pts, he] at hp; simp [pts] at hp
  rw [h.cons.dims p hp, h.dim hne]

theorem FoldOK.samples_append {m : Mem T} {D : Nat} {d : Data} (h : FoldOK m D d) (e : List (Pt T)) :
    samples (m ++ e) d = samples m d := by
  have : Live m d.points := h.counted.live
  rw [samples_eq_pts, this.pts_append_mem]; rfl

theorem FoldOK.alloc {m : Mem T} {D : Nat} {d : Data} (h : FoldOK m D d) (e : List (Pt T)) :
    FoldOK (m ++ e) D d := by
  have hl : Live m d.points := h.counted.live
  have hs := h.samples_append e
  refine ⟨⟨hl.append e, h.counted.msize, h.counted.cls, ?_⟩, ?_, h.cdist, h.index⟩
  · unfold labels; rw [hs]; exact h.counted.counts
  · rw [hs]; exact h.dims

theorem FoldOK.dim_le {m : Mem T} {D : Nat} {d : Data} (h : FoldOK m D d) :
    ∃ n, dim m d = .ok n ∧ (d.points ≠ [] → n = D) ∧ (d.points = [] → n = 0) := by
  unfold dim
  cases hp : d.points with
  | nil => exact ⟨0, rfl, by simp, by simp⟩
  | cons r rs =>
    obtain ⟨p, hr⟩ := h.counted.live r (by rw [hp]; simp)
    refine ⟨p.x.length, by simp [deref_of_get hr], ?_, by simp⟩
    intro _
    apply h.dims
    rw [samples_eq_pts, hp, pts_cons hr]; simp

theorem foldOK_empty (m : Mem T) (D : Nat) : FoldOK m D empty := (partOK_empty m D).fold

theorem join_fold {m : Mem T} {D : Nat} {a b : Data} (ha : FoldOK m D a) (h0 : a.mdim = 0)
    (hb : FoldOK m D b) :
    ∃ a', join m a b = .ok (m ++ samples m b, a') ∧ FoldOK (m ++ samples m b) D a' ∧ a'.mdim = 0 ∧
      samples (m ++ samples m b) a' = samples m a ++ samples m b := by
  obtain ⟨n, hn, _⟩ := hb.dim_le
  obtain ⟨a', e, hp, hs, _, hmd, _, hcd, hix, _, _, _, hC⟩ :=
    join_ok ha.counted hb.counted hn (by omega) ha.cdist
  refine ⟨a', e, ⟨hC, ?_, hcd, ?_⟩, by rw [hmd, h0], hs⟩
  · rw [hs]
    intro p hp
    rcases List.mem_append.1 hp with h | h
    · exact ha.dims p h
    · exact hb.dims p h
  · rw [hix, hp]; simp [size]

theorem copy_fold {m : Mem T} {D : Nat} {d : Data} (h : FoldOK m D d) :
    ∃ d', copy m d = .ok (m ++ samples m d, d') ∧ FoldOK (m ++ samples m d) D d' ∧
      Consistent (m ++ samples m d) d' ∧
      samples (m ++ samples m d) d' = samples m d ∧ d'.name = d.name ∧ d'.index = d.index ∧
      d'.points = List.range' m.length d.points.length := by
  have hL : Live m d.points := h.counted.live
  have hl : (samples m d).length = d.points.length := hL.length
  obtain ⟨n, hn, hn1, hn2⟩ := h.dim_le
  obtain ⟨d', hd'⟩ : ∃ d' : Data, d' = { empty with
    points := List.range' m.length d.points.length, fnames := d.fnames, msize := d.size,
    classes := d.classes,
    classNames := d.classNames, dist := d.dist, mdim := n, type := d.type,
    index := d.index, isEmpty := d.isEmpty, normalized := d.normalized,
    timeMult := d.timeMult, cdistComputed := d.cdistComputed, name := d.name } := ⟨_, rfl⟩
  have hs : samples (m ++ samples m d) d' = samples m d := by
    rw [samples_eq_pts, hd']
    show pts _ (List.range' m.length d.points.length) = _
    rw [← hl]; exact pts_fresh m (samples m d)
  have hlive : Live (m ++ samples m d) d'.points := by
    rw [hd']
    show Live _ (List.range' m.length d.points.length)
    rw [← hl]; exact live_fresh m (samples m d)
  have hC : Counted (m ++ samples m d) d' := by
    refine ⟨hlive, by rw [hd']; simp [size], ?_, ?_⟩
    · have := h.counted.cls; rw [hd']; exact this
    · unfold labels; rw [hs, hd']; exact h.counted.counts
  refine ⟨d', ?_, ⟨hC, by rw [hs]; exact h.dims, ?_, ?_⟩, ⟨hlive, hC.msize, hC.cls, hC.counts, ?_, ?_⟩, hs,
    by rw [hd'], by rw [hd'], by rw [hd']⟩
  · simp only [copy, copyFrom, copyPoints_ok hL, Res_bind_ok, hn, Res_pure, List.nil_append, hd']
    rfl
  · rw [hd']; exact h.cdist
  · rw [hd']; simp [h.index]
  · rw [hs]
    intro p hp
    have hne : d.points ≠ [] := by
      intro he; rw [samples_eq_pts, he] at hp; simp [pts] at hp
    rw [hd', h.dims p hp]; exact (hn1 hne).symm
  · intro he
    have hz : d.points = [] := by
      have := congrArg List.length he
      rw [hd'] at this; simp at this; exact this
    rw [hd']; exact hn2 hz

theorem shuffle_fold {m : Mem T} {D : Nat} {d : Data} (h : FoldOK m D d) {σ : List Nat → List Nat}
    (hσ : ∀ l, (σ l).Perm l) :
    ∃ d', shuffle d σ = .ok d' ∧ FoldOK m D d' ∧ (samples m d').Perm (samples m d) ∧
      d'.points.Perm d.points ∧ d'.mdim = d.mdim ∧ d'.name = d.name := by
  have hms := h.counted.msize
  have e := shuffle_ok d σ (by rw [hms, h.index])
  obtain ⟨d', hd'⟩ : ∃ d' : Data, d' = { d with points := σ d.points, index := iota 0 d.msize ++ d.index.drop d.msize } :=
    ⟨_, rfl⟩
  rw [← hd'] at e
  have hpp : d'.points.Perm d.points := by rw [hd']; exact hσ _
  have hp : (samples m d').Perm (samples m d) := by
    rw [samples_eq_pts, samples_eq_pts]; exact hpp.filterMap _
  have hlp : (labels m d').Perm (labels m d) := hp.map _
  refine ⟨d', e, ⟨⟨?_, ?_, ?_, ⟨?_, ?_, ?_⟩⟩, ?_, ?_, ?_⟩, hp, hpp, by rw [hd'], by rw [hd']⟩
  · intro r hr; exact h.counted.live r (hpp.mem_iff.1 hr)
  · rw [hpp.length_eq, ← hms, hd']
  · have := h.counted.cls; rw [hd']; exact this
  · rw [hd']; exact h.counted.counts.nodup
  · intro y hy
    rw [hd']; exact h.counted.counts.covers y (hlp.mem_iff.1 hy)
  · have h1 : d'.classes = d.classes := by rw [hd']
    have h2 : d'.dist = d.dist := by rw [hd']
    rw [h1, h2, h.counted.counts.counts]
    apply List.map_congr_left
    intro c _; exact (hlp.count_eq c).symm
  · intro p hp'; exact h.dims p (hp.mem_iff.1 hp')
  · rw [hd']; exact h.cdist
  · have h1 : d'.index.length = d.points.length := by
      rw [hd']; simp [h.index, hms]
    rw [h1, hpp.length_eq]

/-! ## `kfoldsplit` -/

/-- The `j`-th fold, cyclically. -/
def foldAt (folds : List Data) (j : Nat) : Data := (folds[j % folds.length]?).getD empty

theorem vget_foldAt {folds : List Data} {j : Nat} (hj : j < folds.length) :
    vget folds j = .ok (foldAt folds j) := by
  rw [vget_eq_ok, foldAt, Nat.mod_eq_of_lt hj, List.getElem?_eq_getElem hj]; rfl

theorem foldAt_mem {folds : List Data} (h : 0 < folds.length) (j : Nat) : foldAt folds j ∈ folds := by
  rw [foldAt, List.getElem?_eq_getElem (Nat.mod_lt _ h)]
  exact List.getElem_mem _

theorem foldAt_mod (folds : List Data) (j : Nat) : foldAt folds (j % folds.length) = foldAt folds j := by
  simp [foldAt]

theorem joinLoop_ok {D : Nat} (folds : List Data) (h0 : 0 < folds.length) :
    ∀ (n : Nat) (m : Mem T) (train : Data) (j next : Nat), j < folds.length →
      (∀ f ∈ folds, FoldOK m D f) → FoldOK m D train → train.mdim = 0 →
      ∃ e train', joinLoop folds n m train j next
          = .ok (m ++ e, train', if n = 0 then next else (j + n) % folds.length) ∧
        FoldOK (m ++ e) D train' ∧ train'.mdim = 0 ∧
        samples (m ++ e) train'
          = samples m train ++ (List.range n).flatMap (fun t => samples m (foldAt folds (j + t))) := by
  intro n
  induction n with
  | zero =>
    intro m train j next _ _ ht hm
    exact ⟨[], train, by simp [joinLoop], by simpa using ht, hm, by simp⟩
  | succ n ih =>
    intro m train j next hj hf ht hm
    have hfj := hf _ (foldAt_mem h0 j)
    obtain ⟨a', e1, h1, h2, h3⟩ := join_fold ht hm hfj
    obtain ⟨e, train', e2, g1, g2, g3⟩ := ih (m ++ samples m (foldAt folds j)) a'
      ((j + 1) % folds.length) ((j + 1) % folds.length) (Nat.mod_lt _ h0)
      (fun f hf' => (hf f hf').alloc _) h1 h2
    refine ⟨samples m (foldAt folds j) ++ e, train', ?_, ?_, g2, ?_⟩
    · simp only [joinLoop, vget_foldAt hj, Res_bind_ok, e1, e2]
      rw [List.append_assoc, if_neg (show ¬ n + 1 = 0 by omega)]
      congr 3
      split
      · next h => subst h; rfl
      · rw [Nat.mod_add_mod]; congr 1; omega
    · rw [← List.append_assoc]; exact g1
    · rw [← List.append_assoc, g3, h3, List.range_succ_eq_map, List.flatMap_cons, List.append_assoc]
      congr 2
      rw [List.flatMap_map]
      apply List.flatMap_congr
      intro t _
      rw [(hf _ (foldAt_mem h0 _)).samples_append]
      congr 1
      rw [← foldAt_mod, Nat.mod_add_mod, foldAt_mod]
      congr 1; omega

theorem flatMap_rotate {β : Type} (folds : List Data) (f : Data → List β) (i : Nat) :
    (List.range folds.length).flatMap (fun t => f (foldAt folds (i + t))) = (folds.rotate i).flatMap f := by
  have : folds.rotate i = (List.range folds.length).map (fun t => foldAt folds (i + t)) := by
    apply List.ext_getElem (by simp)
    intro n h1 h2
    have hl : n < folds.length := by simpa using h1
    rw [List.getElem_rotate, List.getElem_map, List.getElem_range, foldAt]
    rw [List.getElem?_eq_getElem (Nat.mod_lt _ (by omega))]
    simp [Nat.add_comm]
  rw [this, List.flatMap_map]

theorem rotate_flatMap_perm {β : Type} (folds : List Data) (f : Data → List β) (i : Nat) :
    ((folds.rotate i).flatMap f).Perm (folds.flatMap f) :=
  (List.rotate_perm folds i).flatMap_right f

/-- One train/test pair. -/
structure PairOK (m0 m : Mem T) (folds : List Data) (i : Nat) (pr : TrainTest) : Prop where
  trainC : Consistent m pr.train
  testC : Consistent m pr.test
  train : (samples m pr.train).Perm
    ((List.range (folds.length - 1)).flatMap (fun t => samples m0 (foldAt folds (i + t))))
  test : (samples m pr.test).Perm (samples m0 (foldAt folds (i + (folds.length - 1))))
  fold : pr.fold = i + 1
  fresh : (∀ r ∈ pr.train.points ++ pr.test.points, m0.length ≤ r) ∧
    ∀ r ∈ pr.train.points, r ∉ pr.test.points

theorem PairOK.alloc {m0 m : Mem T} {folds : List Data} {i : Nat} {pr : TrainTest}
    (h : PairOK m0 m folds i pr) (e : List (Pt T)) : PairOK m0 (m ++ e) folds i pr := by
  have h1 : samples (m ++ e) pr.train = samples m pr.train := by
    rw [samples_eq_pts, h.trainC.livePts.pts_append_mem]; rfl
  have h2 : samples (m ++ e) pr.test = samples m pr.test := by
    rw [samples_eq_pts, h.testC.livePts.pts_append_mem]; rfl
  exact ⟨consistent_alloc h.trainC e, consistent_alloc h.testC e, by rw [h1]; exact h.train,
    by rw [h2]; exact h.test, h.fold, h.fresh⟩

theorem kfoldStep_ok {D : Nat} (folds : List Data) (hk : 3 ≤ folds.length) (name : String)
    {σ1 σ2 : List Nat → List Nat} (h1 : ∀ l, (σ1 l).Perm l) (h2 : ∀ l, (σ2 l).Perm l)
    (m : Mem T) (i : Nat) (hi : i < folds.length) (hf : ∀ f ∈ folds, FoldOK m D f) :
    ∃ e pr, kfoldStep folds name σ1 σ2 m i = .ok (m ++ e, pr) ∧ PairOK m (m ++ e) folds i pr := by
  have h0 : 0 < folds.length := by omega
  obtain ⟨t1, e1, a1, a2, a3⟩ := join_fold (foldOK_empty m D) rfl (hf _ (foldAt_mem h0 i))
  obtain ⟨e, t2, e2, b1, b2, b3⟩ := joinLoop_ok folds h0 (folds.length - 2)
    (m ++ samples m (foldAt folds i)) t1 ((i + 1) % folds.length) ((i + 2) % folds.length)
    (Nat.mod_lt _ h0) (fun f hf' => (hf f hf').alloc _) a1 a2
  have hnext : ((i + 1) % folds.length + (folds.length - 2)) % folds.length
      = (i + (folds.length - 1)) % folds.length := by
    rw [Nat.mod_add_mod]; congr 1; omega
  obtain ⟨M, hM⟩ : ∃ M, M = m ++ samples m (foldAt folds i) ++ e := ⟨_, rfl⟩
  have hMe : M = m ++ (samples m (foldAt folds i) ++ e) := by rw [hM, List.append_assoc]
  have hft : FoldOK M D (foldAt folds (i + (folds.length - 1))) := by
    rw [hMe]; exact (hf _ (foldAt_mem h0 _)).alloc _
  obtain ⟨c, e3, c1, c2, c3, c4, _, _⟩ := copy_fold hft
  rw [← hM] at e2 b1 b3
  have hts : samples M (foldAt folds (i + (folds.length - 1)))
      = samples m (foldAt folds (i + (folds.length - 1))) := by
    rw [hMe]; exact (hf _ (foldAt_mem h0 _)).samples_append _
  obtain ⟨M2, hM2⟩ : ∃ M2, M2 = M ++ samples M (foldAt folds (i + (folds.length - 1))) := ⟨_, rfl⟩
  rw [← hM2] at e3 c1 c2 c3
  have b1' : FoldOK M2 D t2 := by rw [hM2]; exact b1.alloc _
  obtain ⟨t3, e4, d1, d2, _, _⟩ := shuffle_fold b1' h1
  obtain ⟨c', e5, f1, f2, _, _⟩ := shuffle_fold c1 h2
  obtain ⟨t4, ht4⟩ : ∃ t4, t4 = resetIndex { t3 with name := name ++ "_train_fold_" ++ toString (i + 1) } :=
    ⟨_, rfl⟩
  obtain ⟨c4', hc4⟩ : ∃ c4, c4 = resetIndex { c' with name := name ++ "_test_fold_" ++ toString (i + 1) } :=
    ⟨_, rfl⟩
  have d1' : FoldOK M2 D t4 := by
    rw [ht4]
    exact ⟨⟨d1.counted.live, d1.counted.msize, d1.counted.cls, d1.counted.counts⟩, d1.dims, d1.cdist,
      by simp [resetIndex]⟩
  have f1' : FoldOK M2 D c4' := by
    rw [hc4]
    exact ⟨⟨f1.counted.live, f1.counted.msize, f1.counted.cls, f1.counted.counts⟩, f1.dims, f1.cdist,
      by simp [resetIndex]⟩
  have d2' : samples M2 t4 = samples M2 t3 := by rw [ht4]; rfl
  have f2' : samples M2 c4' = samples M2 c' := by rw [hc4]; rfl
  obtain ⟨tr, e6, g1, g2, g3, _, _, g4⟩ := copy_fold d1'
  obtain ⟨te, e7, k1, k2, k3, _, _, k4⟩ := copy_fold (f1'.alloc (samples M2 t4))
  refine ⟨samples m (foldAt folds i) ++ e ++ samples M (foldAt folds (i + (folds.length - 1)))
      ++ samples M2 t4 ++ samples (M2 ++ samples M2 t4) c4',
    { train := tr, test := te, fold := i + 1 }, ?_, ?_⟩
  · have hend : m ++ (samples m (foldAt folds i) ++ e
        ++ samples M (foldAt folds (i + (folds.length - 1)))
        ++ samples M2 t4 ++ samples (M2 ++ samples M2 t4) c4')
        = M2 ++ samples M2 t4 ++ samples (M2 ++ samples M2 t4) c4' := by
      rw [hM2, hMe]; simp only [List.append_assoc]
    rw [hend]
    unfold kfoldStep
    simp only [vget_foldAt hi, Res_bind_ok, e1, e2]
    rw [if_neg (by omega), hnext, Nat.mod_mod, vget_foldAt (Nat.mod_lt _ h0), foldAt_mod]
    simp only [Res_bind_ok, e3, e4, e5]
    rw [← ht4, ← hc4]
    simp only [e6, Res_bind_ok, e7, Res_pure]
  · have hend : m ++ (samples m (foldAt folds i) ++ e
        ++ samples M (foldAt folds (i + (folds.length - 1)))
        ++ samples M2 t4 ++ samples (M2 ++ samples M2 t4) c4')
        = M2 ++ samples M2 t4 ++ samples (M2 ++ samples M2 t4) c4' := by
      rw [hM2, hMe]; simp only [List.append_assoc]
    rw [hend]
    refine ⟨consistent_alloc g2 _, k2, ?_, ?_, rfl, ?_, ?_⟩
    · show (samples _ tr).Perm _
      rw [g1.samples_append, g3, d2']
      refine d2.trans ?_
      rw [hM2, b1.samples_append, b3, a3]
      have hr : folds.length - 1 = (folds.length - 2) + 1 := by omega
      rw [hr, List.range_succ_eq_map, List.flatMap_cons]
      apply List.Perm.of_eq
      rw [show samples m (empty : Data) = ([] : List (Pt T)) from rfl, List.nil_append]
      congr 1
      rw [List.flatMap_map]
      apply List.flatMap_congr
      intro t _
      rw [(hf _ (foldAt_mem h0 _)).samples_append]
      congr 1
      rw [← foldAt_mod, Nat.mod_add_mod, foldAt_mod]
      congr 1; omega
    · show (samples _ te).Perm _
      rw [k3, f1'.samples_append, f2']
      refine f2.trans ?_
      rw [c3, hts]
    · have hlM : m.length ≤ M2.length := by rw [hM2, hMe]; simp
      intro r hr
      rcases List.mem_append.1 hr with h | h
      · have h' : r ∈ tr.points := h
        rw [g4] at h'
        have := List.mem_range'_1.1 h'; omega
      · have h' : r ∈ te.points := h
        rw [k4] at h'
        have := List.mem_range'_1.1 h'; simp at this; omega
    · intro r hr hr2
      have h' : r ∈ tr.points := hr
      have h2' : r ∈ te.points := hr2
      rw [g4] at h'
      rw [k4] at h2'
      have q1 := List.mem_range'_1.1 h'
      have q2 := List.mem_range'_1.1 h2'
      have hl4 : (samples M2 t4).length = t4.points.length := by
        have : Live M2 t4.points := d1'.counted.live
        exact this.length
      simp at q2
      omega

theorem kfoldLoop_ok {D : Nat} (folds : List Data) (hk : 3 ≤ folds.length) (name : String)
    {σ1 σ2 : Nat → List Nat → List Nat} (h1 : ∀ i l, (σ1 i l).Perm l) (h2 : ∀ i l, (σ2 i l).Perm l) :
    ∀ (is : List Nat) (m : Mem T), (∀ i ∈ is, i < folds.length) → (∀ f ∈ folds, FoldOK m D f) →
    ∃ e prs, kfoldLoop folds name σ1 σ2 m is = .ok (m ++ e, prs) ∧
      List.Forall₂ (fun i pr => PairOK m (m ++ e) folds i pr) is prs := by
  intro is
  induction is with
  | nil => intro m _ _; exact ⟨[], [], by simp [kfoldLoop], List.Forall₂.nil⟩
  | cons i is ih =>
    intro m hi hf
    obtain ⟨e, pr, e1, hp⟩ := kfoldStep_ok folds hk name (h1 i) (h2 i) m i (hi i (by simp)) hf
    obtain ⟨e', prs, e2, hps⟩ := ih (m ++ e) (fun j hj => hi j (by simp [hj]))
      (fun f hf' => (hf f hf').alloc e)
    refine ⟨e ++ e', pr :: prs, ?_, ?_⟩
    · simp only [kfoldLoop, e1, Res_bind_ok, e2, Res_pure, List.append_assoc]
    · rw [← List.append_assoc]
      refine List.Forall₂.cons (hp.alloc e') ?_
      refine hps.imp ?_
      intro j pr hpr
      have h0 : 0 < folds.length := by omega
      have hs : ∀ t, samples (m ++ e) (foldAt folds t) = samples m (foldAt folds t) :=
        fun t => (hf _ (foldAt_mem h0 t)).samples_append e
      refine ⟨hpr.trainC, hpr.testC, ?_, ?_, hpr.fold, ?_, hpr.fresh.2⟩
      · have := hpr.train; simp only [hs] at this; exact this
      · have := hpr.test; rw [hs] at this; exact this
      · intro r hr
        have := hpr.fresh.1 r hr
        simp at this; omega

end MLTK.Data
