import Verif.Lemmas.KFold
namespace MLTK.Data
open MLTK.Spec
variable {T : Type}

/-- Both split modes give a full partition (the plain one when `k` divides the size). -/
theorem splitSample_full {m : Mem T} {d : Data} (h : Consistent m d) (hidx : d.size ≤ d.index.length)
    {k : Nat} (hk : 0 < k) (strat keep : Bool) (hs : strat = true ∨ k ∣ d.size)
    {σ : List Nat → List Nat} (hσ : ∀ l, (σ l).Perm l) :
    ∃ m' parts, splitSample m d k strat keep σ = .ok (m', parts) ∧ SplitRes m m' d keep k parts ∧
      (parts.flatMap Data.points).Perm (List.range' m.length d.size) ∧
      ∃ last, parts[k - 1]? = some last ∧ last.size = d.size / k := by
  cases strat with
  | true =>
    obtain ⟨m', parts, order, e, hr, ho, _, hp⟩ := splitSample_strat h hidx hk keep hσ
    obtain ⟨last, hl, hlp⟩ := last_points hk hp
    refine ⟨m', parts, e, hr, (strat_flat hk hp).trans ho, last, hl, ?_⟩
    rw [size, hlp, deal_last_length k hk, ho.length_eq]; simp
  | false =>
    have hdvd : k ∣ d.size := by rcases hs with h | h; cases h; exact h
    obtain ⟨m', parts, order, e, hr, ho, hp⟩ := splitSample_plain h hidx hk keep hσ
    have hlen : order.length = d.size := by rw [ho.length_eq]; simp
    have hmul : k * (d.size / k) = d.size := Nat.mul_div_cancel' hdvd
    obtain ⟨last, hl, hlp⟩ := last_points hk hp
    refine ⟨m', parts, e, hr, ?_, last, hl, ?_⟩
    · rw [plain_flat (by rw [hlen]; omega) hp, hmul, ← hlen, List.take_length]
      rw [hlen]; exact ho
    · rw [size, hlp, List.length_take, List.length_drop, hlen]
      have h3 : (k - 1) * (d.size / k) + d.size / k = k * (d.size / k) := by
        obtain ⟨j, hj⟩ : ∃ j, k = j + 1 := ⟨k - 1, by omega⟩
        subst hj
        simp [Nat.add_mul]
      omega

theorem insertAll_ok (keep : Bool) (D : Nat) :
    ∀ (rs : List Nat) (m : Mem T) (d : Data), Live m rs → (∀ p ∈ pts m rs, p.x.length = D) →
      PartOK m D d →
      ∃ m' d', insertAll keep m d rs = .ok (m', d') ∧ PartOK m' D d' ∧ SameUpToIds m m' ∧
        (keep = true → m' = m) ∧ (∀ x, x ∉ rs → m'[x]? = m[x]?) ∧ d'.points = d.points ++ rs := by
  intro rs
  induction rs with
  | nil => intro m d _ _ hd; exact ⟨m, d, rfl, hd, rfl, fun _ => rfl, fun _ _ => rfl, by simp⟩
  | cons r rs ih =>
    intro m d hL hdim hd
    obtain ⟨⟨p, hr⟩, hL2⟩ := hL.cons
    rw [pts_cons hr] at hdim
    obtain ⟨m1, d1, e, hok, hs, hkeep, hframe, hpts⟩ := hd.insert hr (hdim p (by simp)) keep
    obtain ⟨m', d', e2, h1, h2, h3, h4, h5⟩ := ih m1 d1 (SameUpToIds_live hs hL2)
      (SameUpToIds_dims hs rs (fun q hq => hdim q (by simp [hq]))) hok
    refine ⟨m', d', ?_, h1, hs.trans h2, fun hk => (h3 hk).trans (hkeep hk), ?_, ?_⟩
    · simp only [insertAll, e, Res_bind_ok, e2]
    · intro x hx
      simp only [List.mem_cons, not_or] at hx
      rw [h4 x hx.2, hframe x hx.1]
    · rw [h5, hpts]; simp

theorem trainLoop_ok (keep : Bool) (D : Nat) :
    ∀ (fs : List Data) (m : Mem T) (d : Data), (∀ f ∈ fs, FoldOK m D f) → PartOK m D d →
      ∃ m' d', trainLoop keep m d fs = .ok (m', d') ∧ PartOK m' D d' ∧ m.length ≤ m'.length ∧
        (∀ x, x < m.length → m'[x]? = m[x]?) ∧
        (∀ x ∈ d'.points, x ∈ d.points ∨ m.length ≤ x) ∧
        (d.points.Nodup → d'.points.Nodup) ∧
        (samples m' d').map content
          = (samples m d).map content ++ (fs.flatMap (samples m)).map content ∧
        (keep = true → samples m' d' = samples m d ++ fs.flatMap (samples m)) := by
  intro fs
  induction fs with
  | nil =>
    intro m d _ hd
    exact ⟨m, d, rfl, hd, Nat.le_refl _, fun _ _ => rfl, fun x hx => Or.inl hx, id, by simp, by simp⟩
  | cons f fs ih =>
    intro m d hf hd
    have hff := hf f (by simp)
    obtain ⟨c, e1, c1, c2, c3, _, _, c4⟩ := copy_fold hff
    obtain ⟨m1, d1, e2, a1, a2, a3, a4, a5⟩ := insertAll_ok keep D c.points (m ++ samples m f) d
      c2.livePts c1.dims (hd.alloc _)
    have hfl : (samples m f).length = f.points.length := by
      have : Live m f.points := hff.counted.live
      exact this.length
    have hlen : m1.length = m.length + f.points.length := by
      have := a2.length; simp [hfl] at this; omega
    have hframe : ∀ x, x < m.length → m1[x]? = m[x]? := by
      intro x hx
      rw [a4 x ?_, List.getElem?_append_left hx]
      rw [c4]; intro hm; have := List.mem_range'_1.1 hm; omega
    have hold : ∀ ps : List Nat, Live m ps → pts m1 ps = pts m ps :=
      fun ps hl => pts_frame (fun x hx => hl.lt hx) hframe
    have hfs : ∀ g ∈ fs, samples m1 g = samples m g := fun g hg =>
      hold g.points (hf g (by simp [hg])).counted.live
    have hfok : ∀ g ∈ fs, FoldOK m1 D g := by
      intro g hg
      have hg' := hf g (by simp [hg])
      refine ⟨⟨?_, hg'.counted.msize, hg'.counted.cls, ?_⟩, ?_, hg'.cdist, hg'.index⟩
      · intro r hr
        obtain ⟨p, hp⟩ := hg'.counted.live r hr
        have : Live m g.points := hg'.counted.live
        exact ⟨p, by rw [hframe r (this.lt hr)]; exact hp⟩
      · unfold labels; rw [hfs g hg]; exact hg'.counted.counts
      · rw [hfs g hg]; exact hg'.dims
    obtain ⟨m', d', e3, b1, b2, b3, b4, b5, b6, b7⟩ := ih m1 d1 hfok a1
    have hd1 : (samples m1 d1).map content = (samples m d).map content ++ (samples m f).map content := by
      rw [samples_eq_pts, a5, pts_append, List.map_append, hold _ hd.cons.livePts,
        ← SameUpToIds_pts a2 c.points, ← samples_eq_pts, ← samples_eq_pts, c3]
    have hflat : fs.flatMap (samples m1) = fs.flatMap (samples m) := by
      apply List.flatMap_congr; exact hfs
    refine ⟨m', d', ?_, b1, by omega, ?_, ?_, ?_, ?_, ?_⟩
    · simp only [trainLoop, e1, Res_bind_ok, e2, e3]
    · intro x hx; rw [b3 x (by omega), hframe x hx]
    · intro x hx
      rcases b4 x hx with h | h
      · rw [a5, List.mem_append] at h
        rcases h with h | h
        · exact Or.inl h
        · rw [c4] at h; have := List.mem_range'_1.1 h; right; omega
      · right; omega
    · intro hn
      apply b5
      rw [a5, c4]
      refine List.Nodup.append hn List.nodup_range' ?_
      intro x hx hx2
      have := hd.cons.livePts.lt hx
      have := List.mem_range'_1.1 hx2
      omega
    · rw [b6, hd1, hflat, List.flatMap_cons, List.map_append, List.append_assoc]
    · intro hk
      have hd1' : samples m1 d1 = samples m d ++ samples m f := by
        rw [a3 hk, samples_eq_pts, a5, pts_append, hd.cons.livePts.pts_append_mem, ← samples_eq_pts,
          ← samples_eq_pts, c3]
      rw [b7 hk, hd1', hflat, List.flatMap_cons, List.append_assoc]

theorem dropLast_append_of_get {α : Type} {l : List α} {k : Nat} {x : α} (hk : 0 < k) (hl : l.length = k)
    (h : l[k - 1]? = some x) : l = l.dropLast ++ [x] := by
  have hne : l ≠ [] := by intro he; subst he; simp at hl; omega
  have hx : l.getLast hne = x := by
    rw [List.getLast_eq_getElem]
    obtain ⟨h1, h2⟩ := List.getElem?_eq_some_iff.1 h
    rw [← h2]; congr 1; omega
  rw [← hx]; exact (List.dropLast_append_getLast hne).symm

theorem partTrainTest_ok {m : Mem T} {d : Data} (h : Consistent m d) (hidx : d.size ≤ d.index.length)
    {k : Nat} (hk : 0 < k) (strat keep : Bool) (hs : strat = true ∨ k ∣ d.size)
    {σ σ1 σ2 : List Nat → List Nat} (hσ : ∀ l, (σ l).Perm l) (hσ1 : ∀ l, (σ1 l).Perm l)
    (hσ2 : ∀ l, (σ2 l).Perm l) :
    ∃ m' pr, partTrainTest m d k strat keep σ σ1 σ2 = .ok (m', pr) ∧
      ((samples m' pr.train ++ samples m' pr.test).map content).Perm ((samples m d).map content) ∧
      (keep = true → (samples m' pr.train ++ samples m' pr.test).Perm (samples m d)) ∧
      (pr.train.points ++ pr.test.points).Nodup ∧
      pr.test.size = d.size / k ∧ Counted m' pr.train ∧ Counted m' pr.test ∧
      samples m' d = samples m d := by
  obtain ⟨s, e1, hp, h1, h2, h3, h4, h5, h6, h7, _⟩ := copy_ok h
  have hss := copy_samples h hp
  have hsc := copy_consistent h hp h2 h3 h4 h5 h7
  have hsz : s.size = d.size := by rw [size, hp]; simp
  obtain ⟨m2, parts, e2, hr, hpp, last, hlast, hlsz⟩ :=
    splitSample_full hsc (by rw [hsz, h6]; exact hidx) hk strat keep (by rw [hsz]; exact hs) hσ
  obtain ⟨u1, u2, u3⟩ := hr.union hsc hpp
  rw [hss] at u1 u2
  have hparts := dropLast_append_of_get hk hr.length hlast
  obtain ⟨fs, hfs⟩ : ∃ fs, fs = parts.dropLast := ⟨_, rfl⟩
  rw [← hfs] at hparts
  have hpartOK : ∀ f ∈ parts, PartOK m2 d.mdim f := by
    intro f hf; have := hr.ok f hf; rw [h4] at this; exact this
  have hlastmem : last ∈ parts := List.mem_of_getElem? hlast
  obtain ⟨m3, tr, e3, a1, a2, a3, a4, a5, a6, a7⟩ := trainLoop_ok keep d.mdim fs m2 (empty : Data)
    (fun f hf => (hpartOK f (by rw [hparts]; simp [hf])).fold) (partOK_empty _ _)
  have hlok := hpartOK last hlastmem
  have hlL : Live m3 last.points := by
    intro r hr'
    obtain ⟨p, hp'⟩ := hlok.cons.live r hr'
    exact ⟨p, by rw [a3 r (hlok.cons.livePts.lt hr')]; exact hp'⟩
  have hlp : pts m3 last.points = pts m2 last.points :=
    pts_frame (fun x hx => hlok.cons.livePts.lt hx) a3
  obtain ⟨m4, te, e4, b1, b2, b3, b4, b5⟩ := insertAll_ok keep d.mdim last.points m3 (empty : Data) hlL
    (by rw [hlp]; exact hlok.fold.dims) (partOK_empty _ _)
  have b5' : te.points = last.points := by rw [b5]; rfl
  have hdisj : ∀ x ∈ tr.points, x ∉ last.points := by
    intro x hx hx2
    have := hlok.cons.livePts.lt hx2
    rcases a4 x hx with h' | h'
    · simp [empty] at h'
    · omega
  have htr : pts m4 tr.points = pts m3 tr.points := by
    unfold pts
    apply List.filterMap_congr
    intro r hr'
    exact b4 r (hdisj r hr')
  have c1 : PartOK m4 d.mdim tr := a1.of_same b2
  obtain ⟨tr', ht'⟩ : ∃ tr', tr' = ({ tr with name := d.name ++ "_train" } : Data) := ⟨_, rfl⟩
  obtain ⟨te', he'⟩ : ∃ te', te' = ({ te with name := d.name ++ "_test" } : Data) := ⟨_, rfl⟩
  have c1' : FoldOK m4 d.mdim tr' := by
    have := c1.fold; rw [ht']
    exact ⟨⟨this.counted.live, this.counted.msize, this.counted.cls, this.counted.counts⟩, this.dims,
      this.cdist, this.index⟩
  have d1' : FoldOK m4 d.mdim te' := by
    have := b1.fold; rw [he']
    exact ⟨⟨this.counted.live, this.counted.msize, this.counted.cls, this.counted.counts⟩, this.dims,
      this.cdist, this.index⟩
  obtain ⟨t2, e5, f1, f2, f3, _⟩ := shuffle_fold c1' hσ1
  obtain ⟨t3, e6, g1, g2, g3, _⟩ := shuffle_fold d1' hσ2
  have htrp : tr'.points = tr.points := by rw [ht']
  have htep : te'.points = last.points := by rw [he']; exact b5'
  have hflat : parts.flatMap (samples m2) = fs.flatMap (samples m2) ++ samples m2 last := by
    rw [hparts, List.flatMap_append, List.flatMap_singleton]
  have hempty : samples m2 (empty : Data) = [] := rfl
  refine ⟨m4, { train := t2, test := t3 }, ?_, ?_, ?_, ?_, ?_, f1.counted, g1.counted, ?_⟩
  · have hv : vget parts (parts.length - 1) = .ok last := by
      rw [hr.length, vget_eq_ok]; exact hlast
    unfold partTrainTest
    simp only [e1, Res_bind_ok, e2, ← hfs, e3, hv, e4]
    rw [← ht', ← he']
    simp only [e5, Res_bind_ok, e6, Res_pure]
  · refine List.Perm.trans ?_ u1
    rw [hflat, List.map_append, List.map_append]
    refine List.Perm.append ?_ ?_
    · refine (f2.map content).trans ?_
      rw [samples_eq_pts, htrp, htr, ← samples_eq_pts, a6, hempty]
      simp
    · refine (g2.map content).trans ?_
      rw [samples_eq_pts, htep, ← SameUpToIds_pts b2, hlp]; exact List.Perm.refl _
  · intro hkp
    refine List.Perm.trans ?_ (u2 hkp)
    rw [hflat]
    refine List.Perm.append ?_ ?_
    · refine f2.trans ?_
      rw [samples_eq_pts, htrp, htr, ← samples_eq_pts, a7 hkp, hempty]
      simp
    · refine g2.trans ?_
      rw [samples_eq_pts, htep, b3 hkp, hlp]; exact List.Perm.refl _
  · show (t2.points ++ t3.points).Nodup
    rw [(f3.append g3).nodup_iff, htrp, htep]
    refine List.Nodup.append (a5 (by simp [empty])) ?_ (fun x hx hx2 => hdisj x hx hx2)
    have := u3
    rw [hparts, List.flatMap_append, List.flatMap_singleton] at this
    exact (List.nodup_append.1 this).2.1
  · show t3.points.length = _
    rw [g3.length_eq, htep, ← hsz, ← hlsz]; rfl
  · have hfr : ∀ x, x < m.length → m4[x]? = m[x]? := by
      intro x hx
      have hx1 : x < (m ++ samples m d).length := by simp; omega
      have hle : (m ++ samples m d).length ≤ m2.length := by
        have := hr.same.length; simp at this ⊢; omega
      rw [b4 x ?_, a3 x (by omega), hr.frame x hx1, List.getElem?_append_left hx]
      intro hm
      have hin : x ∈ parts.flatMap Data.points := List.mem_flatMap.2 ⟨last, hlastmem, hm⟩
      have := List.mem_range'_1.1 (hpp.mem_iff.1 hin)
      omega
    exact pts_frame (fun x hx => h.livePts.lt hx) hfr

theorem forall₂_flatMap_perm {α β γ : Type} {R : α → β → Prop} {f : β → List γ} {g : α → List γ}
    (hR : ∀ a b, R a b → (f b).Perm (g a)) {as : List α} {bs : List β} (h : List.Forall₂ R as bs) :
    (bs.flatMap f).Perm (as.flatMap g) := by
  induction h with
  | nil => exact List.Perm.refl _
  | cons hab _ ih =>
    rw [List.flatMap_cons, List.flatMap_cons]
    exact (hR _ _ hab).append ih

theorem forall₂_mem_right {α β : Type} {R : α → β → Prop} {as : List α} {bs : List β}
    (h : List.Forall₂ R as bs) {b : β} (hb : b ∈ bs) : ∃ a ∈ as, R a b := by
  induction h with
  | nil => simp at hb
  | cons hab _ ih =>
    rcases List.mem_cons.1 hb with h' | h'
    · subst h'; exact ⟨_, by simp, hab⟩
    · obtain ⟨a, ha, hr⟩ := ih h'
      exact ⟨a, by simp [ha], hr⟩

theorem kfoldsplit_ext {m : Mem T} {d : Data} (h : Consistent m d) (hidx : d.size ≤ d.index.length)
    {k : Nat} (hk : 3 ≤ k) (strat keep : Bool) (hs : strat = true ∨ k ∣ d.size)
    {σ : List Nat → List Nat} {σ1 σ2 : Nat → List Nat → List Nat} (hσ : ∀ l, (σ l).Perm l)
    (hσ1 : ∀ i l, (σ1 i l).Perm l) (hσ2 : ∀ i l, (σ2 i l).Perm l) :
    ∃ m' prs, kfoldsplit m d k strat keep σ σ1 σ2 = .ok (m', prs) ∧ prs.length = k ∧
      (∀ pr ∈ prs,
        ((samples m' pr.train ++ samples m' pr.test).map content).Perm ((samples m d).map content) ∧
        (keep = true → (samples m' pr.train ++ samples m' pr.test).Perm (samples m d)) ∧
        Consistent m' pr.train ∧ Consistent m' pr.test ∧
        (∀ r ∈ pr.train.points, r ∉ pr.test.points)) ∧
      ((prs.flatMap (fun pr => samples m' pr.test)).map content).Perm ((samples m d).map content) ∧
      (keep = true → (prs.flatMap (fun pr => samples m' pr.test)).Perm (samples m d)) ∧
      prs.map TrainTest.fold = (List.range k).map (· + 1) ∧
      samples m' d = samples m d ∧ (∃ e, m' = m ++ e) ∧
      ∀ pr ∈ prs, ∀ r ∈ pr.train.points ++ pr.test.points, m.length ≤ r := by
  obtain ⟨s, e1, hp, h1, h2, h3, h4, h5, h6, h7, _⟩ := copy_ok h
  have hss := copy_samples h hp
  have hsc := copy_consistent h hp h2 h3 h4 h5 h7
  have hsz : s.size = d.size := by rw [size, hp]; simp
  have hk0 : 0 < k := by omega
  obtain ⟨m2, parts, e2, hr, hpp, _⟩ :=
    splitSample_full hsc (by rw [hsz, h6]; exact hidx) hk0 strat keep (by rw [hsz]; exact hs) hσ
  obtain ⟨u1, u2, u3⟩ := hr.union hsc hpp
  rw [hss] at u1 u2
  have hlen := hr.length
  obtain ⟨e, prs, e3, hF⟩ := kfoldLoop_ok (D := s.mdim) parts (by omega) d.name hσ1 hσ2 (List.range k) m2
    (fun i hi => by rw [hlen]; exact List.mem_range.1 hi) (fun f hf => (hr.ok f hf).fold)
  have hpair : ∀ i pr, PairOK m2 (m2 ++ e) parts i pr →
      (samples (m2 ++ e) pr.train ++ samples (m2 ++ e) pr.test).Perm (parts.flatMap (samples m2)) := by
    intro i pr hpr
    refine (hpr.train.append hpr.test).trans ?_
    refine List.Perm.trans ?_ (rotate_flatMap_perm parts (samples m2) i)
    rw [← flatMap_rotate]
    apply List.Perm.of_eq
    obtain ⟨j, hj⟩ : ∃ j, parts.length = j + 1 := ⟨parts.length - 1, by omega⟩
    rw [hj, List.range_succ, List.flatMap_append, List.flatMap_singleton]
    simp
  have hmem : ∀ pr ∈ prs, ∃ i, PairOK m2 (m2 ++ e) parts i pr := by
    intro pr hpr
    obtain ⟨i, _, hi⟩ := forall₂_mem_right hF hpr
    exact ⟨i, hi⟩
  have htests : (prs.flatMap (fun pr => samples (m2 ++ e) pr.test)).Perm (parts.flatMap (samples m2)) := by
    refine (forall₂_flatMap_perm (f := fun pr : TrainTest => samples (m2 ++ e) pr.test)
      (g := fun i => samples m2 (foldAt parts (i + (parts.length - 1))))
      (fun a b hab => hab.test) hF).trans ?_
    refine List.Perm.trans ?_ (rotate_flatMap_perm parts (samples m2) (parts.length - 1))
    rw [← flatMap_rotate, hlen]
    apply List.Perm.of_eq
    apply List.flatMap_congr
    intro t _
    rw [Nat.add_comm]
  have hle : (m ++ samples m d).length ≤ m2.length := by
    have := hr.same.length; simp at this ⊢; omega
  have hfr : ∀ x, x < m.length → (m2 ++ e)[x]? = m[x]? := by
    intro x hx
    have hx1 : x < (m ++ samples m d).length := by simp; omega
    rw [List.getElem?_append_left (by omega), hr.frame x hx1, List.getElem?_append_left hx]
  refine ⟨m2 ++ e, prs, ?_, ?_, ?_, (htests.map content).trans u1, fun hkp => htests.trans (u2 hkp), ?_,
    pts_frame (fun x hx => h.livePts.lt hx) hfr, ⟨(m2 ++ e).drop m.length, ?_⟩, ?_⟩
  · unfold kfoldsplit
    simp only [e1, Res_bind_ok, e2]
    rw [if_neg (by omega)]
    exact e3
  · rw [← hF.length_eq]; simp
  · intro pr hpr
    obtain ⟨i, hi⟩ := hmem pr hpr
    exact ⟨((hpair i pr hi).map content).trans u1, fun hkp => (hpair i pr hi).trans (u2 hkp),
      hi.trainC, hi.testC, hi.fresh.2⟩
  · have : ∀ (is : List Nat) (ps : List TrainTest),
        List.Forall₂ (fun i pr => PairOK m2 (m2 ++ e) parts i pr) is ps →
        ps.map TrainTest.fold = is.map (· + 1) := by
      intro is ps hF
      induction hF with
      | nil => rfl
      | cons hab _ ih => simp [ih, hab.fold]
    exact this _ _ hF
  · have ht : (m2 ++ e).take m.length = m := by
      apply List.ext_getElem?
      intro x
      rw [List.getElem?_take]
      split
      · rename_i hx; exact hfr x hx
      · rename_i hx; rw [List.getElem?_eq_none (by omega)]
    conv_lhs => rw [← List.take_append_drop m.length (m2 ++ e), ht]
  · intro pr hpr r hrr
    obtain ⟨i, hi⟩ := hmem pr hpr
    have := hi.fresh.1 r hrr
    simp at hle; omega

theorem kfoldsplit_ok {m : Mem T} {d : Data} (h : Consistent m d) (hidx : d.size ≤ d.index.length)
    {k : Nat} (hk : 3 ≤ k) (strat keep : Bool) (hs : strat = true ∨ k ∣ d.size)
    {σ : List Nat → List Nat} {σ1 σ2 : Nat → List Nat → List Nat} (hσ : ∀ l, (σ l).Perm l)
    (hσ1 : ∀ i l, (σ1 i l).Perm l) (hσ2 : ∀ i l, (σ2 i l).Perm l) :
    ∃ m' prs, kfoldsplit m d k strat keep σ σ1 σ2 = .ok (m', prs) ∧ prs.length = k ∧
      (∀ pr ∈ prs,
        ((samples m' pr.train ++ samples m' pr.test).map content).Perm ((samples m d).map content) ∧
        (keep = true → (samples m' pr.train ++ samples m' pr.test).Perm (samples m d)) ∧
        Consistent m' pr.train ∧ Consistent m' pr.test ∧
        (∀ r ∈ pr.train.points, r ∉ pr.test.points)) ∧
      ((prs.flatMap (fun pr => samples m' pr.test)).map content).Perm ((samples m d).map content) ∧
      (keep = true → (prs.flatMap (fun pr => samples m' pr.test)).Perm (samples m d)) ∧
      prs.map TrainTest.fold = (List.range k).map (· + 1) ∧
      samples m' d = samples m d := by
  obtain ⟨m', prs, h1, h2, h3, h4, h5, h6, h7, _⟩ := kfoldsplit_ext h hidx hk strat keep hs hσ hσ1 hσ2
  exact ⟨m', prs, h1, h2, h3, h4, h5, h6, h7⟩

end MLTK.Data
