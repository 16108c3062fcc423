import Verif.Lemmas.DataRemove
namespace MLTK.Data
open MLTK.Spec

variable {T : Type}

theorem Live.lt {m : Mem T} {ps : List Nat} (h : Live m ps) {r : Nat} (hr : r ∈ ps) :
    r < m.length := by
  obtain ⟨p, hp⟩ := h r hr
  exact (List.getElem?_eq_some_iff.1 hp).1

theorem Live.append {m : Mem T} {ps : List Nat} (h : Live m ps) (e : List (Pt T)) :
    Live (m ++ e) ps := by
  intro r hr
  obtain ⟨p, hp⟩ := h r hr
  exact ⟨p, by rw [List.getElem?_append_left (h.lt hr)]; exact hp⟩

theorem Live.pts_append_mem {m : Mem T} {ps : List Nat} (h : Live m ps) (e : List (Pt T)) :
    pts (m ++ e) ps = pts m ps := by
  unfold pts
  apply List.filterMap_congr
  intro r hr
  exact List.getElem?_append_left (h.lt hr)

/-- Heap cells appended at the end are read back in order. -/
theorem pts_fresh (m : Mem T) (ps : List (Pt T)) :
    pts (m ++ ps) (List.range' m.length ps.length) = ps := by
  induction ps generalizing m with
  | nil => rfl
  | cons p ps ih =>
    rw [List.length_cons, List.range'_succ, pts_cons (p := p) (by simp)]
    have := ih (m ++ [p])
    simp only [List.append_assoc, List.singleton_append, List.length_append, List.length_cons,
      List.length_nil, Nat.zero_add] at this
    rw [this]

theorem live_fresh (m : Mem T) (ps : List (Pt T)) :
    Live (m ++ ps) (List.range' m.length ps.length) := by
  intro r hr
  have := List.mem_range'_1.1 hr
  exact ⟨(m ++ ps)[r]'(by simp; omega), List.getElem?_eq_getElem _⟩

theorem copyPoints_ok {m : Mem T} {rs : List Nat} (h : Live m rs) (acc : List Nat) :
    copyPoints m acc rs = .ok (m ++ pts m rs, acc ++ List.range' m.length rs.length) := by
  induction rs generalizing m acc with
  | nil => simp [copyPoints]
  | cons r rs ih =>
    obtain ⟨⟨p, hp⟩, h2⟩ := h.cons
    simp only [copyPoints, deref_of_get hp, Res_bind_ok]
    rw [ih (h2.append [p]), h2.pts_append_mem, pts_cons hp, List.length_cons, List.range'_succ]
    simp

/-- `copy()` of a consistent dataset. -/
theorem copy_ok {m : Mem T} {d : Data} (h : Consistent m d) :
    ∃ d', copy m d = .ok (m ++ samples m d, d') ∧
      d'.points = List.range' m.length d.size ∧ d'.fnames = d.fnames ∧
      d'.classes = d.classes ∧ d'.dist = d.dist ∧ d'.mdim = d.mdim ∧ d'.type = d.type ∧
      d'.index = d.index ∧ d'.msize = d.size ∧ d'.classNames = d.classNames ∧
      d'.cdistComputed = d.cdistComputed ∧ d'.isEmpty = d.isEmpty ∧ d'.name = d.name := by
  refine ⟨{ empty with
    points := List.range' m.length d.points.length, fnames := d.fnames, msize := d.size,
    classes := d.classes,
    classNames := d.classNames, dist := d.dist, mdim := d.mdim, type := d.type,
    index := d.index, isEmpty := d.isEmpty, normalized := d.normalized,
    timeMult := d.timeMult, cdistComputed := d.cdistComputed, name := d.name },
    ?_, rfl, rfl, rfl, rfl, rfl, rfl, rfl, rfl, rfl, rfl, rfl, rfl⟩
  simp only [copy, copyFrom, copyPoints_ok h.livePts, Res_bind_ok, dim_of_consistent h, Res_pure,
    List.nil_append]
  rfl

theorem copy_samples {m : Mem T} {d d' : Data} (h : Consistent m d)
    (hp : d'.points = List.range' m.length d.size) :
    samples (m ++ samples m d) d' = samples m d := by
  have hl : (samples m d).length = d.size := h.livePts.length
  rw [samples_eq_pts, hp, ← hl]
  exact pts_fresh m (samples m d)

theorem copy_consistent {m : Mem T} {d d' : Data} (h : Consistent m d)
    (hp : d'.points = List.range' m.length d.size) (hc : d'.classes = d.classes)
    (hd : d'.dist = d.dist) (hm : d'.mdim = d.mdim) (ht : d'.type = d.type)
    (hs : d'.msize = d.size) : Consistent (m ++ samples m d) d' := by
  have hl : (samples m d).length = d.size := h.livePts.length
  have hsam := copy_samples h hp
  refine ⟨?_, ?_, ?_, ?_, ?_, ?_⟩
  · rw [hp, ← hl]; exact live_fresh m (samples m d)
  · rw [hs, hp]; simp
  · have := h.cls; unfold isClassification at *; rw [ht]; exact this
  · unfold labels; rw [hsam, hc, hd]; exact h.counts
  · rw [hsam, hm]; exact h.dims
  · intro he
    rw [hm]; apply h.mdim0
    have := congrArg List.length he
    rw [hp] at this
    simp [size] at this
    exact this

/-! ## Class counting -/

theorem countLoop_ok {m : Mem T} {cs : List Int} (hn : cs.Nodup) :
    ∀ (rs : List Nat) (f : Int → Nat), Live m rs → (∀ p ∈ pts m rs, p.y ∈ cs) →
      countLoop m cs (cs.map f) rs
        = .ok (cs.map (fun c => f c + ((pts m rs).map Pt.y).count c)) := by
  intro rs
  induction rs with
  | nil => intro f _ _; simp [countLoop]
  | cons r rs ih =>
    intro f hL hy
    obtain ⟨⟨p, hp⟩, h2⟩ := hL.cons
    rw [pts_cons hp] at hy
    simp only [countLoop, deref_of_get hp, Res_bind_ok,
      incAt_map cs f hn p.y (hy p (by simp))]
    rw [ih _ h2 (fun q hq => hy q (by simp [hq])), pts_cons hp]
    congr 1
    apply List.map_congr_left
    intro c _
    rw [List.map_cons, List.count_cons]
    by_cases hc : c = p.y
    · subst hc; simp; omega
    · have : ¬ p.y = c := fun h => hc h.symm
      simp [hc, this]

theorem computeDist_ok {m : Mem T} {d : Data} (hL : Live m d.points) (hn : d.classes.Nodup)
    (hy : ∀ y ∈ labels m d, y ∈ d.classes) (hc : d.cdistComputed = false) :
    computeDist m d
      = .ok { d with dist := d.classes.map (fun c => (labels m d).count c) } := by
  have h0 : List.replicate d.classes.length 0 = d.classes.map (fun _ => 0) := by
    rw [List.map_const']
  simp only [computeDist, hc, Bool.false_eq_true, if_false, h0]
  rw [countLoop_ok hn d.points (fun _ => 0) hL
    (fun p hp => hy p.y (List.mem_map.2 ⟨p, hp, rfl⟩))]
  simp [labels, samples_eq_pts]

/-! ## `std::set_difference` -/

theorem setDiff_sorted {α : Type} [LinearOrder α] (lt : α → α → Bool)
    (hlt : ∀ a b, lt a b = true ↔ a < b) :
    ∀ (a b : List α), a.Pairwise (· < ·) → b.Pairwise (· ≤ ·) →
      setDiff lt a b = a.filter (fun x => x ∉ b) := by
  intro a b
  induction a, b using setDiff.induct (lt := lt) with
  | case1 b => intros; simp [setDiff]
  | case2 a as => intros; simp [setDiff]
  | case3 a as b bs h0 ih =>
    intro h1 h2
    have hab : a < b := (hlt _ _).1 h0
    have hn : a ∉ b :: bs := by
      intro hm
      rcases List.mem_cons.1 hm with rfl | hm
      · exact absurd hab (lt_irrefl _)
      · exact absurd ((List.pairwise_cons.1 h2).1 a hm) (not_le.2 hab)
    rw [setDiff, if_pos h0, ih (List.pairwise_cons.1 h1).2 h2, List.filter_cons, if_pos (by simpa using hn)]
  | case4 a as b bs h0 hgt ih =>
    intro h1 h2
    have hba : b < a := (hlt _ _).1 hgt
    rw [setDiff, if_neg h0, if_pos hgt, ih h1 (List.pairwise_cons.1 h2).2]
    apply List.filter_congr
    intro x hx
    have : b < x := by
      rcases List.mem_cons.1 hx with rfl | hx
      · exact hba
      · exact lt_trans hba ((List.pairwise_cons.1 h1).1 x hx)
    simp [ne_of_gt this]
  | case5 a as b bs h0 hgt ih =>
    intro h1 h2
    have hab : a = b := by
      have h3 : ¬ a < b := fun h => h0 ((hlt _ _).2 h)
      have h4 : ¬ b < a := fun h => hgt ((hlt _ _).2 h)
      exact le_antisymm (not_lt.1 h4) (not_lt.1 h3)
    subst hab
    rw [setDiff, if_neg h0, if_neg hgt, ih (List.pairwise_cons.1 h1).2 (List.pairwise_cons.1 h2).2,
      List.filter_cons, if_neg (by simp)]
    apply List.filter_congr
    intro x hx
    have := (List.pairwise_cons.1 h1).1 x hx
    simp [ne_of_gt this]

theorem setDiff_ints (a b : List Int) (hn : a.Nodup) :
    setDiff (fun x y => decide (x < y)) (a.insertionSort (· ≤ ·)) (b.insertionSort (· ≤ ·))
      = (a.insertionSort (· ≤ ·)).filter (fun x => x ∉ b) := by
  have h1 : (a.insertionSort (· ≤ ·)).Pairwise (· < ·) := by
    have hs : (a.insertionSort (· ≤ ·)).Pairwise (· ≤ ·) := List.pairwise_insertionSort _ a
    have hd : (a.insertionSort (· ≤ ·)).Nodup := (List.perm_insertionSort _ a).nodup_iff.2 hn
    exact hs.imp₂ (fun x y h1 h2 => lt_of_le_of_ne h1 h2) hd
  rw [setDiff_sorted _ (by simp) _ _ h1 (List.pairwise_insertionSort _ b)]
  simp

end MLTK.Data

namespace MLTK.Data
open MLTK.Spec
variable {T : Type}

theorem _root_.MLTK.Spec.Consistent.counted {m : Mem T} {d : Data} (h : Consistent m d) :
    Counted m d := ⟨h.live, h.msize, h.cls, h.counts⟩

/-- Everything `join` does, when the distribution of the left side is not marked as computed. -/
theorem join_ok {m : Mem T} {d o : Data} (hd : Counted m d) (ho : Counted m o) {n : Nat}
    (hn : dim m o = .ok n) (hle : d.mdim ≤ n) (hc : d.cdistComputed = false) :
    ∃ d', join m d o = .ok (m ++ samples m o, d') ∧
      d'.points = d.points ++ List.range' m.length o.size ∧
      samples (m ++ samples m o) d' = samples m d ++ samples m o ∧
      d'.classes = d.classes ++ (o.classes.insertionSort (· ≤ ·)).filter (fun x => x ∉ d.classes) ∧
      d'.mdim = d.mdim ∧ d'.type = d.type ∧ d'.cdistComputed = false ∧
      d'.index = iota 0 (d.size + o.size) ∧ d'.isEmpty = d.isEmpty ∧ d'.name = d.name ∧
      d'.fnames = (if d.fnames = [] then o.fnames else d.fnames) ∧
      Counted (m ++ samples m o) d' := by
  have hLd : Live m d.points := hd.live
  have hLo : Live m o.points := ho.live
  have hlen : (samples m o).length = o.points.length := hLo.length
  have hpts : pts (m ++ samples m o) (d.points ++ List.range' m.length o.points.length)
      = samples m d ++ samples m o := by
    rw [pts_append, hLd.pts_append_mem, ← hlen, pts_fresh]; rfl
  have hlive : Live (m ++ samples m o) (d.points ++ List.range' m.length o.points.length) := by
    intro r hr
    rcases List.mem_append.1 hr with hr | hr
    · exact hLd.append _ r hr
    · rw [← hlen] at hr; exact live_fresh m (samples m o) r hr
  let cs := d.classes ++ (o.classes.insertionSort (· ≤ ·)).filter (fun x => x ∉ d.classes)
  have hcsn : cs.Nodup := by
    rw [List.nodup_append]
    refine ⟨hd.counts.nodup, List.Nodup.filter _
      ((List.perm_insertionSort _ _).nodup_iff.2 ho.counts.nodup), ?_⟩
    intro a ha b hb he
    subst he
    simp at hb
    exact hb.2 ha
  have hcov : ∀ y ∈ (samples m d ++ samples m o).map Pt.y, y ∈ cs := by
    intro y hy
    rw [List.map_append, List.mem_append] at hy
    by_cases hyd : y ∈ d.classes
    · exact List.mem_append.2 (Or.inl hyd)
    · rcases hy with hy | hy
      · exact absurd (hd.counts.covers y hy) hyd
      · have := ho.counts.covers y hy
        exact List.mem_append.2 (Or.inr (by simp [this, hyd]))
  let d3 : Data := { d with
    msize := d.msize + o.size, points := d.points ++ List.range' m.length o.points.length,
    index := iota 0 (d.points ++ List.range' m.length o.points.length).length,
    classes := cs,
    classNames := d.classNames ++ setDiff (fun a b => decide (a < b))
      (o.classNames.insertionSort (· ≤ ·)) (d.classNames.insertionSort (· ≤ ·)),
    dist := List.replicate cs.length 0 }
  have hcomp := computeDist_ok (m := m ++ samples m o) (d := d3) hlive hcsn
    (by
      intro y hy
      have : labels (m ++ samples m o) d3 = (samples m d ++ samples m o).map Pt.y := by
        rw [labels, samples_eq_pts]; exact congrArg _ hpts
      rw [this] at hy
      exact hcov y hy) hc
  let d4 : Data := { d3 with dist := cs.map (fun c => (labels (m ++ samples m o) d3).count c) }
  have hj : join m d o = .ok (m ++ samples m o, if d.fnames = [] then { d4 with fnames := o.fnames } else d4) := by
    unfold join
    have h1 : ¬ (d.mdim > n) := by omega
    have h2 : ¬ (d.points.length < d.msize) := by rw [hd.msize]; omega
    have h3 : d.points.take d.msize = d.points := by rw [hd.msize]; simp
    have h5 : copyPoints m [] o.points = .ok (m ++ samples m o, List.range' m.length o.points.length) := by
      rw [copyPoints_ok hLo]; rfl
    have h4 : d3 = { d with
        msize := d.msize + o.size, points := d.points ++ List.range' m.length o.points.length,
        index := iota 0 (d.points ++ List.range' m.length o.points.length).length,
        classes := d.classes ++ setDiff (fun a b => decide (a < b))
          (o.classes.insertionSort (· ≤ ·)) (d.classes.insertionSort (· ≤ ·)),
        classNames := d.classNames ++ setDiff (fun a b => decide (a < b))
          (o.classNames.insertionSort (· ≤ ·)) (d.classNames.insertionSort (· ≤ ·)),
        dist := List.replicate (d.classes ++ setDiff (fun a b => decide (a < b))
          (o.classes.insertionSort (· ≤ ·)) (d.classes.insertionSort (· ≤ ·))).length 0 } := by
      simp only [d3, cs, setDiff_ints _ _ ho.counts.nodup]
    simp only [hn, Res_bind_ok, if_neg h1, if_neg h2, h5, h3, resetIndex]
    rw [← h4, hcomp]
    simp only [Res_bind_ok, Res_pure]
    rfl
  have hfin : ∀ d5 : Data, d5.points = d4.points → samples (m ++ samples m o) d5
      = samples m d ++ samples m o := by
    intro d5 h5
    rw [samples_eq_pts, h5]; exact hpts
  have hidx : (d.points ++ List.range' m.length o.points.length).length = d.size + o.size := by
    simp [size]
  have hC : ∀ d5 : Data, d5.points = d4.points → d5.msize = d4.msize → d5.type = d4.type →
      d5.classes = d4.classes → d5.dist = d4.dist → Counted (m ++ samples m o) d5 := by
    intro d5 h1 h2 h3 h4 h5
    refine ⟨by rw [h1]; exact hlive, ?_, ?_, ?_⟩
    · rw [h2, h1]; simp only [d4, d3]; rw [hidx, hd.msize]; rfl
    · have := hd.cls; unfold isClassification at *; rw [h3]; exact this
    · refine ⟨by rw [h4]; exact hcsn, ?_, ?_⟩
      · rw [labels, hfin d5 h1, h4]; exact hcov
      · rw [h5, h4]
        have : labels (m ++ samples m o) d5 = labels (m ++ samples m o) d3 := by
          rw [labels, hfin d5 h1, labels, hfin d3 rfl]
        rw [this]
  by_cases hf : d.fnames = []
  · refine ⟨{ d4 with fnames := o.fnames }, by rw [hj, if_pos hf], rfl, hfin _ rfl, rfl, rfl, rfl, hc,
      ?_, rfl, rfl, by simp [hf], hC _ rfl rfl rfl rfl rfl⟩
    simp only [d4, d3, hidx]
  · refine ⟨d4, by rw [hj, if_neg hf], rfl, hfin _ rfl, rfl, rfl, rfl, hc,
      ?_, rfl, rfl, by simp [hf, d4, d3], hC _ rfl rfl rfl rfl rfl⟩
    simp only [d4, d3, hidx]

/-- With the distribution marked as computed, `join` leaves it all zero. -/
theorem join_stale {m : Mem T} {d o : Data} (hd : Counted m d) (ho : Counted m o) {n : Nat}
    (hn : dim m o = .ok n) (hle : d.mdim ≤ n) (hc : d.cdistComputed = true) :
    ∃ d', join m d o = .ok (m ++ samples m o, d') ∧
      samples (m ++ samples m o) d' = samples m d ++ samples m o ∧
      d'.dist = List.replicate d'.classes.length 0 := by
  have hLd : Live m d.points := hd.live
  have hLo : Live m o.points := ho.live
  have hlen : (samples m o).length = o.points.length := hLo.length
  have hpts : pts (m ++ samples m o) (d.points ++ List.range' m.length o.points.length)
      = samples m d ++ samples m o := by
    rw [pts_append, hLd.pts_append_mem, ← hlen, pts_fresh]; rfl
  have h1 : ¬ (d.mdim > n) := by omega
  have h2 : ¬ (d.points.length < d.msize) := by rw [hd.msize]; omega
  have h3 : d.points.take d.msize = d.points := by rw [hd.msize]; simp
  have h5 : copyPoints m [] o.points = .ok (m ++ samples m o, List.range' m.length o.points.length) := by
    rw [copyPoints_ok hLo]; rfl
  unfold join
  simp only [hn, Res_bind_ok, if_neg h1, if_neg h2, h5, h3, resetIndex, computeDist, hc, if_true, Res_pure]
  refine ⟨_, rfl, ?_, ?_⟩
  · split
    · exact hpts
    · exact hpts
  · split <;> rfl

/-! ## Writes -/

theorem writes_get (m : Mem T) (ws : List (Nat × Pt T)) (r : Nat) (h : ∀ w ∈ ws, w.1 ≠ r) :
    (writes m ws)[r]? = m[r]? := by
  induction ws generalizing m with
  | nil => rfl
  | cons w ws ih =>
    rw [writes, ih _ (fun v hv => h v (by simp [hv]))]
    rw [List.getElem?_set_ne (h w (by simp))]

theorem writes_samples (m : Mem T) (ws : List (Nat × Pt T)) (d : Data)
    (h : ∀ w ∈ ws, w.1 ∉ d.points) : samples (writes m ws) d = samples m d := by
  unfold samples
  apply List.filterMap_congr
  intro r hr
  exact writes_get m ws r (fun w hw he => h w hw (he ▸ hr))

end MLTK.Data
