import Verif.Lemmas.DataMore
import Verif.Props.DataCopy
/-!
# C119-C126: normalising, comparing, filled datasets, columns, empty copies
-/
namespace MLTK.Props
open MLTK MLTK.Data MLTK.Spec

/-! ## C119: unit norm -/

/-- **C119** For every rectangular dataset and every `p > 0`, `normalize(p)` ends normally; every sample then has one
feature more and `p`-norm one, and there are as many samples as before.  (A sample held twice is normalised twice; the
claim holds for it too.) -/
theorem C119_unit_norm (m : Mem ℝ) (d : Data) (n : Nat) (h : Rectangular m d n) (hne : d.points ≠ []) (p : ℝ)
    (hp : 0 < p) :
    ∃ m' d', normalize m d p = .ok (m', d') ∧ (samples m' d').length = d.size ∧
      ∀ s ∈ samples m' d', s.x.length = n + 1 ∧ powerSum p s.x = 1 := by
  obtain ⟨m', e, _, _, hin⟩ := normalize_ok h hne p
  refine ⟨m', _, e, ?_, ?_⟩
  · have hL : Live m' d.points := by
      intro r hr
      obtain ⟨q, y, _, _, _, hm, _⟩ := hin r hr
      exact ⟨_, hm⟩
    exact hL.length
  · intro s hs
    obtain ⟨r, hr, hs⟩ := List.mem_filterMap.1 hs
    obtain ⟨q, y, _, _, hy, hm, _⟩ := hin r hr
    obtain rfl := Option.some.inj (hm.symm.trans hs)
    exact ⟨by simp [unitRow, hy], unitRow_powerSum hp y⟩

/-- **C119 (direction)** If no sample is held twice, each sample becomes its old features followed by 1, all divided by
one positive number; its label, multiplier and id stay. -/
theorem C119_direction (m : Mem ℝ) (d : Data) (n : Nat) (h : Rectangular m d n) (hne : d.points ≠ [])
    (hnd : d.points.Nodup) (p : ℝ) :
    ∃ m' d', normalize m d p = .ok (m', d') ∧ d'.points = d.points ∧
      ∀ r ∈ d.points, ∃ q c, m[r]? = some q ∧ 0 < c ∧ m'[r]? = some { q with x := (q.x ++ [1]).map (· / c) } := by
  obtain ⟨m', e, _, _, hin⟩ := normalize_ok h hne p
  refine ⟨m', _, e, rfl, ?_⟩
  intro r hr
  obtain ⟨q, y, hq, _, _, hm, hy⟩ := hin r hr
  obtain rfl := hy hnd
  exact ⟨q, divisor p q.x, hq, divisor_pos p q.x, hm⟩

/-- Two samples `(3,4)` and `(0,0)`. -/
noncomputable def twoRows : Mem ℝ := [⟨[3, 4], 1, 0, 1⟩, ⟨[0, 0], -1, 0, 2⟩]

/-- A dataset holding them, whose features are called 1 and 3 (feature 2 was removed). -/
def twoRowsData : Data :=
  { points := [0, 1], fnames := [1, 3], index := [0, 1], classNames := ["1", "-1"], classes := [1, -1],
    dist := [1, 1], msize := 2, mdim := 2, isEmpty := false }

theorem twoRows_rect : Rectangular twoRows twoRowsData 2 := by
  refine ⟨?_, rfl, ?_⟩
  · intro r hr
    simp [twoRowsData] at hr
    rcases hr with rfl | rfl
    · exact ⟨_, rfl⟩
    · exact ⟨_, rfl⟩
  · intro p hp
    simp [samples, twoRowsData, twoRows] at hp
    rcases hp with rfl | rfl <;> rfl

example : Rectangular twoRows twoRowsData 2 ∧ twoRowsData.points ≠ [] ∧ twoRowsData.points.Nodup :=
  ⟨twoRows_rect, by decide, by decide⟩

/-- The first sample becomes `(3/8, 4/8, 1/8)` for `p = 1`. -/
example : unitRow 1 [3, 4] = [3 / 8, 4 / 8, 1 / 8] := by
  simp [unitRow, divisor, powerSum]; norm_num

/-! ## C120: what else normalising changes -/

/-- **C120 (partial)** Normalising changes nothing but the features of the dataset's own samples, its dimension, its list of
feature names (one name is added) and its `isNormalized` flag: labels, ids, multipliers, class table, order and size stay,
samples that do not belong to the dataset stay.  Missing: the added name need not be new
(`C120_names_refuted`), and a second call adds a further feature (`C120_twice_refuted`). -/
theorem C120_rest_unchanged_partial (m : Mem ℝ) (d : Data) (n : Nat) (h : Rectangular m d n) (hne : d.points ≠ []) (p : ℝ) :
    ∃ m' d', normalize m d p = .ok (m', d') ∧
      (∃ names, d' = { d with mdim := n + 1, fnames := d.fnames ++ [names], normalized := true }) ∧
      m'.length = m.length ∧ (∀ r, r ∉ d.points → m'[r]? = m[r]?) ∧
      (samples m' d').map (fun s => (s.y, s.alpha, s.id)) = (samples m d).map (fun s => (s.y, s.alpha, s.id)) ∧
      Rectangular m' d' (n + 1) := by
  obtain ⟨m', e, hl, hout, hin⟩ := normalize_ok h hne p
  refine ⟨m', _, e, ⟨_, rfl⟩, hl, hout, ?_, ?_, h.msize, ?_⟩
  · simp only [samples]
    rw [List.map_filterMap, List.map_filterMap]
    apply List.filterMap_congr
    intro r hr
    obtain ⟨q, y, hq, _, _, hm, _⟩ := hin r hr
    rw [hq, hm]
    rfl
  · intro r hr
    obtain ⟨q, y, _, _, _, hm, _⟩ := hin r hr
    exact ⟨_, hm⟩
  · intro s hs
    obtain ⟨r, hr, hs⟩ := List.mem_filterMap.1 hs
    obtain ⟨q, y, _, _, hy, hm, _⟩ := hin r hr
    obtain rfl := Option.some.inj (hm.symm.trans hs)
    simp [unitRow, hy]

/-- **C120 (partial)** If the features are called `1 … n`, they are called `1 … n+1` afterwards. -/
theorem C120_names_partial (m : Mem ℝ) (d : Data) (n : Nat) (h : Rectangular m d n) (hne : d.points ≠ []) (p : ℝ)
    (hn : d.fnames = iota 1 n) :
    ∃ m' d', normalize m d p = .ok (m', d') ∧ d'.fnames = iota 1 (n + 1) := by
  obtain ⟨m', e, _⟩ := normalize_ok h hne p
  refine ⟨m', _, e, ?_⟩
  rw [iota_succ, ← hn]
  simp [add_comm]

/-- **C120 (refuted)** The name given to the new feature is its position: if an old feature has that name (possible after
features were removed), two features have one name. -/
theorem C120_names_refuted :
    (∀ (m : Mem ℝ) (d : Data) (n : Nat) (p : ℝ), Rectangular m d n → d.points ≠ [] → ((n + 1 : Nat) : Int) ∈ d.fnames →
      ∃ m' d', normalize m d p = .ok (m', d') ∧ ¬ d'.fnames.Nodup) ∧
    (∃ (m : Mem ℝ) (d : Data), Rectangular m d 2 ∧ d.points ≠ [] ∧ d.fnames.Nodup ∧ ((2 + 1 : Nat) : Int) ∈ d.fnames) := by
  refine ⟨?_, twoRows, twoRowsData, twoRows_rect, by decide, by decide, by decide⟩
  intro m d n p h hne hmem
  obtain ⟨m', e, _⟩ := normalize_ok h hne p
  refine ⟨m', _, e, ?_⟩
  rw [List.nodup_append]
  rintro ⟨_, _, h3⟩
  exact h3 _ hmem _ (by simp) rfl

/-- **C120 (refuted)** Normalising a normalised dataset is not the identity: it adds a second constant feature, for every
non-empty dataset. -/
theorem C120_twice_refuted (m : Mem ℝ) (d : Data) (n : Nat) (h : Rectangular m d n) (hne : d.points ≠ []) (p : ℝ) :
    ∃ m1 d1 m2 d2, normalize m d p = .ok (m1, d1) ∧ d1.normalized = true ∧ normalize m1 d1 p = .ok (m2, d2) ∧
      (∀ s ∈ samples m1 d1, s.x.length = n + 1) ∧ (∀ s ∈ samples m2 d2, s.x.length = n + 2) ∧
      samples m2 d2 ≠ samples m1 d1 := by
  obtain ⟨m1, d1, e1, ⟨nm, hd1⟩, _, _, _, h1⟩ := C120_rest_unchanged_partial m d n h hne p
  have hne1 : d1.points ≠ [] := by rw [hd1]; exact hne
  obtain ⟨m2, d2, e2, ⟨nm2, hd2⟩, _, _, _, h2⟩ := C120_rest_unchanged_partial m1 d1 (n + 1) h1 hne1 p
  refine ⟨m1, d1, m2, d2, e1, by rw [hd1], e2, h1.dims, h2.dims, ?_⟩
  intro he
  have hs : samples m1 d1 ≠ [] := by
    intro h0
    have hL : Live m1 d1.points := h1.live
    have := hL.length
    rw [show pts m1 d1.points = samples m1 d1 from rfl, h0] at this
    exact hne1 (List.length_eq_zero_iff.1 this.symm)
  obtain ⟨s, hs⟩ := List.exists_mem_of_ne_nil _ hs
  have a := h1.dims s hs
  have b := h2.dims s (by rw [he]; exact hs)
  omega

/-! ## C121: normalising and other datasets -/

theorem Consistent.rect {T : Type} {m : Mem T} {d : Data} (h : Consistent m d) : Rectangular m d d.mdim :=
  ⟨h.live, h.msize, h.dims⟩

/-- **C121 (partial)** Normalising a copy leaves the original as it was, and normalising the original leaves its copy as it
was.  Missing: datasets related by assignment or holding the same points (`C121_assigned_refuted`). -/
theorem C121_copy_partial (m : Mem ℝ) (d : Data) (h : Consistent m d) (hne : d.points ≠ []) (p : ℝ) :
    ∃ m' c, copy m d = .ok (m', c) ∧
      (∃ m1 c1, normalize m' c p = .ok (m1, c1) ∧ samples m1 d = samples m d) ∧
      (∃ m2 d2, normalize m' d p = .ok (m2, d2) ∧ samples m2 c = samples m d) := by
  obtain ⟨c, e, hpts, h1, h2, h3, h4, h5, h6, h7, _⟩ := copy_ok h
  have hs := copy_samples h hpts
  have hd : samples (m ++ samples m d) d = samples m d := by
    rw [samples_eq_pts, h.livePts.pts_append_mem]; rfl
  have hc := copy_consistent h hpts h2 h3 h4 h5 h7
  have hdc : Rectangular (m ++ samples m d) d d.mdim :=
    ⟨h.livePts.append _, h.msize, by rw [hd]; exact h.dims⟩
  have hdisj : ∀ r, r ∈ c.points → r ∉ d.points := by
    intro r hr hr'
    rw [hpts] at hr
    have := List.mem_range'_1.1 hr
    have := h.livePts.lt hr'
    omega
  have hcne : c.points ≠ [] := by
    rw [hpts]
    have : 0 < d.size := List.length_pos_iff.2 hne
    intro h0
    have := congrArg List.length h0
    simp at this
    omega
  have hrect : Rectangular (m ++ samples m d) c c.mdim := ⟨hc.live, hc.msize, hc.dims⟩
  refine ⟨_, c, e, ?_, ?_⟩
  · obtain ⟨m1, e1, _, hout, _⟩ := normalize_ok hrect hcne p
    refine ⟨m1, _, e1, ?_⟩
    rw [← hd]
    apply List.filterMap_congr
    intro r hr
    exact hout r (fun hr' => hdisj r hr' hr)
  · obtain ⟨m2, e2, _, hout, _⟩ := normalize_ok hdc hne p
    refine ⟨m2, _, e2, ?_⟩
    rw [← hs]
    apply List.filterMap_congr
    intro r hr
    exact hout r (fun hr' => hdisj r hr hr')

/-- **C121 (refuted)** After `b = a`, normalising `b` changes every sample `a` shows, for every non-empty `a`: they have one
feature more than `a` has names for. -/
theorem C121_assigned_refuted (m : Mem ℝ) (a self : Data) (n : Nat) (h : Rectangular m a n) (hne : a.points ≠ [])
    (hf : a.fnames.length = n) (p : ℝ) :
    ∃ m' b', normalize m (assign self a) p = .ok (m', b') ∧ samples m' a ≠ samples m a ∧
      ∀ s ∈ samples m' a, s.x.length ≠ a.fnames.length := by
  have hb : Rectangular m (assign self a) n := ⟨h.live, h.msize, h.dims⟩
  obtain ⟨m', b', e, ⟨nm, hb'⟩, _, _, _, h1⟩ := C120_rest_unchanged_partial m (assign self a) n hb hne p
  have hsame : samples m' a = samples m' b' := by rw [hb']; rfl
  have hdim : ∀ s ∈ samples m' a, s.x.length = n + 1 := by rw [hsame]; exact h1.dims
  refine ⟨m', b', e, ?_, ?_⟩
  · intro he
    have hs : samples m a ≠ [] := by
      intro h0
      have hL : Live m a.points := h.live
      have := hL.length
      rw [show pts m a.points = samples m a from rfl, h0] at this
      exact hne (List.length_eq_zero_iff.1 this.symm)
    obtain ⟨s, hs⟩ := List.exists_mem_of_ne_nil _ hs
    have x := h.dims s hs
    have y := hdim s (by rw [he]; exact hs)
    omega
  · intro s hs
    rw [hdim s hs, hf]
    omega

example : Rectangular twoRows twoRowsData 2 ∧ twoRowsData.points ≠ [] ∧ twoRowsData.fnames.length = 2 :=
  ⟨twoRows_rect, by decide, rfl⟩

/-! ## C122: equality of datasets -/

variable {T : Type}

/-- The parts of two datasets `operator==` looks at. -/
structure LooksEqual (m : Mem T) (a b : Data) : Prop where
  features : (samples m a).map Pt.x = (samples m b).map Pt.x
  classes : a.classes = b.classes
  dist : a.dist = b.dist
  fnames : a.fnames = b.fnames
  index : a.index = b.index
  mdim : a.mdim = b.mdim
  timeMult : a.timeMult = b.timeMult
  posClass : a.posClass = b.posClass
  negClass : a.negClass = b.negClass
  isEmpty : a.isEmpty = b.isEmpty
  normalized : a.normalized = b.normalized

theorem view_x {m : Mem T} {d : Data} (h : ∀ r ∈ d.points, ∃ p, m[r]? = some p) :
    (view m d).map (·.map Pt.x) = ((samples m d).map Pt.x).map some := by
  unfold view samples
  have : ∀ l : List Nat, (∀ r ∈ l, ∃ p, m[r]? = some p) →
      (l.map (fun r => m[r]?)).map (·.map Pt.x) = ((l.filterMap (fun r => m[r]?)).map Pt.x).map some := by
    intro l
    induction l with
    | nil => intro _; rfl
    | cons r rs ih =>
      intro hl
      obtain ⟨p, hp⟩ := hl r (by simp)
      simp only [List.map_cons, hp, List.filterMap_cons]
      rw [ih (fun s hs => hl s (by simp [hs]))]
      rfl
  exact this d.points h

open Classical in
theorem eqv_ok [DecidableEq T] {m : Mem T} {a b : Data} (ha : Consistent m a) (hb : Consistent m b) :
    eqv m a b = .ok (decide (LooksEqual m a b)) := by
  have la : (samples m a).length = a.points.length := ha.livePts.length
  have lb : (samples m b).length = b.points.length := hb.livePts.length
  have hinj : Function.Injective (List.map (some : List T → Option (List T))) :=
    List.map_injective_iff.2 (Option.some_injective _)
  unfold eqv
  rw [view_x ha.live, view_x hb.live]
  by_cases h1 : (samples m a).map Pt.x = (samples m b).map Pt.x
  · have hlen : a.points.length = b.points.length := by
      have := congrArg List.length h1
      simp only [List.length_map] at this
      omega
    rw [if_neg (by simp [hlen]), h1]
    simp only [ne_eq, not_true_eq_false, if_false]
    by_cases h2 : a.classes = b.classes
    · have hdl : a.dist.length = b.dist.length := by
        rw [ha.counts.counts, hb.counts.counts]; simp [h2]
      simp only [h2, not_true_eq_false, if_false]
      by_cases h3 : a.dist = b.dist
      · simp only [h3, not_true_eq_false, if_false, gt_iff_lt, lt_irrefl]
        simp only [Res_pure]
        congr 1
        rw [decide_eq_decide]
        constructor
        · rintro ⟨x1, x2, _, x4, x5, x6, x7, x8, x9⟩
          exact ⟨h1, h2, h3, x1, x2, x4, x5, x6, x7, x8, x9⟩
        · intro h
          exact ⟨h.fnames, h.index, by rw [hlen, hb.msize], h.mdim, h.timeMult, h.posClass, h.negClass, h.isEmpty,
            h.normalized⟩
      · have : ¬ (a.dist.take b.dist.length = b.dist.take a.dist.length) := by
          rw [hdl, List.take_length, ← hdl, List.take_length]; exact h3
        simp only [this, not_false_eq_true, if_true, Res_pure]
        congr 1
        simp only [Bool.false_eq, decide_eq_false_iff_not]
        exact fun h => h3 h.dist
    · simp only [h2, not_false_eq_true, if_true, Res_pure]
      congr 1
      simp only [Bool.false_eq, decide_eq_false_iff_not]
      exact fun h => h2 h.classes
  · have hf : ¬ LooksEqual m a b := fun h => h1 h.features
    have : ¬ (((samples m a).map Pt.x).map some = ((samples m b).map Pt.x).map (some : List T → _)) :=
      fun he => h1 (hinj he)
    simp only [ne_eq, this, not_false_eq_true, if_true, hf, decide_false]
    split <;> rfl

/-- **C122** On datasets with consistent bookkeeping, `==` always answers, is reflexive, symmetric and transitive, and `!=`
(`!(rhs == *this)`) is its negation. -/
theorem C122_equivalence [DecidableEq T] (m : Mem T) (a b c : Data) (ha : Consistent m a) (hb : Consistent m b)
    (hc : Consistent m c) :
    eqv m a a = .ok true ∧ (∃ t, eqv m a b = .ok t) ∧ eqv m a b = eqv m b a ∧
      (eqv m a b = .ok true → eqv m b c = .ok true → eqv m a c = .ok true) := by
  classical
  have hrefl : ∀ x : Data, LooksEqual m x x := fun x => ⟨rfl, rfl, rfl, rfl, rfl, rfl, rfl, rfl, rfl, rfl, rfl⟩
  have hsymm : ∀ x y : Data, LooksEqual m x y → LooksEqual m y x := fun x y h =>
    ⟨h.1.symm, h.2.symm, h.3.symm, h.4.symm, h.5.symm, h.6.symm, h.7.symm, h.8.symm, h.9.symm, h.10.symm, h.11.symm⟩
  have htrans : LooksEqual m a b → LooksEqual m b c → LooksEqual m a c := fun h g =>
    ⟨h.1.trans g.1, h.2.trans g.2, h.3.trans g.3, h.4.trans g.4, h.5.trans g.5, h.6.trans g.6, h.7.trans g.7,
      h.8.trans g.8, h.9.trans g.9, h.10.trans g.10, h.11.trans g.11⟩
  rw [eqv_ok ha ha, eqv_ok ha hb, eqv_ok hb ha, eqv_ok hb hc, eqv_ok ha hc]
  refine ⟨by simp [hrefl a], ⟨_, rfl⟩, ?_, ?_⟩
  · congr 1
    rw [decide_eq_decide]
    exact ⟨hsymm a b, hsymm b a⟩
  · intro h1 h2
    simp only [Except.ok.injEq, decide_eq_true_eq] at h1 h2 ⊢
    exact htrans h1 h2

/-- **C122 (partial)** Equal datasets show the same features in the same order, the same classes and class counts, and the
same names, index and dimension.  Missing: labels, ids and multipliers (`C122_labels_refuted`). -/
theorem C122_same_features_partial [DecidableEq T] (m : Mem T) (a b : Data) (ha : Consistent m a) (hb : Consistent m b) :
    eqv m a b = .ok true ↔ LooksEqual m a b := by
  classical
  rw [eqv_ok ha hb]
  simp

/-- **C122 (refuted)** Equal datasets may give a different label to every sample. -/
theorem C122_labels_refuted : ∃ (m : Mem Int) (a b : Data), Consistent m a ∧ Consistent m b ∧ eqv m a b = .ok true ∧
    labels m a = [1, -1] ∧ labels m b = [-1, 1] := by
  refine ⟨[⟨[5], 1, 0, 1⟩, ⟨[7], -1, 0, 2⟩, ⟨[5], -1, 0, 1⟩, ⟨[7], 1, 0, 2⟩],
    { points := [0, 1], fnames := [1], index := [0, 1], classNames := ["1", "-1"], classes := [1, -1], dist := [1, 1],
      msize := 2, mdim := 1, isEmpty := false },
    { points := [2, 3], fnames := [1], index := [0, 1], classNames := ["1", "-1"], classes := [1, -1], dist := [1, 1],
      msize := 2, mdim := 1, isEmpty := false }, ?_, ?_, by decide +kernel, rfl, rfl⟩
  all_goals
    refine ⟨?_, rfl, rfl, ⟨by decide, by decide, by decide⟩, by decide, by decide⟩
    intro r hr
    simp at hr
    rcases hr with rfl | rfl
    · exact ⟨_, rfl⟩
    · exact ⟨_, rfl⟩

theorem consistent_grown {m : Mem T} {d : Data} (h : Consistent m d) (e : List (Pt T)) : Consistent (m ++ e) d := by
  have hs : samples (m ++ e) d = samples m d := by
    rw [samples_eq_pts, h.livePts.pts_append_mem]; rfl
  exact ⟨h.livePts.append _, h.msize, h.cls, by unfold labels; rw [hs]; exact h.counts, by rw [hs]; exact h.dims, h.mdim0⟩

/-- **C122 (copies)** A copy equals its original exactly if the original's positive and negative class names are the
default ones: `copy` does not copy them. -/
theorem C122_copy_equal_partial [DecidableEq T] (m : Mem T) (d : Data) (h : Consistent m d) :
    ∃ m' c, copy m d = .ok (m', c) ∧ (eqv m' c d = .ok true ↔ d.posClass = "1" ∧ d.negClass = "-1") := by
  classical
  have hcopy : copy m d = .ok (m ++ samples m d, { empty with
      points := List.range' m.length d.points.length, fnames := d.fnames, msize := d.size,
      classes := d.classes,
      classNames := d.classNames, dist := d.dist, mdim := d.mdim, type := d.type,
      index := d.index, isEmpty := d.isEmpty, normalized := d.normalized,
      timeMult := d.timeMult, cdistComputed := d.cdistComputed, name := d.name }) := by
    simp only [copy, copyFrom, copyPoints_ok h.livePts, Res_bind_ok, dim_of_consistent h, Res_pure, List.nil_append]
    rfl
  refine ⟨_, _, hcopy, ?_⟩
  refine Iff.trans (C122_same_features_partial _ _ _ (copy_consistent (d' := { Data.empty with
      points := List.range' m.length d.points.length, fnames := d.fnames, msize := d.size, classes := d.classes,
      classNames := d.classNames, dist := d.dist, mdim := d.mdim, type := d.type,
      index := d.index, isEmpty := d.isEmpty, normalized := d.normalized,
      timeMult := d.timeMult, cdistComputed := d.cdistComputed, name := d.name })
      h rfl rfl rfl rfl rfl rfl) (consistent_grown h _)) ?_
  constructor
  · intro e
    exact ⟨e.posClass.symm, e.negClass.symm⟩
  · rintro ⟨h1, h2⟩
    have hd : samples (m ++ samples m d) d = samples m d := by
      rw [samples_eq_pts, h.livePts.pts_append_mem]; rfl
    exact ⟨by rw [copy_samples h rfl, hd], rfl, rfl, rfl, rfl, rfl, rfl, h1.symm, h2.symm, rfl, rfl⟩

/-- **C122 (refuted)** The copy of a dataset read with positive class "yes" is not equal to it. -/
theorem C122_copy_equal_refuted : ∃ m' c, copy demoMem { demoData with posClass := "yes" } = .ok (m', c) ∧
    eqv m' c { demoData with posClass := "yes" } = .ok false :=
  ⟨_, _, rfl, by decide +kernel⟩

example : ∃ (m : Mem Int) (d : Data), Consistent m d ∧ d.posClass = "1" ∧ d.negClass = "-1" ∧ d.size = 3 :=
  ⟨_, _, demo_consistent, rfl, rfl, rfl⟩

/-! ## C123: filled datasets -/

/-- **C123 (partial)** `Data(size, dim, val)` holds `size` new samples with `dim` features equal to `val`, label 0 and the
ids `1, 2, …`, named features `1 … dim`; the points of other datasets stay.  Missing: its class table
(`C123_classes_refuted`). -/
theorem C123_filled_partial (m : Mem T) (size dim : Nat) (val : T) :
    samples (filled m size dim val).1 (filled m size dim val).2 =
        (List.range size).map (fun i => { x := List.replicate dim val, y := 0, alpha := 0, id := i + 1 }) ∧
      (filled m size dim val).2.fnames = iota 1 dim ∧
      Rectangular (filled m size dim val).1 (filled m size dim val).2 dim ∧
      (∀ d : Data, (∀ r ∈ d.points, r < m.length) → samples (filled m size dim val).1 d = samples m d) := by
  have hs : samples (filled m size dim val).1 (filled m size dim val).2 =
        (List.range size).map (fun i => { x := List.replicate dim val, y := 0, alpha := 0, id := i + 1 }) := by
    have := pts_fresh m ((List.range size).map
      (fun i => ({ x := List.replicate dim val, y := 0, alpha := 0, id := i + 1 } : Pt T)))
    simpa [pts, samples, filled] using this
  refine ⟨hs, rfl, ⟨?_, ?_, ?_⟩, ?_⟩
  · have := live_fresh m ((List.range size).map
      (fun i => ({ x := List.replicate dim val, y := 0, alpha := 0, id := i + 1 } : Pt T)))
    simpa [Live, filled] using this
  · simp [filled]
  · rw [hs]
    intro p hp
    obtain ⟨i, _, rfl⟩ := List.mem_map.1 hp
    simp
  · intro d hd
    apply List.filterMap_congr
    intro r hr
    exact List.getElem?_append_left (hd r hr)

/-- **C123 (refuted)** The class list of a filled dataset is empty although its samples have label 0: counting the classes
writes outside the table, and so does removing a sample, for every size (removing: from 2 on). -/
theorem C123_classes_refuted (m : Mem T) (size dim : Nat) (val : T) (hs : 0 < size) :
    (0 : Int) ∈ labels (filled m size dim val).1 (filled m size dim val).2 ∧ (filled m size dim val).2.classes = [] ∧
      computeDist (filled m size dim val).1 (filled m size dim val).2 = .error .outOfBounds ∧
      (1 < size → removePoint (filled m size dim val).1 (filled m size dim val).2 1 = .error .outOfBounds) := by
  have hget : ∀ i, i < size → (filled m size dim val).1[m.length + i]? =
      some { x := List.replicate dim val, y := 0, alpha := 0, id := i + 1 } := by
    intro i hi
    simp [filled, hi]
  refine ⟨?_, rfl, ?_, ?_⟩
  · unfold labels
    rw [(C123_filled_partial m size dim val).1]
    simp only [List.map_map, List.mem_map, List.mem_range]
    exact ⟨0, hs, rfl⟩
  · obtain ⟨k, rfl⟩ : ∃ k, size = k + 1 := ⟨size - 1, by omega⟩
    have h0 : (filled m (k + 1) dim val).1[m.length]? =
        some { x := List.replicate dim val, y := 0, alpha := 0, id := 1 } := hget 0 hs
    have hpts : (filled m (k + 1) dim val).2.points = m.length :: List.range' (m.length + 1) k := by
      simp [filled, List.range'_succ]
    unfold computeDist
    have hcd : (filled m (k + 1) dim val).2.cdistComputed = false := rfl
    rw [hcd, hpts]
    simp only [countLoop]
    rw [deref_of_get h0]
    rfl
  · intro h1
    obtain ⟨k, rfl⟩ : ∃ k, size = k + 2 := ⟨size - 2, by omega⟩
    have h0 : (filled m (k + 2) dim val).1[m.length]? =
        some { x := List.replicate dim val, y := 0, alpha := 0, id := 1 } := hget 0 hs
    have hpts : (filled m (k + 2) dim val).2.points = m.length :: List.range' (m.length + 1) (k + 1) := by
      simp [filled, List.range'_succ]
    have hms : (filled m (k + 2) dim val).2.msize = k + 2 := rfl
    have hlast : vget (filled m (k + 2) dim val).2.points (k + 2 - 1) = .ok (m.length + (k + 1)) := by
      rw [vget_eq_ok]
      simp [filled]
    have hl := hget (k + 1) (by omega)
    unfold removePoint
    have hm1 : ¬ (filled m (k + 2) dim val).2.msize = 1 := by rw [hms]; omega
    have hm0 : ¬ (filled m (k + 2) dim val).2.msize = 0 := by rw [hms]; omega
    rw [if_neg hm1, if_neg hm0, hms, hlast]
    simp only [Res_bind_ok]
    rw [deref_of_get hl]
    simp only [Res_bind_ok]
    have hid : ¬ ((1 : Int) > ((k + 1 + 1 : Nat) : Int) ∨ (1 : Int) ≤ 0) := by
      rintro (hh | hh) <;> omega
    rw [if_neg hid, hpts]
    have hfind : findId (filled m (k + 2) dim val).1
        ((m.length :: List.range' (m.length + 1) (k + 1)).take (k + 2)) (Int.toNat 1) = .ok (some 0) := by
      simp only [List.take_succ_cons, findId]
      rw [deref_of_get h0]
      rfl
    rw [hfind]
    simp only [Res_bind_ok]
    have hv : vget (m.length :: List.range' (m.length + 1) (k + 1)) 0 = .ok m.length := rfl
    rw [hv]
    simp only [Res_bind_ok]
    rw [deref_of_get h0]
    rfl

/-- Three samples of two features. -/
example : samples (filled ([] : Mem Int) 3 2 7).1 (filled [] 3 2 7).2 =
    [⟨[7, 7], 0, 0, 1⟩, ⟨[7, 7], 0, 0, 2⟩, ⟨[7, 7], 0, 0, 3⟩] := by decide +kernel

/-! ## C124: columns -/

/-- **C124** `getFeature(j)` returns the `j`-th feature of every sample in order and `getLabels()` the labels, for every
rectangular dataset and every column. -/
theorem C124_columns [Inhabited T] (m : Mem T) (d : Data) (n : Nat) (h : Rectangular m d n) (j : Nat) (hj : j < n) :
    getFeature m d j = .ok ((samples m d).map (fun s => s.x.getD j default)) ∧ getLabels m d = .ok (labels m d) := by
  have hL : Live m d.points := h.live
  have hlen : (samples m d).length = d.points.length := hL.length
  have hsi : ∀ i (hi : i < d.points.length), ∃ p, m[d.points[i]]? = some p ∧ (samples m d)[i]? = some p := by
    have : ∀ l : List Nat, Live m l → ∀ i (hi : i < l.length), ∃ p, m[l[i]]? = some p ∧
        (l.filterMap (fun r => m[r]?))[i]? = some p := by
      intro l
      induction l with
      | nil => intro _ i hi; simp at hi
      | cons r rs ih =>
        intro hl i hi
        obtain ⟨⟨p, hp⟩, h2⟩ := hl.cons
        cases i with
        | zero => exact ⟨p, hp, by simp [hp]⟩
        | succ i =>
          obtain ⟨q, hq, hq'⟩ := ih h2 i (by simpa using hi)
          exact ⟨q, hq, by simp only [List.filterMap_cons, hp]; simpa using hq'⟩
    exact this d.points hL
  have key : ∀ {β : Type} (f : Nat → Res β) (g : Pt T → β),
      (∀ i, i < d.points.length → ∀ p, (samples m d)[i]? = some p → f i = .ok (g p)) →
      (List.range d.points.length).mapM f = .ok ((samples m d).map g) := by
    intro β f g hf
    have : ∀ k, k ≤ d.points.length → (List.range k).mapM f = .ok (((samples m d).take k).map g) := by
      intro k
      induction k with
      | zero => intro _; rfl
      | succ k ih =>
        intro hk
        obtain ⟨p, _, hp⟩ := hsi k (by omega)
        rw [List.range_succ, List.mapM_append, ih (by omega)]
        simp only [Res_bind_ok, List.mapM_cons, List.mapM_nil, hf k (by omega) p hp, Res_pure, List.take_add_one, hp,
          Option.toList_some, List.map_append, List.map_cons, List.map_nil]
    have := this d.points.length (le_refl _)
    rw [this, ← hlen, List.take_length]
  constructor
  · unfold getFeature
    rw [h.msize]
    apply key _ (fun s => s.x.getD j default)
    intro i hi p hp
    obtain ⟨q, hq, hq'⟩ := hsi i hi
    obtain rfl := Option.some.inj (hq'.symm.trans hp)
    have hv : vget d.points i = .ok d.points[i] := by simp [hi]
    have hx : j < q.x.length := by
      rw [h.dims q (List.mem_of_getElem? hp)]; exact hj
    simp only [hv, Res_bind_ok, deref_of_get hq]
    rw [if_neg (by omega)]
    simp [hx, vget]
  · unfold getLabels
    rw [h.msize]
    apply key _ Pt.y
    intro i hi p hp
    obtain ⟨q, hq, hq'⟩ := hsi i hi
    obtain rfl := Option.some.inj (hq'.symm.trans hp)
    have hv : vget d.points i = .ok d.points[i] := by simp [hi]
    simp only [hv, Res_bind_ok, deref_of_get hq, Res_pure]

example : getFeature demoMem demoData 0 = .ok [1, 2, 3] ∧ getLabels demoMem demoData = .ok [1, -1, 1] ∧
    Rectangular demoMem demoData 1 :=
  ⟨by decide +kernel, by decide +kernel, ⟨demo_consistent.live, rfl, demo_consistent.dims⟩⟩

/-! ## C125: changeXVector -/

/-- **C125 (refuted)** `changeXVector` writes through a null pointer for every non-empty dataset and every argument: it
never rearranges anything. -/
theorem C125_changeXVector_refuted (m : Mem T) (d : Data) (h : Consistent m d) (hne : d.points ≠ []) (idx : List Int) :
    changeXVector m d idx = .error .badPointer := by
  unfold changeXVector
  rw [if_pos]
  rw [h.msize]
  exact List.length_pos_iff.2 hne

example : ∃ (m : Mem Int) (d : Data), Consistent m d ∧ d.points ≠ [] := ⟨_, _, demo_consistent, by decide⟩

/-! ## C126: copyZero -/

/-- **C126 (partial)** `copyZero` into a default constructed dataset gives no samples, the feature names and the dimension of
the other dataset.  Missing: the answer of `isEmpty()` (`C126_isEmpty_refuted`) and datasets that hold samples
(`C126_samples_refuted`). -/
theorem C126_copyZero_partial (m : Mem T) (other : Data) :
    samples m (copyZero Data.empty other) = [] ∧ (copyZero Data.empty other).size = 0 ∧
      (copyZero Data.empty other).fnames = other.fnames ∧ (copyZero Data.empty other).mdim = other.mdim :=
  ⟨rfl, rfl, rfl, rfl⟩

/-- **C126 (refuted)** After `copyZero` from any dataset with samples, `isEmpty()` is false although there is no sample. -/
theorem C126_isEmpty_refuted (other : Data) (h : other.isEmpty = false) :
    (copyZero Data.empty other).isEmpty = false ∧ (copyZero Data.empty other).size = 0 := ⟨h, rfl⟩

/-- **C126 (refuted)** `copyZero` into a dataset that holds samples keeps them all, and the next insertion works on the old
first sample: it gets the id of the new one and its label is registered as the class. -/
theorem C126_samples_refuted :
    (∀ (m : Mem T) (self other : Data), samples m (copyZero self other) = samples m self) ∧
    (∃ m' d', insertVal demoMem (copyZero demoData demoData) ⟨[9], 7, 0, 0⟩ false = .ok (m', d', true) ∧
      labels m' d' = [1, -1, 1, 7] ∧ d'.classes = [1, -1, 1] ∧ (samples m' d').map Pt.id = [1, 2, 3, 0] ∧
      d'.msize = 1) :=
  ⟨fun _ _ _ => rfl, _, _, rfl, rfl, rfl, rfl, rfl⟩

end MLTK.Props
