import Verif.Lemmas.DataUpdate
import Verif.Props.DataRemove
/-!
# C05-C08, C14, C15, C69: copies, aliasing, joining, shuffling, relabelling, clearing
-/
namespace MLTK.Props
open MLTK MLTK.Data MLTK.Spec

variable {T : Type}

/-- A reachable three-sample dataset used in the examples below. -/
def demoOps : List (PointOp Int) :=
  [.insert (.val ⟨[1], 1, 0, 0⟩ false), .insert (.val ⟨[2], -1, 0, 0⟩ false),
   .insert (.val ⟨[3], 1, 0, 0⟩ false)]

/-- The heap of the demo. -/
def demoMem : Mem Int := [⟨[1], 1, 0, 1⟩, ⟨[2], -1, 0, 2⟩, ⟨[3], 1, 0, 3⟩]

/-- The dataset of the demo. -/
def demoData : Data :=
  { points := [0, 1, 2], fnames := [1], index := [0, 1, 2], classNames := ["1", "-1"],
    classes := [1, -1], dist := [2, 1], msize := 3, mdim := 1, isEmpty := false }

theorem demo_reached : runOps [] Data.empty demoOps = .ok (demoMem, demoData) := rfl

theorem demo_consistent : Consistent demoMem demoData :=
  C03_history_consistent [] Data.empty (inv_empty []).consistent demoOps _ _ demo_reached

/-- **C05** `copy()` shows the same samples (features, labels, ids, alphas, order) and the same class
table; afterwards, no sequence of writes through the copy is visible through the original and no
sequence of writes through the original is visible through the copy. -/
theorem C05_copy_independent (m : Mem T) (d : Data) (h : Consistent m d) :
    ∃ m' c, copy m d = .ok (m', c) ∧ samples m' c = samples m d ∧ samples m' d = samples m d ∧
      c.classes = d.classes ∧ c.dist = d.dist ∧ c.fnames = d.fnames ∧ Consistent m' c ∧
      (∀ ws : List (Nat × Pt T), (∀ w ∈ ws, w.1 ∈ c.points) →
        samples (writes m' ws) d = samples m d) ∧
      (∀ ws : List (Nat × Pt T), (∀ w ∈ ws, w.1 ∈ d.points) →
        samples (writes m' ws) c = samples m d) := by
  obtain ⟨c, e, hp, h1, h2, h3, h4, h5, h6, h7, _⟩ := copy_ok h
  have hs := copy_samples h hp
  have hd : samples (m ++ samples m d) d = samples m d := by
    rw [samples_eq_pts, h.livePts.pts_append_mem]; rfl
  have hdisj : ∀ r, r ∈ c.points → r ∉ d.points := by
    intro r hr hr'
    rw [hp] at hr
    have := List.mem_range'_1.1 hr
    have := h.livePts.lt hr'
    omega
  refine ⟨_, c, e, hs, hd, h2, h3, h1, copy_consistent h hp h2 h3 h4 h5 h7, ?_, ?_⟩
  · intro ws hw
    rw [writes_samples _ _ _ (fun w hm => hdisj _ (hw w hm)), hd]
  · intro ws hw
    rw [writes_samples _ _ _ (fun w hm h' => hdisj _ h' (hw w hm)), hs]

example : ∃ (m : Mem Int) (d : Data), Consistent m d ∧ d.size = 3 := ⟨_, _, demo_consistent, rfl⟩

/-- **C05 (join)** After `a.join(b)`, the joined samples are independent of `b`: no sequence of writes
through the points `a` gained is visible through `b`, and no writes through `b` are visible in the part
of `a` that came from it. -/
theorem C05_join_independent (m : Mem T) (a b : Data) (ha : Consistent m a) (hb : Consistent m b)
    (hdim : a.mdim ≤ b.mdim) (hc : a.cdistComputed = false) :
    ∃ m' a', join m a b = .ok (m', a') ∧ samples m' b = samples m b ∧
      (∀ ws : List (Nat × Pt T), (∀ w ∈ ws, w.1 ∈ a'.points.drop a.size) →
        samples (writes m' ws) b = samples m b) ∧
      (∀ ws : List (Nat × Pt T), (∀ w ∈ ws, w.1 ∈ b.points) →
        (a'.points.drop a.size).filterMap (fun r => (writes m' ws)[r]?) = samples m b) := by
  obtain ⟨a', e, hp, hs, _⟩ := join_ok ha.counted hb.counted (dim_of_consistent hb) hdim hc
  have hd : samples (m ++ samples m b) b = samples m b := by
    rw [samples_eq_pts, hb.livePts.pts_append_mem]; rfl
  have hdrop : a'.points.drop a.size = List.range' m.length b.size := by
    rw [hp]; simp [size]
  have hdisj : ∀ r, r ∈ a'.points.drop a.size → r ∉ b.points := by
    intro r hr hr'
    rw [hdrop] at hr
    have := List.mem_range'_1.1 hr
    have := hb.livePts.lt hr'
    omega
  refine ⟨_, a', e, hd, ?_, ?_⟩
  · intro ws hw
    rw [writes_samples _ _ _ (fun w hm => hdisj _ (hw w hm)), hd]
  · intro ws hw
    have := writes_samples (m ++ samples m b) ws { a' with points := a'.points.drop a.size }
      (fun w hm h' => hdisj _ h' (hw w hm))
    refine Eq.trans this ?_
    rw [samples_eq_pts]
    simp only
    have hl : (samples m b).length = b.size := hb.livePts.length
    rw [hdrop, ← hl]
    exact pts_fresh m (samples m b)

example : ∃ m' a', join demoMem demoData demoData = .ok (m', a') ∧
    (samples m' a').length = 6 ∧ a'.dist = [4, 2] := by
  refine ⟨_, _, rfl, ?_, ?_⟩ <;> decide +kernel

/-! ## C69: assignment -/

/-- **C69 (refuted)** `operator=` makes the left side share every point of the right side: a write
through the copy is a write through the original, for every non-empty dataset. -/
theorem C69_assignment_shares (self d : Data) : (assign self d).points = d.points := rfl

/-- Concrete witness: after `b = a`, relabelling `b[0]` relabels `a[0]` while `a`'s class counts stay. -/
theorem C69_assignment_independent_refuted :
    ∃ m' b', updateValue false demoMem (assign Data.empty demoData) 0 (-1) = .ok (m', b', true) ∧
      labels m' demoData ≠ labels demoMem demoData ∧ ¬ Consistent m' demoData := by
  refine ⟨_, _, rfl, by decide, ?_⟩
  intro h
  have := h.counts.counts
  revert this
  decide

/-! ## C06 -/

/-- **C06 (refuted)** Inserting a pointer of dataset `a` into another dataset without `keepIndex`
rewrites the id seen through `a`. -/
theorem C06_source_ids_refuted :
    ∃ m' b', runInserts demoMem Data.empty [.ptr 2 false] = .ok (m', b', [true]) ∧
      (samples m' demoData).map Pt.id = [1, 2, 1] ∧ (samples demoMem demoData).map Pt.id = [1, 2, 3] :=
  ⟨_, _, rfl, rfl, rfl⟩

/-- **C06 (partial)** Insertions by value (any `keepIndex`) and by pointer with `keepIndex` leave every
dataset over the old heap unchanged, ids included.  Missing: by pointer without `keepIndex`, which
rewrites ids (`C06_source_ids_refuted`); see also `C06_source_content`. -/
theorem C06_source_unchanged_partial (ops : List (InsOp T))
    (hops : ∀ op ∈ ops, ∀ r k, op = InsOp.ptr r k → k = true)
    (m0 : Mem T) (b : Data) (hb : b.msize = b.points.length) (a : Data)
    (ha : ∀ r ∈ a.points, r < m0.length)
    (m : Mem T) (b' : Data) (fl : List Bool) (hrun : runInserts m0 b ops = .ok (m, b', fl)) :
    samples m a = samples m0 a := by
  induction ops generalizing m0 b fl with
  | nil => simp [runInserts] at hrun; rw [hrun.1]
  | cons op ops ih =>
    simp only [runInserts] at hrun
    cases he : op.exec m0 b with
    | error e => simp [he] at hrun
    | ok x =>
      obtain ⟨m1, b1, f1⟩ := x
      rw [he] at hrun
      simp only [Res_bind_ok] at hrun
      cases hrr : runInserts m1 b1 ops with
      | error e => simp [hrr] at hrun
      | ok y =>
        obtain ⟨m2, b2, f2⟩ := y
        simp [hrr] at hrun
        obtain ⟨rfl, rfl, rfl⟩ := hrun
        have step : b1.msize = b1.points.length ∧ m0.length ≤ m1.length ∧
            ∀ r < m0.length, m1[r]? = m0[r]? := by
          cases op with
          | val p k =>
            obtain ⟨h1, h2, h3, _⟩ := insertPtr_heap hb he
            refine ⟨h1, by rw [h2]; simp, fun r hr => ?_⟩
            rw [h3 r (by omega), List.getElem?_append_left hr]
          | ptr r k =>
            have hk := hops _ (by simp) r k rfl
            obtain ⟨h1, h2, _, h4⟩ := insertPtr_heap hb he
            exact ⟨h1, by rw [h4 hk], fun r _ => by rw [h4 hk]⟩
        rw [ih (fun o ho => hops o (by simp [ho])) m1 b1 step.1
          (fun r hr => Nat.lt_of_lt_of_le (ha r hr) step.2.1) f2 hrr]
        unfold samples
        apply List.filterMap_congr
        intro r hr
        exact step.2.2 r (ha r hr)

example : ∃ m' b', runInserts demoMem Data.empty [.ptr 2 true, .val ⟨[9], 5, 0, 0⟩ false]
    = .ok (m', b', [true, true]) ∧ samples m' demoData = samples demoMem demoData := ⟨_, _, rfl, rfl⟩

/-- **C06 (content)** Whatever the calls, features, labels and alphas of every dataset over the old
heap are unchanged; only ids can change. -/
theorem C06_source_content (ops : List (InsOp T)) (m0 : Mem T) (a : Data)
    (ha : ∀ r ∈ a.points, r < m0.length) (hlive : ∀ op ∈ ops, ∃ p, op.payload m0 = some p) :
    ∃ m b fl, runInserts m0 Data.empty ops = .ok (m, b, fl) ∧
      (samples m a).map content = (samples m0 a).map content := by
  obtain ⟨m, d, flags, hr, _, ⟨e, he⟩, _⟩ :=
    run_general ops m0 m0 Data.empty (inv_empty m0) ⟨[], by simp [SameUpToIds]⟩ hlive
  refine ⟨m, d, flags, hr, ?_⟩
  have h1 := he.samples a
  have hv : Valid m0 a := ha
  rw [samples_alloc hv] at h1
  exact h1.symm

/-! ## C07 -/

/-- **C07 (partial)** `a.join(b)` for consistent datasets, `b`'s dimension being at least `a`'s: own
samples first and in order, then `b`'s in order with their ids; the classes are `a`'s followed by
`b`'s missing ones; the distribution counts the joined samples.  Missing: it needs the flag "class
distribution computed" of `a` to be off, which is not the case for datasets loaded from a file
(`C07_loaded_counts_refuted`). -/
theorem C07_join_partial (m : Mem T) (a b : Data) (ha : Consistent m a) (hb : Consistent m b)
    (hdim : a.mdim ≤ b.mdim) (hc : a.cdistComputed = false) :
    ∃ m' a' extra, join m a b = .ok (m', a') ∧
      samples m' a' = samples m a ++ samples m b ∧
      a'.classes = a.classes ++ extra ∧ extra.Nodup ∧
      (∀ c, c ∈ extra ↔ c ∈ b.classes ∧ c ∉ a.classes) ∧
      Counts (labels m' a') a'.classes a'.dist ∧ a'.size = a.size + b.size ∧
      a'.msize = a.size + b.size ∧
      (a.mdim = b.mdim → Consistent m' a') := by
  obtain ⟨a', e, hp, hs, hcl, hmd, ht, _, _, _, _, _, hC⟩ :=
    join_ok ha.counted hb.counted (dim_of_consistent hb) hdim hc
  have hsz : a'.size = a.size + b.size := by simp [size, hp]
  refine ⟨_, a', _, e, hs, hcl, ?_, ?_, hC.counts, hsz, by rw [hC.msize]; exact hsz, ?_⟩
  · exact List.Nodup.filter _ ((List.perm_insertionSort _ _).nodup_iff.2 hb.counts.nodup)
  · intro c; simp
  · intro hEq
    refine ⟨hC.live, hC.msize, hC.cls, hC.counts, ?_, ?_⟩
    · intro p hp'
      rw [hs, List.mem_append] at hp'
      rw [hmd]
      rcases hp' with h | h
      · exact ha.dims p h
      · rw [hb.dims p h, hEq]
    · intro h0
      rw [hmd]; apply ha.mdim0
      rw [hp, List.append_eq_nil_iff] at h0
      exact h0.1

example : Consistent demoMem demoData ∧ demoData.mdim ≤ demoData.mdim ∧
    demoData.cdistComputed = false := ⟨demo_consistent, by decide, rfl⟩

/-- **C07 (refuted)** When `a`'s "distribution computed" flag is set (it is after loading a file:
Data.hpp 628-679), every joined dataset reports zero samples in every class. -/
theorem C07_loaded_counts_refuted (m : Mem T) (a b : Data) (ha : Consistent m a) (hb : Consistent m b)
    (hdim : a.mdim ≤ b.mdim) (hc : a.cdistComputed = true) (hne : b.points ≠ []) :
    ∃ m' a', join m a b = .ok (m', a') ∧ samples m' a' = samples m a ++ samples m b ∧
      a'.dist = List.replicate a'.classes.length 0 ∧
      ¬ Counts (labels m' a') a'.classes a'.dist := by
  obtain ⟨a', e, hs, hd⟩ := join_stale ha.counted hb.counted (dim_of_consistent hb) hdim hc
  refine ⟨_, a', e, hs, hd, ?_⟩
  intro hC
  obtain ⟨r, rs, hr⟩ : ∃ r rs, b.points = r :: rs := List.exists_cons_of_ne_nil hne
  obtain ⟨p, hp⟩ := hb.live r (by simp [hr])
  have hmem : p ∈ samples m b := by simp [samples, hr, hp]
  have hlab : p.y ∈ labels (m ++ samples m b) a' := by
    rw [labels, hs]; exact List.mem_map.2 ⟨p, by simp [hmem], rfl⟩
  have hcls := hC.covers _ hlab
  have hcnt := hC.counts
  rw [hd] at hcnt
  have : (labels (m ++ samples m b) a').count p.y
      ∈ a'.classes.map (fun c => (labels (m ++ samples m b) a').count c) :=
    List.mem_map.2 ⟨p.y, hcls, rfl⟩
  rw [← hcnt] at this
  have h0 := (List.mem_replicate.1 this).2
  exact (List.count_eq_zero.1 h0) hlab

example : Consistent demoMem { demoData with cdistComputed := true } :=
  ⟨demo_consistent.live, rfl, rfl, demo_consistent.counts, demo_consistent.dims, by simp [demoData]⟩

/-- **C07 (refuted)** Joining an empty dataset to a non-empty one ends the process. -/
theorem C07_join_empty_exits (m : Mem T) (a : Data) (ha : 0 < a.mdim) :
    join m a Data.empty = .error .exit1 := by
  simp [join, dim, Data.empty, ha]

/-! ## C08 -/

/-- **C08** For every outcome of the generator (any rearrangement of the pointer vector), `shuffle`
permutes the samples, keeps size, classes, distribution and consistency, and resets the index. -/
theorem C08_shuffle_permutes (m : Mem T) (d : Data) (h : Consistent m d)
    (hidx : d.index.length = d.size) (σ : List Nat → List Nat) (hσ : ∀ l, (σ l).Perm l) :
    ∃ d', shuffle d σ = .ok d' ∧ (samples m d').Perm (samples m d) ∧
      d'.size = d.size ∧ d'.classes = d.classes ∧ d'.dist = d.dist ∧
      d'.index = (List.range d.size).map Int.ofNat ∧ Consistent m d' := by
  have hm : d.msize = d.index.length := by rw [hidx]; exact h.msize
  have hsh : shuffle d σ = .ok { d with points := σ d.points, index := iota 0 d.msize } := by
    unfold shuffle
    rw [if_neg (by omega)]
    simp [hm]
  have hperm : (samples m { d with points := σ d.points, index := iota 0 d.msize }).Perm (samples m d) :=
    (hσ d.points).filterMap _
  refine ⟨_, hsh, hperm, (hσ d.points).length_eq, rfl, rfl, ?_, ?_⟩
  · simp only [iota, h.msize, size]
    simp
  · refine ⟨?_, ?_, h.cls, ⟨h.counts.nodup, ?_, ?_⟩, ?_, ?_⟩
    · intro r hr; exact h.live r ((hσ d.points).mem_iff.1 hr)
    · rw [(hσ d.points).length_eq]; exact h.msize
    · intro y hy
      exact h.counts.covers y ((hperm.map Pt.y).mem_iff.1 hy)
    · rw [h.counts.counts]
      apply List.map_congr_left
      intro c _
      exact ((hperm.map Pt.y).count_eq c).symm
    · intro p hp
      exact h.dims p (hperm.mem_iff.1 hp)
    · intro h0
      apply h.mdim0
      have := (hσ d.points).length_eq
      rw [show σ d.points = [] from h0] at this
      exact List.length_eq_zero_iff.1 this.symm

/-- The hypotheses hold for a reachable dataset and a non-identity rearrangement. -/
example : Consistent demoMem demoData ∧ demoData.index.length = demoData.size ∧
    (∀ l : List Nat, l.reverse.Perm l) ∧
    ∃ d', shuffle demoData List.reverse = .ok d' ∧ (samples demoMem d').map Pt.id = [3, 2, 1] :=
  ⟨demo_consistent, rfl, List.reverse_perm, _, rfl, rfl⟩

/-! ## C14 -/

/-- **C14 (partial)** Relabelling point `i` to a label that is already a class: exactly that sample's
label changes, the class table and distribution agree with the new labels, and a class that lost its
last sample disappears.  Missing: labels that are new to the dataset
(`C14_new_label_counts_refuted`). -/
theorem C14_relabel_known_partial (m : Mem T) (d : Data) (h : Consistent m d) (hnd : d.points.Nodup)
    (moved : Bool) (i : Nat) (p : Pt T) (hi : (samples m d)[i]? = some p) (v : Int)
    (hv : v ∈ d.classes) :
    ∃ m' d', updateValue moved m d i v = .ok (m', d', true) ∧
      samples m' d' = (samples m d).set i { p with y := v } ∧ Consistent m' d' ∧
      d'.points.Nodup ∧
      d'.classes = d.classes.filter (fun c => c ∈ labels m' d' ∨ c ≠ p.y) := by
  obtain ⟨m', d', h1, h2, h3, h4, h5⟩ := updateValue_known h hnd moved hi hv
  exact ⟨m', d', h1, h2, h3, by rw [h4]; exact hnd, h5⟩

example : demoData.points.Nodup ∧ (samples demoMem demoData)[1]? = some ⟨[2], -1, 0, 2⟩ ∧
    (1 : Int) ∈ demoData.classes ∧
    ∃ m' d', updateValue true demoMem demoData 1 1 = .ok (m', d', true) ∧ d'.classes = [1] ∧
      d'.dist = [3] := ⟨by decide, rfl, by decide, _, _, rfl, rfl, rfl⟩

/-- **C14 (refuted)** For every dataset and every label that is not yet a class, relabelling either
runs into an invalidated iterator (if the class vector had to grow its buffer) or leaves a
distribution that counts the relabelled sample twice. -/
theorem C14_new_label_counts_refuted (m : Mem T) (d : Data) (h : Consistent m d)
    (hnd : d.points.Nodup) (i : Nat) (p : Pt T) (hi : (samples m d)[i]? = some p) (v : Int)
    (hv : v ∉ d.classes) :
    updateValue true m d i v = .error .badIterator ∧
    ∃ m' d', updateValue false m d i v = .ok (m', d', true) ∧
      samples m' d' = (samples m d).set i { p with y := v } ∧
      ¬ Counts (labels m' d') d'.classes d'.dist := by
  obtain ⟨h1, m', d', h2, h3, h4, h5, h6⟩ := updateValue_new h hnd hi hv
  refine ⟨h1, m', d', h2, h3, ?_⟩
  intro hC
  have := hC.counts
  rw [this, List.getLast?_map, h4] at h5
  simp [h6] at h5

example : demoData.points.Nodup ∧ (5 : Int) ∉ demoData.classes ∧
    ∃ m' d', updateValue false demoMem demoData 0 5 = .ok (m', d', true) ∧
      d'.classes = [1, -1, 5] ∧ d'.dist = [1, 1, 2] := ⟨by decide, by decide, _, _, rfl, rfl, rfl⟩

/-- Relabelling out of range is refused and changes nothing. -/
theorem C14_relabel_out_of_range (m : Mem T) (d : Data) (h : Consistent m d) (moved : Bool) (i : Nat)
    (v : Int) (hi : d.size ≤ i) : updateValue moved m d i v = .ok (m, d, false) := by
  have : i ≥ d.msize := by rw [h.msize]; exact hi
  simp [updateValue, this]

/-! ## C15 -/

/-- **C15 (partial)** After `clear()`, every later sequence of insertions produces the same samples,
flags, classes, names, index and counters as on a new dataset.  Missing: the class distribution
(`C15_distribution_refuted`). -/
theorem C15_clear_then_insert_partial (d : Data) (hcls : d.isClassification = true)
    (m : Mem T) (ops : List (InsOp T)) (m' : Mem T) (fresh : Data) (fl : List Bool)
    (hfresh : runInserts m Data.empty ops = .ok (m', fresh, fl)) :
    ∃ d', runInserts m (clear d) ops = .ok (m', d', fl) ∧
      samples m' d' = samples m' fresh ∧ d'.classes = fresh.classes ∧
      d'.classNames = fresh.classNames ∧ d'.index = fresh.index ∧ d'.msize = fresh.msize ∧
      d'.size = fresh.size ∧ d'.fnames = fresh.fnames ∧ d'.mdim = fresh.mdim := by
  have h0 : AgreeButDist (clear d) Data.empty :=
    ⟨rfl, rfl, rfl, rfl, rfl, rfl, rfl, hcls, rfl, by simp [clear]⟩
  obtain ⟨d', e, h⟩ := agree_run h0 hfresh
  exact ⟨d', e, by simp [samples, h.points], h.classes, h.classNames, h.index, h.msize,
    by simp [size, h.points], h.fnames, h.mdim⟩

example : demoData.isClassification = true ∧
    ∃ m' fresh, runInserts demoMem Data.empty [.val ⟨[4, 4], 3, 0, 0⟩ false] = .ok (m', fresh, [true]) :=
  ⟨rfl, _, _, rfl⟩

/-- **C15 (refuted)** `clear()` keeps the old class distribution, so the distribution after
clearing and inserting one sample is wrong whenever the old dataset had classes. -/
theorem C15_distribution_refuted (d : Data) (hcls : d.isClassification = true) (hd : d.dist ≠ [])
    (m : Mem T) (p : Pt T) :
    ∃ m' d', insertVal m (clear d) p false = .ok (m', d', true) ∧ d'.classes = [p.y] ∧
      d'.dist = d.dist ++ [1] ∧ ¬ Counts (labels m' d') d'.classes d'.dist := by
  have hc : (clear d).isClassification = true := hcls
  have hd1 : (m ++ [p])[m.length]? = some p := by simp
  have hpc : pushClass (m ++ [p]) (pushed (clear d) m.length p.x.length) p.y
      = .ok { pushed (clear d) m.length p.x.length with
              classNames := [toString p.y], classes := [p.y], dist := d.dist ++ [1] } := by
    have hc' : (pushed (clear d) m.length p.x.length).isClassification = true := hc
    have hv : vget (pushed (clear d) m.length p.x.length).points
        ((pushed (clear d) m.length p.x.length).msize - 1) = .ok m.length := by
      simp [pushed, clear]
    simp only [pushClass, hc', if_true, hv, Res_bind_ok, deref_of_get hd1]
    simp [insertClass, pushed, clear, classPos]
  have hid : ∀ q : Data, q.points = [m.length] → q.msize = 1 →
      assignId (m ++ [p]) q false = .ok ((m ++ [p]).set m.length { p with id := 1 }) := by
    intro q h1 h2
    have hv : vget q.points (q.msize - 1) = .ok m.length := by rw [h1, h2]; simp
    simp only [assignId, Bool.false_eq_true, if_false, hv, Res_bind_ok, deref_of_get hd1, Res_pure]
    rw [h2]
  refine ⟨(m ++ [p]).set m.length { p with id := 1 },
    { pushed (clear d) m.length p.x.length with
        classNames := [toString p.y], classes := [p.y], dist := d.dist ++ [1], index := [0] },
    ?_, rfl, rfl, ?_⟩
  · unfold insertVal insertPtr
    simp only [deref_of_get hd1, Res_bind_ok]
    have : dim (m ++ [p]) (clear d) = .ok 0 := rfl
    simp only [this, Res_bind_ok]
    rw [if_neg (by simp [size, clear]), hpc]
    simp only [Res_bind_ok]
    rw [hid _ (by simp [pushed, clear]) (by simp [pushed, clear])]
    simp [pushed, clear]
  · intro hC
    have := congrArg List.length hC.counts
    simp at this
    exact hd this

end MLTK.Props
