import Verif.Lemmas.DataRemove
/-!
# C03, C04, C68: removing points
-/
namespace MLTK.Props
open MLTK MLTK.Data MLTK.Spec

variable {T : Type}

/-! ## Histories of insertions and removals -/

/-- One public call that changes the set of points. -/
inductive PointOp (T : Type) where
  | insert (op : InsOp T)
  | remove (pid : Int)

/-- Execute a history of such calls. -/
def runOps (m : Mem T) (d : Data) : List (PointOp T) → Res (Mem T × Data)
  | [] => .ok (m, d)
  | .insert op :: ops => do
    let (m, d, _) ← op.exec m d
    runOps m d ops
  | .remove pid :: ops => do
    let (d, _) ← removePoint m d pid
    runOps m d ops

/-- **C03 (bookkeeping invariant)** After every history of insertions and removals that does not run
into undefined behaviour, the size counter, the class list and the class distribution agree with the
samples stored. -/
theorem C03_history_consistent (m0 : Mem T) (d0 : Data) (h0 : Consistent m0 d0)
    (ops : List (PointOp T)) (m : Mem T) (d : Data) (hrun : runOps m0 d0 ops = .ok (m, d)) :
    Consistent m d := by
  induction ops generalizing m0 d0 with
  | nil => simp [runOps] at hrun; obtain ⟨rfl, rfl⟩ := hrun; exact h0
  | cons op ops ih =>
    cases op with
    | insert op =>
      have key : ∀ (m1 : Mem T) (r : Nat) (k : Bool), Consistent m1 d0 →
          (do let x ← insertPtr m1 d0 r k; runOps x.1 x.2.1 ops) = .ok (m, d) → Consistent m d := by
        intro m1 r k hc he
        cases hr : m1[r]? with
        | none => simp [insertPtr, deref, hr] at he
        | some p =>
          rcases insertPtr_consistent hc hr k with ⟨_, _, e⟩ | ⟨_, m', d', e, hc', _⟩
          · rw [e] at he; exact ih m1 d0 hc he
          · rw [e] at he; exact ih m' d' hc' he
      cases op with
      | val p k => exact key (m0 ++ [p]) m0.length k (consistent_alloc h0 [p]) hrun
      | ptr r k => exact key m0 r k h0 hrun
    | remove pid =>
      simp only [runOps] at hrun
      by_cases hemp : d0.points = []
      · have : d0.msize = 0 := by rw [h0.msize, hemp]; rfl
        simp [removePoint, this] at hrun
      · have hL : (samples m0 d0).length = d0.points.length := (h0.livePts).length
        have hne : samples m0 d0 ≠ [] := by
          intro he; rw [he] at hL; exact hemp (List.length_eq_zero_iff.1 hL.symm)
        obtain ⟨last, hlast⟩ : ∃ last, (samples m0 d0).getLast? = some last :=
          ⟨_, List.getLast?_eq_some_getLast hne⟩
        by_cases hc : d0.size = 1 ∨ pid ≤ 0 ∨ (last.id : Int) < pid
        · rw [removePoint_refused h0 hlast hc] at hrun
          exact ih m0 d0 h0 hrun
        · have h2 : 2 ≤ d0.size := by
            have : 0 < d0.points.length := List.length_pos_iff.2 hemp
            unfold size at *; omega
          by_cases hp : ∃ p ∈ samples m0 d0, (p.id : Int) = pid
          · obtain ⟨p, hp1, hp2⟩ := hp
            have hfi : ((samples m0 d0).findIdx? (fun p => p.id == pid.toNat)).isSome := by
              rw [List.findIdx?_isSome, List.any_eq_true]
              exact ⟨p, hp1, by simp; omega⟩
            obtain ⟨k, hk⟩ := Option.isSome_iff_exists.1 hfi
            obtain ⟨d', e, _, hc', _⟩ := removePoint_present h0 h2 hlast (by omega) (by omega) hk
            rw [e] at hrun
            exact ih m0 d' hc' hrun
          · rw [removePoint_absent h0 h2 hlast (by omega) (by omega)
              (fun p hp1 hp2 => hp ⟨p, hp1, hp2⟩)] at hrun
            simp at hrun

/-- A non-trivial successful history: four insertions, two removals. -/
example : ∃ m d, runOps (T := Int) [] Data.empty
    [.insert (.val ⟨[1], 1, 0, 0⟩ false), .insert (.val ⟨[2], -1, 0, 0⟩ false),
     .insert (.val ⟨[3], 1, 0, 0⟩ false), .remove 1, .insert (.val ⟨[4], 7, 0, 0⟩ false), .remove 2]
      = .ok (m, d) ∧ d.classes = [1, -1, 7] ∧ d.dist = [1, 0, 1] ∧ (samples m d).length = 2 :=
  ⟨_, _, rfl, rfl, rfl, rfl⟩

/-! ## C03: one removal -/

/-- **C03 (partial)** Removing an id that is present succeeds, deletes exactly the first sample
with that id, keeps all others in order and keeps the class counts right.
Missing w.r.t. the full statement: it needs the id not to exceed the id of the *last* sample
(see `C03_present_but_refused`), and an absent id is not reported (see `C03_absent_undefined`). -/
theorem C03_remove_present_partial (m : Mem T) (d : Data) (h : Consistent m d) (pid : Nat) (k : Nat)
    (last : Pt T) (h2 : 2 ≤ d.size) (hlast : (samples m d).getLast? = some last)
    (h0 : 0 < pid) (hle : pid ≤ last.id)
    (hk : (samples m d).findIdx? (fun p => p.id == pid) = some k) :
    ∃ d', removePoint m d pid = .ok (d', true) ∧
      samples m d' = (samples m d).eraseIdx k ∧ d'.size + 1 = d.size ∧
      d'.classes = d.classes ∧ Counts (labels m d') d'.classes d'.dist ∧ Consistent m d' := by
  obtain ⟨d', e1, e2, e3, e4, _⟩ := removePoint_present h (pid := pid) h2 hlast (by omega) (by omega)
    (by simpa using hk)
  refine ⟨d', e1, e2, ?_, e4, e3.counts, e3⟩
  have hl := congrArg List.length e2
  have hL := (h.livePts).length
  have hL' := (e3.livePts).length
  have hkl := (List.findIdx?_eq_some_iff_getElem.1 hk).1
  rw [List.length_eraseIdx, if_pos hkl] at hl
  simp only [samples_eq_pts] at hl hkl
  unfold size
  omega

/-- Non-vacuity: a reachable dataset and a present id. -/
example : ∃ m d, runOps (T := Int) [] Data.empty
    [.insert (.val ⟨[1], 1, 0, 0⟩ false), .insert (.val ⟨[2], -1, 0, 0⟩ false)] = .ok (m, d) ∧
    (samples m d).getLast? = some ⟨[2], -1, 0, 2⟩ ∧
    (samples m d).findIdx? (fun p => p.id == 1) = some 0 ∧ 2 ≤ d.size :=
  ⟨_, _, rfl, rfl, rfl, by decide⟩

/-- **C03 (refuted half)** Whenever the dataset has two or more samples and the id is absent but not
larger than the last sample's id, the call does not return `false`: it uses an uninitialised label
(undefined behaviour). -/
theorem C03_absent_undefined (m : Mem T) (d : Data) (h : Consistent m d) (pid : Nat)
    (last : Pt T) (h2 : 2 ≤ d.size) (hlast : (samples m d).getLast? = some last)
    (h0 : 0 < pid) (hle : pid ≤ last.id) (habs : ∀ p ∈ samples m d, p.id ≠ pid) :
    removePoint m d pid = .error .uninit :=
  removePoint_absent h h2 hlast (by omega) (by omega) (fun p hp => by have := habs p hp; omega)

/-- Such a situation is reachable: remove the same id twice. -/
theorem C03_absent_reachable :
    runOps (T := Int) [] Data.empty
      [.insert (.val ⟨[1], 1, 0, 0⟩ false), .insert (.val ⟨[2], 1, 0, 0⟩ false),
       .insert (.val ⟨[3], 1, 0, 0⟩ false), .remove 2, .remove 2] = .error .uninit := rfl

/-- **C03 (refuted half)** A present id larger than the id of the last sample is refused, whatever
the dataset (ids are unordered after a shuffle or with `keepIndex`). -/
theorem C03_present_but_refused (m : Mem T) (d : Data) (h : Consistent m d) (pid : Nat)
    (last : Pt T) (hlast : (samples m d).getLast? = some last) (hgt : last.id < pid) :
    removePoint m d pid = .ok (d, false) :=
  removePoint_refused h hlast (Or.inr (Or.inr (by omega)))

/-- Reachable witness: id 9 is present but cannot be removed. -/
example : ∃ m d, runOps (T := Int) [] Data.empty
    [.insert (.val ⟨[1], 1, 0, 9⟩ true), .insert (.val ⟨[2], 1, 0, 3⟩ true)] = .ok (m, d) ∧
    (∃ p ∈ samples m d, p.id = 9) ∧ removePoint m d 9 = .ok (d, false) :=
  ⟨_, _, rfl, ⟨⟨[1], 1, 0, 9⟩, by decide, rfl⟩, rfl⟩

/-! ## C68: ids stay unique -/

/-- **C68 (refuted)** Insertions after a removal reuse an id that is still in use: ids do not
identify samples. -/
theorem C68_ids_not_unique : ∃ m d, runOps (T := Int) [] Data.empty
    [.insert (.val ⟨[1], 1, 0, 0⟩ false), .insert (.val ⟨[2], 1, 0, 0⟩ false),
     .insert (.val ⟨[3], 1, 0, 0⟩ false), .remove 1, .insert (.val ⟨[4], 1, 0, 0⟩ false)] = .ok (m, d) ∧
    ¬ ((samples m d).map Pt.id).Nodup :=
  ⟨_, _, rfl, by decide⟩

/-- **C68 (partial)** Without removals and without `keepIndex`, ids stay unique: they are `1..n`. -/
theorem C68_ids_unique_partial (m0 : Mem T) (ps : List (Pt T)) :
    ∃ m d flags, runInserts m0 Data.empty (ps.map (fun p => .val p false)) = .ok (m, d, flags) ∧
      (samples m d).map Pt.id = (List.range (samples m d).length).map (· + 1) ∧
      ((samples m d).map Pt.id).Nodup := by
  obtain ⟨m, d, flags, hr, hs⟩ := run_exact (ps.map (fun p => InsOp.val p false)) m0
    (firstDim (given m0 (ps.map (fun p => InsOp.val p false)))) m0 Data.empty
    (inv_empty m0) (by simp [Data.empty]) (fun h => absurd rfl h) (by
      intro _ op p ho hp
      cases ps with
      | nil => simp at ho
      | cons o os =>
        simp at ho; subst ho
        simp only [InsOp.payload, Option.some.injEq] at hp
        simp [firstDim, given, InsOp.payload, hp])
    (by simp [InsOp.payload]) (by
      have : (ps.map (fun p => InsOp.val p false)).filterMap InsOp.ref? = [] := by
        rw [List.filterMap_eq_nil_iff]; simp [InsOp.ref?]
      rw [this]; exact List.nodup_nil) (by
      intro r hr; simp [InsOp.ref?] at hr)
  refine ⟨m, d, flags, hr, ?_⟩
  have hid : (samples m d).map Pt.id = (List.range (samples m d).length).map (· + 1) := by
    rw [hs]
    simp only [samples, Data.empty, List.filterMap_nil, List.nil_append, List.length_nil]
    have hkeep : ∀ g ∈ (given m0 (ps.map (fun p => InsOp.val p false))), g.2 = false := by
      intro g hg
      simp [given, InsOp.payload, InsOp.keep] at hg
      obtain ⟨a, _, rfl⟩ := hg; rfl
    apply List.ext_getElem
    · simp
    · intro i h1 h2
      simp only [List.getElem_map, List.getElem_zipIdx, List.getElem_range, Nat.zero_add]
      rw [if_neg]
      have := hkeep _ (List.mem_filter.1 (List.getElem_mem (l := List.filter _ _) (n := i)
        (by simpa using h1))).1
      simpa using this
  refine ⟨hid, ?_⟩
  rw [hid]
  exact List.Nodup.map (fun a b h => Nat.succ.inj h) List.nodup_range

/-! ## C04: removing many points -/

/-- **C04 (partial)** If the listed ids are positive and at least one sample is not listed, then
`removePoints` deletes exactly the samples whose id is listed, keeps the order of the others and the
class counts; for duplicate-free ids the returned flags mark exactly the absent ids, in *ascending id
order*.  Missing: deleting every sample (`C04_remove_all_refuted`) and flags in the caller's order
(`C04_flags_order_refuted`). -/
theorem C04_removePoints_partial (m : Mem T) (d : Data) (h : Consistent m d) (ids : List Int)
    (hpos : ∀ i ∈ ids, 0 < i) (hleft : ∃ p ∈ samples m d, (p.id : Int) ∉ ids) :
    ∃ d' flags, removePoints m d ids = .ok (d', flags) ∧
      samples m d' = (samples m d).filter (fun p => (p.id : Int) ∉ ids) ∧
      Consistent m d' ∧
      (ids.Nodup → flags = (ids.insertionSort (· ≤ ·)).map
        (fun i => !((samples m d).any (fun p => (p.id : Int) == i)))) := by
  have hperm : (ids.insertionSort (· ≤ ·)).Perm ids := List.perm_insertionSort _ _
  have hmem : ∀ i, i ∈ ids.insertionSort (· ≤ ·) ↔ i ∈ ids := fun i => hperm.mem_iff
  obtain ⟨d', nf, e1, e2, e3, e4, e5, e6, e7, e8, e9⟩ :=
    removeLoop_ok (ids.insertionSort (· ≤ ·))
      (fun i hi => hpos i ((hmem i).1 hi)) d.points [] d
      (List.replicate (ids.insertionSort (· ≤ ·)).length true)
      h.livePts (by intro r hr; simp at hr) (by simp [h.msize]) (by simpa [labels, samples_eq_pts] using h.counts)
      (fun _ => by
        obtain ⟨p, hp, hpi⟩ := hleft
        exact ⟨p, hp, fun hh => hpi ((hmem _).1 hh)⟩)
  have hs : samples m d' = (samples m d).filter (fun p => (p.id : Int) ∉ ids) := by
    rw [samples_eq_pts, e2, List.nil_append, pts_filter h.livePts]
    apply List.filter_congr
    intro p _
    simp [hmem]
  have hlive : Live m d'.points := by
    rw [e2]
    exact h.livePts.sublist (fun q hq => by
      rw [List.nil_append] at hq; exact (List.mem_filter.1 hq).1)
  have hcount := e4
  refine ⟨d', nf, e1, hs, ⟨hlive, e3, ?_, hcount, ?_, ?_⟩, ?_⟩
  · have := h.cls; unfold isClassification at *; rw [e8]; exact this
  · intro p hp
    rw [e7]
    rw [hs] at hp
    exact h.dims p (List.mem_filter.1 hp).1
  · intro he
    obtain ⟨p, hp, hpi⟩ := hleft
    have : p ∈ samples m d' := by rw [hs]; simp [hp, hpi]
    rw [samples_eq_pts, he] at this
    simp at this
  · intro hn
    rw [e9, flags_spec _ (hperm.nodup_iff.2 hn) _ _ (by simp)]
    exact zip_replicate_true _ (fun i => !((pts m d.points).any (fun p => (p.id : Int) == i)))

/-- Non-vacuity on a reachable dataset, with an absent id in the list. -/
example : ∃ m d, runOps (T := Int) [] Data.empty
    [.insert (.val ⟨[1], 1, 0, 0⟩ false), .insert (.val ⟨[2], -1, 0, 0⟩ false),
     .insert (.val ⟨[3], 1, 0, 0⟩ false)] = .ok (m, d) ∧
    (∃ p ∈ samples m d, (p.id : Int) ∉ [3, 9, 1]) ∧
    ∃ d', removePoints m d [3, 9, 1] = .ok (d', [false, false, true]) ∧
      (samples m d').map Pt.id = [2] ∧ d'.dist = [0, 1] :=
  ⟨_, _, rfl, ⟨⟨[2], -1, 0, 2⟩, by decide, by decide⟩, _, rfl, rfl, rfl⟩

/-- **C04 (refuted)** Listing every id empties the point vector but leaves the size counter at 1 and
the class distribution with a phantom sample. -/
theorem C04_remove_all_refuted : ∃ m d d' f, runOps (T := Int) [] Data.empty
    [.insert (.val ⟨[1], 1, 0, 0⟩ false), .insert (.val ⟨[2], -1, 0, 0⟩ false)] = .ok (m, d) ∧
    removePoints m d [1, 2] = .ok (d', f) ∧ d'.size = 0 ∧ d'.msize = 1 ∧ d'.dist = [0, 1] :=
  ⟨_, _, _, _, rfl, rfl, rfl, rfl, rfl⟩

/-- **C04 (refuted)** The flags follow the sorted ids, not the caller's list: for `ids = [9, 1]`, where
only 9 is missing, the first flag (belonging to 9) says "found". -/
theorem C04_flags_order_refuted : ∃ m d d', runOps (T := Int) [] Data.empty
    [.insert (.val ⟨[1], 1, 0, 0⟩ false), .insert (.val ⟨[2], -1, 0, 0⟩ false)] = .ok (m, d) ∧
    removePoints m d [9, 1] = .ok (d', [false, true]) :=
  ⟨_, _, _, rfl, rfl⟩

end MLTK.Props
