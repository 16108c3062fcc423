import Verif.Model.DataEdit
import Verif.Props.DataCopy
import Verif.Props.Features
/-!
# C198, C199: samples changed behind the dataset's back; features removed from a copy
-/
namespace MLTK.Props
open MLTK.Spec MLTK.Data

section
variable {T : Type}

private theorem filterMap_set (m : Mem T) (r : Nat) (p : Pt T) (hp : m[r]? = some p) : ∀ (l : List Nat) (i : Nat),
    (∀ r ∈ l, ∃ p, m[r]? = some p) → (l.set i r).filterMap (fun r => m[r]?) = (l.filterMap (fun r => m[r]?)).set i p
  | [], i, _ => by simp
  | a :: l, 0, h => by
    obtain ⟨q, hq⟩ := h a List.mem_cons_self
    simp [hp, hq]
  | a :: l, i + 1, h => by
    obtain ⟨q, hq⟩ := h a List.mem_cons_self
    rw [List.set_cons_succ, List.filterMap_cons, List.filterMap_cons, hq]
    simp only
    rw [filterMap_set m r p hp l i (fun r hr => h r (List.mem_cons_of_mem _ hr)), List.set_cons_succ]

private theorem samples_length {m : Mem T} : ∀ (l : List Nat), (∀ r ∈ l, ∃ p, m[r]? = some p) → (l.filterMap (fun r => m[r]?)).length = l.length
  | [], _ => rfl
  | a :: l, h => by
    obtain ⟨q, hq⟩ := h a List.mem_cons_self
    rw [List.filterMap_cons, hq]
    simp only [List.length_cons]
    rw [samples_length l (fun r hr => h r (List.mem_cons_of_mem _ hr))]

/-- **C198** `setPoint` replaces exactly the sample at that position. -/
theorem C198_set (m : Mem T) (d : Data) (h : Consistent m d) (i r : Nat) (p : Pt T) (hp : m[r]? = some p) (hi : i < d.size) :
    ∃ d', setPoint d i r = .ok d' ∧ samples m d' = (samples m d).set i p := by
  refine ⟨{ d with points := d.points.set i r }, ?_, filterMap_set m r p hp d.points i h.live⟩
  have : vset d.points i r = .ok (d.points.set i r) := by
    have hi' : i < d.points.length := hi
    simp [vset, hi']
  simp [setPoint, this, Res_bind_ok, Res_pure]

/-- **C198** outside the dataset it is an access out of bounds. -/
theorem C198_set_range (d : Data) (i : Int) (r : Nat) (hi : i < 0 ∨ (d.size : Int) ≤ i) : setPoint d i r = .error .outOfBounds := by
  unfold setPoint
  split
  · rfl
  · have h1 : ¬ i.toNat < d.points.length := by
      have : d.size = d.points.length := rfl
      omega
    simp [vset, h1, Res_bind_error]

/-- **C198 (partial)** With a sample of the same label and dimension the bookkeeping stays right.
Missing: other labels and dimensions, see the refutations. -/
theorem C198_same_partial (m : Mem T) (d d' : Data) (h : Consistent m d) (i r : Nat) (p q : Pt T) (hp : m[r]? = some p)
    (hq : (samples m d)[i]? = some q) (hy : p.y = q.y) (hx : p.x.length = d.mdim) (hs : setPoint d i r = .ok d') : Consistent m d' := by
  have hi : i < d.points.length := by
    have := (List.getElem?_eq_some_iff.1 hq).1
    rwa [samples, samples_length _ h.live] at this
  have hd : d' = { d with points := d.points.set i r } := by
    have : vset d.points i r = .ok (d.points.set i r) := by simp [vset, hi]
    rw [setPoint, if_neg (by omega), Int.toNat_natCast, this, Res_bind_ok] at hs
    cases hs
    rfl
  subst hd
  have hsam : samples m { d with points := d.points.set i r } = (samples m d).set i p := filterMap_set m r p hp d.points i h.live
  have hlab : labels m { d with points := d.points.set i r } = labels m d := by
    rw [labels, hsam, List.map_set, labels]
    apply List.ext_getElem?
    intro k
    rw [List.getElem?_set]
    split
    · next hk =>
      subst hk
      rw [List.getElem?_map, hq]
      simp [hy, (List.getElem?_eq_some_iff.1 hq).1]
    · rfl
  refine ⟨?_, ?_, h.cls, ?_, ?_, ?_⟩
  · intro s hs
    rcases List.mem_or_eq_of_mem_set hs with h1 | h1
    · exact h.live s h1
    · exact ⟨p, by rw [h1]; exact hp⟩
  · show d.msize = (d.points.set i r).length
    rw [List.length_set]; exact h.msize
  · rw [hlab]; exact h.counts
  · intro s hs
    rw [hsam] at hs
    rcases List.mem_or_eq_of_mem_set hs with h1 | h1
    · exact h.dims s h1
    · rw [h1]; exact hx
  · intro h0
    have := congrArg List.length h0
    rw [List.length_set] at this
    simp only [List.length_nil] at this
    omega

/-- **C198 (refuted)** With a sample of another label the class counts are wrong, whatever the dataset and the label. -/
theorem C198_counts_refuted (m : Mem T) (d d' : Data) (h : Consistent m d) (i r : Nat) (p q : Pt T) (hp : m[r]? = some p)
    (hq : (samples m d)[i]? = some q) (hy : p.y ≠ q.y) (hs : setPoint d i r = .ok d') :
    d'.classes = d.classes ∧ d'.dist = d.dist ∧ ¬ Counts (labels m d') d'.classes d'.dist := by
  have hi : i < d.points.length := by
    have := (List.getElem?_eq_some_iff.1 hq).1
    rwa [samples, samples_length _ h.live] at this
  have hd : d' = { d with points := d.points.set i r } := by
    have : vset d.points i r = .ok (d.points.set i r) := by simp [vset, hi]
    rw [setPoint, if_neg (by omega), Int.toNat_natCast, this, Res_bind_ok] at hs
    cases hs
    rfl
  subst hd
  refine ⟨rfl, rfl, fun hC => ?_⟩
  have hsam : samples m { d with points := d.points.set i r } = (samples m d).set i p := filterMap_set m r p hp d.points i h.live
  have hlab : labels m { d with points := d.points.set i r } = (labels m d).set i p.y := by
    rw [labels, hsam, List.map_set, labels]
  have hqy : (labels m d)[i]? = some q.y := by rw [labels, List.getElem?_map, hq]; rfl
  have hmem : q.y ∈ labels m d := List.mem_of_getElem? hqy
  have e1 := hC.counts
  have e2 := h.counts.counts
  have e3 : d.classes.map (fun c => (labels m { d with points := d.points.set i r }).count c) = d.classes.map (fun c => (labels m d).count c) :=
    e1.symm.trans e2
  have e4 := List.map_inj_left.1 e3 q.y (h.counts.covers _ hmem)
  have hlt := (List.getElem?_eq_some_iff.1 hqy).1
  rw [hlab, List.count_set hlt] at e4
  have e5 : (labels m d)[i] = q.y := (List.getElem?_eq_some_iff.1 hqy).2
  have e6 : 0 < (labels m d).count q.y := List.count_pos_iff.2 hmem
  rw [e5] at e4
  simp [hy] at e4
  omega

/-- **C198 (refuted)** A sample of another dimension is accepted. -/
theorem C198_dimension_refuted (m : Mem T) (d : Data) (h : Consistent m d) (i r : Nat) (p : Pt T) (hp : m[r]? = some p) (hi : i < d.size)
    (hx : p.x.length ≠ d.mdim) : ∃ d', setPoint d i r = .ok d' ∧ p ∈ samples m d' ∧ d'.mdim = d.mdim ∧ ¬ Consistent m d' := by
  obtain ⟨d', h1, h2⟩ := C198_set m d h i r p hp hi
  have h3 : p ∈ samples m d' := by
    rw [h2]
    exact List.mem_set (by rw [samples, samples_length _ h.live]; exact hi) p
  have h4 : d'.mdim = d.mdim := by
    unfold setPoint at h1
    split at h1
    · cases h1
    · have : vset d.points (i : Int).toNat r = .ok (d.points.set i r) := by
        have hi' : i < d.points.length := hi
        simp [vset, hi']
      rw [this] at h1
      cases h1
      rfl
  exact ⟨d', h1, h3, h4, fun hC => hx (by rw [← h4]; exact hC.dims p h3)⟩

example : Consistent demoMem demoData ∧ demoMem[1]? = some ⟨[2], -1, 0, 2⟩ ∧ (samples demoMem demoData)[0]? = some ⟨[1], 1, 0, 1⟩ ∧
    (0 : Nat) < demoData.size := ⟨demo_consistent, rfl, rfl, by decide⟩

/-! ### apply -/

/-- **C198** After `apply(f)` every sample in memory has been changed by `f` as often as the dataset holds it; so a sample held once is changed
once, and samples the dataset does not hold are as before. -/
theorem C198_apply (f : Pt T → Pt T) : ∀ (rs : List Nat) (m : Mem T), (∀ r ∈ rs, ∃ p, m[r]? = some p) →
    ∃ m', applyAll m f rs = .ok m' ∧ ∀ r : Nat, m'[r]? = (m[r]?).map f^[rs.count r]
  | [], m, _ => ⟨m, rfl, fun r => by simp⟩
  | a :: rs, m, h => by
    obtain ⟨p, hp⟩ := h a List.mem_cons_self
    have halt := (List.getElem?_eq_some_iff.1 hp).1
    obtain ⟨m', h1, h2⟩ := C198_apply f rs (m.set a (f p)) (fun r hr => by
      obtain ⟨q, hq⟩ := h r (List.mem_cons_of_mem _ hr)
      by_cases e : a = r
      · subst e; exact ⟨f p, by rw [List.getElem?_set_self halt]⟩
      · exact ⟨q, by rw [List.getElem?_set_ne e, hq]⟩)
    refine ⟨m', ?_, ?_⟩
    · have : deref m a = .ok p := by simp [deref, hp]
      rw [applyAll, this, Res_bind_ok, h1]
    · intro r
      rw [h2 r]
      by_cases e : a = r
      · subst e
        rw [List.getElem?_set_self halt, hp, List.count_cons_self, Option.map_some, Option.map_some, Function.iterate_succ_apply]
      · rw [List.getElem?_set_ne e, List.count_cons_of_ne e]

private theorem filterMap_map {m m' : Mem T} (f : Pt T → Pt T) : ∀ (l : List Nat), (∀ r ∈ l, m'[r]? = (m[r]?).map f) →
    l.filterMap (fun r => m'[r]?) = (l.filterMap (fun r => m[r]?)).map f
  | [], _ => rfl
  | a :: l, h => by
    rw [List.filterMap_cons, List.filterMap_cons, h a List.mem_cons_self]
    cases m[a]? with
    | none => simpa using filterMap_map f l (fun r hr => h r (List.mem_cons_of_mem _ hr))
    | some p => simpa using filterMap_map f l (fun r hr => h r (List.mem_cons_of_mem _ hr))

/-- **C198 (partial)** For a dataset that holds no sample twice: `apply(f)` changes every sample by `f`, and if `f` keeps label and dimension the bookkeeping
stays right.
Missing: functions that change labels, and samples held twice, see the refutations. -/
theorem C198_apply_partial (m : Mem T) (d : Data) (h : Consistent m d) (hnd : d.points.Nodup) (f : Pt T → Pt T) :
    ∃ m', applyAll m f d.points = .ok m' ∧ samples m' d = (samples m d).map f ∧
      ((∀ p ∈ samples m d, (f p).y = p.y ∧ (f p).x.length = p.x.length) → Consistent m' d) := by
  obtain ⟨m', h1, h2⟩ := C198_apply f d.points m h.live
  have h3 : samples m' d = (samples m d).map f := filterMap_map f d.points (fun r hr => by
    rw [h2 r, List.count_eq_one_of_mem hnd hr, Function.iterate_one])
  refine ⟨m', h1, h3, fun hf => ⟨?_, h.msize, h.cls, ?_, ?_, h.mdim0⟩⟩
  · intro r hr
    obtain ⟨p, hp⟩ := h.live r hr
    exact ⟨_, by rw [h2 r, hp]; rfl⟩
  · have : labels m' d = labels m d := by
      rw [labels, h3, labels, List.map_map]
      exact List.map_congr_left (fun p hp => (hf p hp).1)
    rw [this]; exact h.counts
  · intro p hp
    rw [h3] at hp
    obtain ⟨q, hq, rfl⟩ := List.mem_map.1 hp
    rw [(hf q hq).2]; exact h.dims q hq

/-- **C198 (refuted)** If `f` gives every sample of a non-empty dataset a label that is no class of it, the counts are wrong after `apply(f)`. -/
theorem C198_apply_labels_refuted (m : Mem T) (d : Data) (h : Consistent m d) (hne : d.points ≠ []) (hnd : d.points.Nodup)
    (f : Pt T → Pt T) (hf : ∀ p, (f p).y ∉ d.classes) :
    ∃ m', applyAll m f d.points = .ok m' ∧ ¬ Counts (labels m' d) d.classes d.dist := by
  obtain ⟨m', h1, h2, _⟩ := C198_apply_partial m d h hnd f
  refine ⟨m', h1, fun hC => ?_⟩
  obtain ⟨r, rs, hr⟩ := List.exists_cons_of_ne_nil hne
  obtain ⟨p, hp⟩ := h.live r (by rw [hr]; exact List.mem_cons_self)
  have hmem : p ∈ samples m d := List.mem_filterMap.2 ⟨r, by rw [hr]; exact List.mem_cons_self, hp⟩
  have : (f p).y ∈ labels m' d := by
    rw [labels, h2]
    exact List.mem_map.2 ⟨f p, List.mem_map.2 ⟨p, hmem, rfl⟩, rfl⟩
  exact hf p (hC.covers _ this)

/-- **C198 (refuted)** A sample inserted twice is changed twice. -/
theorem C198_apply_twice_refuted : ∃ (m m' : Mem Int) (d : Data), Consistent m d ∧ samples m d = [⟨[1], 1, 0, 1⟩, ⟨[1], 1, 0, 1⟩] ∧
    applyAll m (fun p => { p with x := p.x.map (· * 10) }) d.points = .ok m' ∧ samples m' d = [⟨[100], 1, 0, 1⟩, ⟨[100], 1, 0, 1⟩] := by
  refine ⟨[⟨[1], 1, 0, 1⟩], [⟨[100], 1, 0, 1⟩],
    { points := [0, 0], index := [0, 1], classes := [1], dist := [2], classNames := ["1"], fnames := [1], msize := 2, mdim := 1 }, ?_, rfl, rfl, rfl⟩
  refine ⟨?_, rfl, by decide, ⟨by decide, by decide, by decide⟩, by decide, by decide⟩
  intro r hr
  have : r = 0 := by simpa using hr
  subst this
  exact ⟨_, rfl⟩

end

/-! ## C199 -/

section
open MLTK.Feat
variable {T : Type}

/-- **C199 (partial)** `removeFeatures(feats, n)` on an aligned dataset with more than one feature: the result lacks exactly the first `n` of the
features (all of them for -1), if none of those is listed twice.
Missing: datasets with one feature (`C199_single_refuted`), and numbers beyond the list (`C199_range`). -/
theorem C199_partial (d : Tbl T) (feats : List Int) (n : Int) (hd : Aligned d) (h1 : d.fnames.length ≠ 1)
    (hn : n = -1 ∨ 0 ≤ n ∧ n ≤ feats.length) (gone : List Int) (hg : gone = if n = -1 then feats else feats.take n.toNat)
    (hnd : (gone.filter (· ∈ d.fnames)).Nodup) :
    ∃ d', removeFirst d feats n = .ok d' ∧ Aligned d' ∧ d'.fnames = d.fnames.filter (fun f => decide (f ∉ gone)) ∧
      d'.rows = d.rows.map (fun row => ((row.zip d.fnames).filter (fun p => decide (p.2 ∉ gone))).map Prod.fst) := by
  obtain ⟨d', e1, e2, e3, e4⟩ := C17_remove_partial d gone hd h1 hnd
  refine ⟨d', ?_, e2, e3, e4⟩
  unfold removeFirst
  by_cases hm : n = -1
  · rw [if_pos hm] at hg ⊢
    subst hg
    rw [e1, Res_bind_ok]
    rfl
  · rw [if_neg hm] at hg ⊢
    subst hg
    rw [if_neg (by omega), e1, Res_bind_ok]
    rfl

example : removeFirst (⟨[[10, 20, 30]], [1, 2, 3], 3⟩ : Tbl Nat) [2, 1, 3] 2 = .ok ⟨[[30]], [3], 1⟩ := by decide +kernel

/-- **C199** Asking for more features than listed, or for a negative number other than -1, reads outside the list. -/
theorem C199_range (d : Tbl T) (feats : List Int) (n : Int) (hn : n < -1 ∨ (feats.length : Int) < n) :
    removeFirst d feats n = .error .outOfBounds := by
  unfold removeFirst
  rw [if_neg (by omega), if_pos (by omega)]

/-- **C199 (refuted)** From a dataset with one feature nothing is removed, and the caller is not told. -/
theorem C199_single_refuted (d : Tbl T) (feats : List Int) (h1 : d.fnames.length = 1) : removeFirst d feats (-1) = .ok d := by
  unfold removeFirst
  rw [if_pos rfl]
  unfold removeFeatures
  by_cases hf : feats = []
  · rw [if_pos hf]; rfl
  · rw [if_neg hf, if_pos h1]; rfl

end
end MLTK.Props
