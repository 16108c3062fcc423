import Mathlib.Data.List.Basic
import Mathlib.Data.List.Nodup
import Verif.Spec.Data
namespace MLTK
open Spec
namespace Data

variable {T : Type}

@[simp] theorem Res_bind_ok {α β : Type} (a : α) (f : α → Res β) : (Except.ok a >>= f) = f a := rfl
@[simp] theorem Res_bind_error {α β : Type} (e : Fault) (f : α → Res β) :
    ((Except.error e : Res α) >>= f) = .error e := rfl
@[simp] theorem Res_pure {α : Type} (a : α) : (pure a : Res α) = .ok a := rfl

theorem deref_of_get {m : Mem T} {r : Nat} {p : Pt T} (h : m[r]? = some p) : deref m r = .ok p := by
  simp [deref, h]

theorem vget_snoc {α : Type} (l : List α) (a : α) (n : Nat) (h : n = l.length) :
    vget (l ++ [a]) n = .ok a := by subst h; simp

/-- Every pointer of the dataset is live. -/
def Valid (m : Mem T) (d : Data) : Prop := ∀ r ∈ d.points, r < m.length

theorem samples_snoc (m : Mem T) (d : Data) (ps : List Nat) (r : Nat) (p : Pt T)
    (h : m[r]? = some p) (hp : d.points = ps ++ [r]) :
    samples m d = ps.filterMap (fun r => m[r]?) ++ [p] := by
  simp [samples, hp, List.filterMap_append, h]

theorem classPos_eq_idxOf (cs : List Int) (y : Int) : classPos cs y = cs.idxOf y := rfl

theorem classPos_eq_length_iff (cs : List Int) (y : Int) :
    classPos cs y = cs.length ↔ y ∉ cs := by
  rw [classPos_eq_idxOf]; exact List.idxOf_eq_length_iff

theorem classPos_lt_iff (cs : List Int) (y : Int) : classPos cs y < cs.length ↔ y ∈ cs := by
  rw [classPos_eq_idxOf]; exact List.idxOf_lt_length_iff

theorem classPos_getElem? (cs : List Int) (y : Int) (h : y ∈ cs) :
    cs[classPos cs y]? = some y := by
  have hl := (classPos_lt_iff cs y).2 h
  rw [List.getElem?_eq_getElem hl]
  simp [classPos_eq_idxOf]

theorem classPos_of_nodup (cs : List Int) (hn : cs.Nodup) (i : Nat) (hi : i < cs.length) :
    classPos cs cs[i] = i := by
  rw [classPos_eq_idxOf]; exact hn.idxOf_getElem i hi

theorem incAt_map (cs : List Int) (f : Int → Nat) (hn : cs.Nodup) (y : Int) (h : y ∈ cs) :
    incAt (cs.map f) (classPos cs y) = .ok (cs.map (fun c => if c = y then f c + 1 else f c)) := by
  have hl := (classPos_lt_iff cs y).2 h
  have hg := classPos_getElem? cs y h
  unfold incAt
  have hv : vget (cs.map f) (classPos cs y) = .ok (f y) := by simp [hg]
  rw [hv]
  simp only [Res_bind_ok, vset, List.length_map, hl, if_true]
  congr 1
  apply List.ext_getElem
  · simp
  · intro i h1 h2
    simp only [List.getElem_set, List.getElem_map]
    have hi : i < cs.length := by simpa using h2
    by_cases hc : classPos cs y = i
    · have : cs[i] = y := by
        subst hc
        rw [List.getElem?_eq_getElem hl] at hg
        simpa using hg
      simp [hc, this]
    · have : cs[i] ≠ y := by
        intro he
        apply hc
        rw [← he, classPos_of_nodup cs hn i hi]
      simp [hc, this]

theorem decAt_map (cs : List Int) (f : Int → Nat) (hn : cs.Nodup) (y : Int) (h : y ∈ cs) :
    decAt (cs.map f) (classPos cs y)
      = .ok (cs.map (fun c => if c = y then decSize (f c) else f c)) := by
  have hl := (classPos_lt_iff cs y).2 h
  have hg := classPos_getElem? cs y h
  unfold decAt
  have hv : vget (cs.map f) (classPos cs y) = .ok (f y) := by simp [hg]
  rw [hv]
  simp only [Res_bind_ok, vset, List.length_map, hl, if_true]
  congr 1
  apply List.ext_getElem
  · simp
  · intro i h1 h2
    simp only [List.getElem_set, List.getElem_map]
    have hi : i < cs.length := by simpa using h2
    by_cases hc : classPos cs y = i
    · have : cs[i] = y := by
        subst hc
        rw [List.getElem?_eq_getElem hl] at hg
        simpa using hg
      simp [hc, this]
    · have : cs[i] ≠ y := by
        intro he
        apply hc
        rw [← he, classPos_of_nodup cs hn i hi]
      simp [hc, this]

/-- Class tables grow correctly: unknown label. -/
theorem ClassTable.push_new {ls cs : List Int} {ds : List Nat} (h : ClassTable ls cs ds) {y : Int}
    (hy : y ∉ cs) : ClassTable (ls ++ [y]) (cs ++ [y]) (ds ++ [1]) := by
  have hyl : y ∉ ls := fun hh => hy ((h.mem y).2 hh)
  refine ⟨?_, ?_, ?_⟩
  · rw [List.nodup_append]
    refine ⟨h.nodup, by simp, ?_⟩
    intro a ha b hb
    simp at hb; subst hb
    intro he; subst he; exact hy ha
  · intro c; simp [h.mem c]
  · rw [h.counts]
    simp only [List.map_append, List.map_cons, List.map_nil]
    congr 1
    · apply List.map_congr_left
      intro c hc
      have : y ≠ c := by intro he; subst he; exact hy hc
      simp [List.count_append, this]
    · simp [List.count_append, List.count_eq_zero_of_not_mem hyl]

/-- Class tables grow correctly: known label. -/
theorem ClassTable.push_old {ls cs : List Int} {ds : List Nat} (h : ClassTable ls cs ds) {y : Int}
    (hy : y ∈ cs) :
    ∃ ds', incAt ds (classPos cs y) = .ok ds' ∧ ClassTable (ls ++ [y]) cs ds' := by
  refine ⟨cs.map (fun c => if c = y then ls.count c + 1 else ls.count c), ?_, ?_⟩
  · rw [h.counts]
    exact incAt_map cs (fun c => ls.count c) h.nodup y hy
  · refine ⟨h.nodup, ?_, ?_⟩
    · intro c
      rw [h.mem c]
      simp only [List.mem_append, List.mem_singleton]
      constructor
      · exact Or.inl
      · rintro (h1 | h1)
        · exact h1
        · subst h1; exact (h.mem c).1 hy
    · apply List.map_congr_left
      intro c _
      by_cases hc : c = y
      · subst hc; simp [List.count_append]
      · have : y ≠ c := fun he => hc he.symm
        simp [List.count_append, hc, this]

theorem idxOf_append_left {ls : List Int} {a y : Int} (h : a ∈ ls) :
    (ls ++ [y]).idxOf a = ls.idxOf a := List.idxOf_append_of_mem h

theorem FirstAppearance.push_old {ls cs : List Int} {y : Int} (h : FirstAppearanceOrder ls cs)
    (hm : ∀ c, c ∈ cs ↔ c ∈ ls) : FirstAppearanceOrder (ls ++ [y]) cs := by
  unfold FirstAppearanceOrder at *
  refine List.Pairwise.imp_of_mem ?_ h
  intro a b ha hb hlt
  rw [idxOf_append_left ((hm a).1 ha), idxOf_append_left ((hm b).1 hb)]
  exact hlt

theorem FirstAppearance.push_new {ls cs : List Int} {y : Int} (h : FirstAppearanceOrder ls cs)
    (hm : ∀ c, c ∈ cs ↔ c ∈ ls) (hy : y ∉ cs) :
    FirstAppearanceOrder (ls ++ [y]) (cs ++ [y]) := by
  unfold FirstAppearanceOrder at *
  rw [List.pairwise_append]
  refine ⟨FirstAppearance.push_old h hm, by simp, ?_⟩
  intro a ha b hb
  simp at hb; subst hb
  have hal := (hm a).1 ha
  have hbl : b ∉ ls := fun hh => hy ((hm b).2 hh)
  rw [idxOf_append_left hal, List.idxOf_append_of_notMem hbl]
  have := List.idxOf_lt_length_of_mem hal
  omega

/-- `insertClass` keeps a correct table correct, in first-appearance order. -/
theorem insertClass_ok (d : Data) (ls : List Int) (y : Int)
    (h : ClassTable ls d.classes d.dist) :
    ∃ d', insertClass d y y = .ok d' ∧
      d' = { d with classes := d'.classes, classNames := d'.classNames, dist := d'.dist } ∧
      ClassTable (ls ++ [y]) d'.classes d'.dist ∧
      (FirstAppearanceOrder ls d.classes → FirstAppearanceOrder (ls ++ [y]) d'.classes) ∧
      (d.classNames = d.classes.map toString → d'.classNames = d'.classes.map toString) := by
  unfold insertClass
  by_cases hy : y ∈ d.classes
  · have hne : classPos d.classes y ≠ d.classes.length := by
      intro he; exact (classPos_eq_length_iff _ _).1 he hy
    obtain ⟨ds', h1, h2⟩ := ClassTable.push_old h hy
    refine ⟨{ d with dist := ds' }, ?_, rfl, h2, ?_, fun hh => hh⟩
    · simp [hne, h1]
    · exact fun hf => FirstAppearance.push_old hf h.mem
  · have he := (classPos_eq_length_iff d.classes y).2 hy
    refine ⟨_, by simp only [he, if_true]; rfl, rfl, ClassTable.push_new h hy, ?_, ?_⟩
    · exact fun hf => FirstAppearance.push_new hf h.mem hy
    · intro hh; simp [hh]


/-- Bookkeeping invariant of datasets built by insertion. -/
structure Inv (m : Mem T) (d : Data) : Prop where
  valid : Valid m d
  msize : d.msize = d.points.length
  dims : ∀ p ∈ samples m d, p.x.length = d.mdim
  mdim0 : d.points = [] → d.mdim = 0
  index : d.index = iota 0 d.points.length
  cls : d.isClassification = true
  table : ClassTable (labels m d) d.classes d.dist
  order : FirstAppearanceOrder (labels m d) d.classes
  names : d.classNames = d.classes.map toString
  fnames : d.points ≠ [] → d.mdim > 0 → d.fnames = iota 1 d.mdim
  isEmpty : d.isEmpty = d.points.isEmpty

theorem inv_empty (m : Mem T) : Inv m Data.empty where
  valid := by simp [Valid, Data.empty]
  msize := rfl
  dims := by simp [samples, Data.empty]
  mdim0 := fun _ => rfl
  index := rfl
  cls := rfl
  table := ⟨by simp [Data.empty], by simp [labels, samples, Data.empty], rfl⟩
  order := by simp [FirstAppearanceOrder, Data.empty]
  names := rfl
  fnames := by simp [Data.empty]
  isEmpty := rfl

theorem dim_of_inv {m : Mem T} {d : Data} (h : Inv m d) : dim m d = .ok d.mdim := by
  unfold dim
  match hp : d.points with
  | [] => simp [h.mdim0 hp]
  | r :: rs =>
    have hr : r < m.length := h.valid r (by simp [hp])
    have hg : m[r]? = some m[r] := List.getElem?_eq_getElem hr
    simp only [deref_of_get hg, Res_bind_ok, Res_pure]
    rw [h.dims m[r] (by simp [samples, hp, hg])]

/-- The dataset part of a successful insertion does not depend on the heap beyond the point. -/
theorem insertPtr_reject {m : Mem T} {d : Data} (h : Inv m d) {r : Nat} {p : Pt T}
    (hr : m[r]? = some p) (keep : Bool) (hne : d.points ≠ []) (hd : p.x.length ≠ d.mdim) :
    insertPtr m d r keep = .ok (m, d, false) := by
  have : d.points.length > 0 := List.length_pos_iff.2 hne
  simp [insertPtr, deref_of_get hr, dim_of_inv h, size, this, hd]

theorem insertPtr_accept {m : Mem T} {d : Data} (h : Inv m d) {r : Nat} {p : Pt T}
    (hr : m[r]? = some p) (keep : Bool) (hd : d.points = [] ∨ p.x.length = d.mdim) :
    ∃ cs ns ds,
      insertPtr m d r keep = .ok
        (if keep then m else m.set r { p with id := d.points.length + 1 },
         { d with points := d.points ++ [r], msize := d.points.length + 1, isEmpty := false,
                  mdim := p.x.length,
                  fnames := if p.x.length > 0 then iota 1 p.x.length else d.fnames,
                  classes := cs, classNames := ns, dist := ds,
                  index := iota 0 (d.points.length + 1) }, true) ∧
      ClassTable (labels m d ++ [p.y]) cs ds ∧ FirstAppearanceOrder (labels m d ++ [p.y]) cs ∧
      ns = cs.map toString := by
  have hnr : ¬ (d.size > 0 ∧ p.x.length ≠ d.mdim) := by
    rintro ⟨h1, h2⟩
    rcases hd with h3 | h3
    · simp [size, h3] at h1
    · exact h2 h3
  have hmd : (if d.mdim = 0 then p.x.length else d.mdim) = p.x.length := by
    split
    · rfl
    · rcases hd with h3 | h3
      · exact absurd (h.mdim0 h3) ‹_›
      · exact h3.symm
  obtain ⟨d2, e1, e2, e3, e4, e5⟩ := insertClass_ok (pushed d r p.x.length) (labels m d) p.y h.table
  refine ⟨d2.classes, d2.classNames, d2.dist, ?_, e3, e4 h.order, e5 h.names⟩
  have hidx : d.index ++ [((d.points ++ [r]).length : Int) - 1] = iota 0 (d.points.length + 1) := by
    rw [h.index, iota_succ]; simp
  have hpc : pushClass m (pushed d r p.x.length) p.y = .ok d2 := by
    have : (pushed d r p.x.length).isClassification = true := h.cls
    have hv : vget (pushed d r p.x.length).points ((pushed d r p.x.length).msize - 1) = .ok r :=
      vget_snoc _ _ _ (by simp [pushed, h.msize])
    simp [pushClass, this, hv, deref_of_get hr, e1]
  have hp2 : d2.points = d.points ++ [r] := by rw [e2]; rfl
  have hm2 : d2.msize = d.points.length + 1 := by rw [e2]; simp [pushed, h.msize]
  have hi2 : d2.index = d.index := by rw [e2]; rfl
  have hid : assignId m d2 keep
      = .ok (if keep then m else m.set r { p with id := d.points.length + 1 }) := by
    cases keep
    · have hv : vget d2.points (d2.msize - 1) = .ok r := by
        rw [hp2]; exact vget_snoc _ _ _ (by simp [hm2])
      simp only [assignId, hv, Res_bind_ok, deref_of_get hr, Res_pure, Bool.false_eq_true, if_false]
      rw [hm2]
    · simp [assignId]
  unfold insertPtr
  simp only [deref_of_get hr, dim_of_inv h, Res_bind_ok, if_neg hnr, hpc, hid, Res_pure]
  congr 3
  rw [hp2, hi2, hidx]
  conv => lhs; rw [e2]
  simp [pushed, hmd, h.msize]


theorem sameUpToIds_refl (m : Mem T) : SameUpToIds m m := rfl

theorem sameUpToIds_set {m : Mem T} {r : Nat} {p : Pt T} (hr : m[r]? = some p) (n : Nat) :
    SameUpToIds m (m.set r { p with id := n }) := by
  unfold SameUpToIds
  rw [List.map_set]
  have h : (m.map content)[r]? = some (content p) := by simp [hr]
  apply List.ext_getElem?
  intro i
  rw [List.getElem?_set]
  by_cases hi : r = i
  · subst hi
    obtain ⟨hl, _⟩ := List.getElem?_eq_some_iff.1 hr
    have hp : m[r] = p := by rw [List.getElem?_eq_getElem hl] at hr; simpa using hr
    simp [hl, content, hp]
  · simp [hi]

theorem _root_.MLTK.Spec.SameUpToIds.get {m m' : Mem T} (h : SameUpToIds m m') (r : Nat) :
    (m[r]?).map content = (m'[r]?).map content := by
  have := congrArg (fun l => l[r]?) h
  simpa using this

theorem _root_.MLTK.Spec.SameUpToIds.length {m m' : Mem T} (h : SameUpToIds m m') : m.length = m'.length := by
  have := congrArg List.length h
  simpa using this

theorem _root_.MLTK.Spec.SameUpToIds.trans {a b c : Mem T} (h : SameUpToIds a b) (h' : SameUpToIds b c) :
    SameUpToIds a c := Eq.trans h h'

theorem _root_.MLTK.Spec.SameUpToIds.symm {a b : Mem T} (h : SameUpToIds a b) : SameUpToIds b a := Eq.symm h

theorem _root_.MLTK.Spec.SameUpToIds.filterMap {m m' : Mem T} (h : SameUpToIds m m') (ps : List Nat) :
    (ps.filterMap (fun r => m[r]?)).map content = (ps.filterMap (fun r => m'[r]?)).map content := by
  induction ps with
  | nil => rfl
  | cons r rs ih =>
    have hg := h.get r
    cases h1 : m[r]? <;> cases h2 : m'[r]? <;> simp_all

theorem _root_.MLTK.Spec.SameUpToIds.samples {m m' : Mem T} (h : SameUpToIds m m') (d : Data) :
    (samples m d).map content = (samples m' d).map content := h.filterMap d.points

theorem labels_eq_content (m : Mem T) (d : Data) :
    labels m d = ((samples m d).map content).map (fun c => c.2.1) := by
  simp [labels, content, Function.comp_def]

theorem _root_.MLTK.Spec.SameUpToIds.labels {m m' : Mem T} (h : SameUpToIds m m') (d : Data) :
    labels m d = labels m' d := by
  rw [labels_eq_content, labels_eq_content, h.samples]

theorem dims_iff_content (m : Mem T) (d : Data) (n : Nat) :
    (∀ p ∈ samples m d, p.x.length = n) ↔ ∀ c ∈ (samples m d).map content, c.1.length = n := by
  simp [content]

/-- The invariant does not look at ids. -/
theorem Inv.of_same {m m' : Mem T} {d : Data} (h : Inv m d) (hs : SameUpToIds m m') : Inv m' d where
  valid := by intro r hr; rw [← hs.length]; exact h.valid r hr
  msize := h.msize
  dims := by
    rw [dims_iff_content, ← hs.samples, ← dims_iff_content]; exact h.dims
  mdim0 := h.mdim0
  index := h.index
  cls := h.cls
  table := by rw [← hs.labels]; exact h.table
  order := by rw [← hs.labels]; exact h.order
  names := h.names
  fnames := h.fnames
  isEmpty := h.isEmpty

/-- The invariant survives allocation. -/
theorem samples_alloc {m : Mem T} {d : Data} (h : Valid m d) (e : List (Pt T)) :
    samples (m ++ e) d = samples m d := by
  unfold samples Valid at *
  apply List.filterMap_congr
  intro r hr
  rw [List.getElem?_append_left (h r hr)]

theorem Inv.alloc {m : Mem T} {d : Data} (h : Inv m d) (e : List (Pt T)) : Inv (m ++ e) d where
  valid := by intro r hr; have := h.valid r hr; simp; omega
  msize := h.msize
  dims := by rw [samples_alloc h.valid]; exact h.dims
  mdim0 := h.mdim0
  index := h.index
  cls := h.cls
  table := by unfold labels; rw [samples_alloc h.valid]; exact h.table
  order := by unfold labels; rw [samples_alloc h.valid]; exact h.order
  names := h.names
  fnames := h.fnames
  isEmpty := h.isEmpty

/-- What an accepted insertion does (declaratively), together with preservation of `Inv`. -/
structure Accepted (m : Mem T) (d : Data) (r : Nat) (p : Pt T) (keep : Bool)
    (m' : Mem T) (d' : Data) : Prop where
  inv : Inv m' d'
  same : SameUpToIds m m'
  mem : m' = if keep then m else m.set r { p with id := d.points.length + 1 }
  points : d'.points = d.points ++ [r]
  mdim : d'.mdim = p.x.length
  type : d'.type = d.type
  cdist : d'.cdistComputed = d.cdistComputed

theorem insertPtr_accepted {m : Mem T} {d : Data} (h : Inv m d) {r : Nat} {p : Pt T}
    (hr : m[r]? = some p) (keep : Bool) (hd : d.points = [] ∨ p.x.length = d.mdim) :
    ∃ m' d', insertPtr m d r keep = .ok (m', d', true) ∧ Accepted m d r p keep m' d' := by
  obtain ⟨cs, ns, ds, e, ht, ho, hn⟩ := insertPtr_accept h hr keep hd
  refine ⟨_, _, e, ?_⟩
  have hsame : SameUpToIds m (if keep then m else m.set r { p with id := d.points.length + 1 }) := by
    cases keep
    · exact sameUpToIds_set hr _
    · rfl
  refine ⟨?_, hsame, rfl, rfl, rfl, rfl, rfl⟩
  refine Inv.of_same ?_ hsame
  have hl : r < m.length := (List.getElem?_eq_some_iff.1 hr).1
  refine ⟨?_, ?_, ?_, ?_, ?_, h.cls, ?_, ?_, hn, ?_, ?_⟩
  · intro q hq
    simp at hq
    rcases hq with hq | hq
    · exact h.valid q hq
    · rw [hq]; exact hl
  · simp
  · intro q hq
    simp [samples, List.filterMap_append, hr] at hq
    rcases hq with ⟨a, ha, hq⟩ | hq
    · have hqs : q ∈ samples m d := by
        simp [samples]; exact ⟨a, ha, hq⟩
      have hdd := h.dims q hqs
      rcases hd with h0 | h0
      · rw [h0] at ha; simp at ha
      · simp [hdd, h0]
    · simp [hq]
  · simp
  · simp
  · simpa [labels, samples, List.filterMap_append, hr] using ht
  · simpa [labels, samples, List.filterMap_append, hr] using ho
  · intro _ hpos
    simp at hpos ⊢
    intro hz; simp [hz] at hpos
  · simp

end Data
end MLTK
