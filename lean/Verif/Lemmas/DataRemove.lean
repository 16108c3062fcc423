import Mathlib.Data.List.InsertIdx
import Mathlib.Data.List.Perm.Basic
import Verif.Lemmas.DataInsert
namespace MLTK.Data
open MLTK.Spec

variable {T : Type}

theorem Inv.consistent {m : Mem T} {d : Data} (h : Inv m d) : Consistent m d where
  live := fun r hr => ⟨m[r]'(h.valid r hr), List.getElem?_eq_getElem _⟩
  msize := h.msize
  cls := h.cls
  counts := ⟨h.table.nodup, fun y hy => (h.table.mem y).2 hy, h.table.counts⟩
  dims := h.dims
  mdim0 := h.mdim0

/-- All pointers of a list are live. -/
def Live (m : Mem T) (ps : List Nat) : Prop := ∀ r ∈ ps, ∃ p, m[r]? = some p

/-- Samples behind a pointer list. -/
def pts (m : Mem T) (ps : List Nat) : List (Pt T) := ps.filterMap (fun r => m[r]?)

theorem samples_eq_pts (m : Mem T) (d : Data) : samples m d = pts m d.points := rfl

@[simp] theorem pts_nil (m : Mem T) : pts m [] = [] := rfl

theorem pts_cons {m : Mem T} {r : Nat} {rs : List Nat} {p : Pt T} (h : m[r]? = some p) :
    pts m (r :: rs) = p :: pts m rs := by simp [pts, h]

theorem pts_append (m : Mem T) (a b : List Nat) : pts m (a ++ b) = pts m a ++ pts m b := by
  simp [pts]

theorem Live.cons {m : Mem T} {r : Nat} {rs : List Nat} (h : Live m (r :: rs)) :
    (∃ p, m[r]? = some p) ∧ Live m rs :=
  ⟨h r (by simp), fun q hq => h q (by simp [hq])⟩

theorem Live.map_some {m : Mem T} {ps : List Nat} (h : Live m ps) :
    ps.map (fun r => m[r]?) = (pts m ps).map some := by
  induction ps with
  | nil => rfl
  | cons r rs ih =>
    obtain ⟨⟨p, hp⟩, h2⟩ := h.cons
    rw [pts_cons hp, List.map_cons, List.map_cons, ih h2, hp]

theorem Live.length {m : Mem T} {ps : List Nat} (h : Live m ps) : (pts m ps).length = ps.length := by
  have := congrArg List.length h.map_some
  simpa using this.symm

theorem Live.get {m : Mem T} {ps : List Nat} (h : Live m ps) (k : Nat) (p : Pt T)
    (hp : (pts m ps)[k]? = some p) : ∃ r, ps[k]? = some r ∧ m[r]? = some p := by
  have := congrArg (fun l => l[k]?) h.map_some
  simp only [List.getElem?_map, hp, Option.map_some] at this
  cases hk : ps[k]? with
  | none => simp [hk] at this
  | some r => simp [hk] at this; exact ⟨r, rfl, this⟩

theorem Live.sublist {m : Mem T} {ps qs : List Nat} (h : Live m ps) (hs : ∀ q ∈ qs, q ∈ ps) :
    Live m qs := fun q hq => h q (hs q hq)

theorem Live.eraseIdx {m : Mem T} {ps : List Nat} (h : Live m ps) (k : Nat) :
    pts m (ps.eraseIdx k) = (pts m ps).eraseIdx k := by
  have h1 := (h.sublist (fun q hq => List.mem_of_mem_eraseIdx hq) : Live m (ps.eraseIdx k)).map_some
  have h2 := h.map_some
  rw [← List.eraseIdx_map, h2, List.eraseIdx_map] at h1
  exact ((List.map_injective_iff.2 (fun _ _ h => Option.some.inj h)) h1).symm

theorem findId_eq {m : Mem T} {ps : List Nat} (h : Live m ps) (pid : Nat) :
    findId m ps pid = .ok ((pts m ps).findIdx? (fun p => p.id == pid)) := by
  induction ps with
  | nil => rfl
  | cons r rs ih =>
    obtain ⟨⟨p, hp⟩, h2⟩ := h.cons
    rw [pts_cons hp]
    simp only [findId, deref_of_get hp, Res_bind_ok, ih h2, List.findIdx?_cons]
    by_cases hid : p.id = pid
    · simp [hid]
    · simp [hid]

theorem count_pos_of_mem {ls : List Int} {y : Int} (h : y ∈ ls) : 0 < ls.count y :=
  List.count_pos_iff.2 h

/-- Removing one sample keeps counts right. -/
theorem counts_eraseIdx {ls cs : List Int} {ds : List Nat} (h : Counts ls cs ds) {k : Nat} {y : Int}
    (hk : ls[k]? = some y) :
    ∃ ds', decAt ds (classPos cs y) = .ok ds' ∧ Counts (ls.eraseIdx k) cs ds' := by
  have hy : y ∈ ls := List.mem_of_getElem? hk
  refine ⟨cs.map (fun c => if c = y then decSize (ls.count c) else ls.count c), ?_, ?_⟩
  · rw [h.counts]; exact decAt_map cs (fun c => ls.count c) h.nodup y (h.covers y hy)
  · refine ⟨h.nodup, fun z hz => h.covers z (List.mem_of_mem_eraseIdx hz), ?_⟩
    apply List.map_congr_left
    intro c _
    obtain ⟨hl, hg⟩ := List.getElem?_eq_some_iff.1 hk
    have hcount : ls.count c = (ls.eraseIdx k).count c + if c = y then 1 else 0 := by
      have hp : ls.Perm (ls[k] :: ls.eraseIdx k) := (List.getElem_cons_eraseIdx_perm hl).symm
      rw [hp.count_eq, List.count_cons, hg]
      by_cases hc : y = c
      · simp [hc]
      · have : ¬ c = y := fun h => hc h.symm
        simp [hc, this]
    by_cases hc : c = y
    · subst hc
      simp only [if_true] at hcount ⊢
      unfold decSize
      rw [hcount]; simp
    · simp only [hc, if_false] at hcount ⊢
      omega

theorem _root_.MLTK.Spec.Consistent.livePts {m : Mem T} {d : Data} (h : Consistent m d) : Live m d.points := h.live

theorem removePoint_present {m : Mem T} {d : Data} (h : Consistent m d) {pid : Int} {k : Nat}
    {last : Pt T} (h2 : 2 ≤ d.size) (hlast : (samples m d).getLast? = some last)
    (h0 : 0 < pid) (hle : pid ≤ last.id)
    (hk : (samples m d).findIdx? (fun p => p.id == pid.toNat) = some k) :
    ∃ d', removePoint m d pid = .ok (d', true) ∧ samples m d' = (samples m d).eraseIdx k ∧
      Consistent m d' ∧ d'.classes = d.classes ∧ d'.fnames = d.fnames ∧ d'.mdim = d.mdim := by
  have hL := h.livePts
  have hlen : (samples m d).length = d.points.length := hL.length
  have hkl : k < (samples m d).length := (List.findIdx?_eq_some_iff_getElem.1 hk).1
  obtain ⟨r, hr1, hr2⟩ := hL.get k _ (List.getElem?_eq_getElem hkl)
  have hlastI : (samples m d)[d.points.length - 1]? = some last := by
    rw [← hlen, ← List.getLast?_eq_getElem?]; exact hlast
  obtain ⟨lr, hl1, hl2⟩ := hL.get _ _ hlastI
  have hlab : (labels m d)[k]? = some ((samples m d)[k]).y := by
    simp [labels, hkl]
  obtain ⟨ds', hd1, hd2⟩ := counts_eraseIdx h.counts hlab
  have hs2 : 2 ≤ d.points.length := h2
  have hsz : d.msize ≠ 1 := by rw [h.msize]; omega
  have hsz0 : d.msize ≠ 0 := by rw [h.msize]; omega
  have hrng : ¬ (pid > (last.id : Int) ∨ pid ≤ 0) := by omega
  refine ⟨{ d with index := shiftIndex d.index d.msize pid.toNat, points := d.points.eraseIdx k,
                   msize := d.msize - 1, dist := ds' }, ?_, ?_, ?_, rfl, rfl, rfl⟩
  · unfold removePoint
    have e1 : vget d.points (d.msize - 1) = .ok lr := by rw [h.msize]; simpa using hl1
    have e2 : vget d.points k = .ok r := by simpa using hr1
    have e3 : findId m (d.points.take d.msize) pid.toNat = .ok (some k) := by
      rw [h.msize, List.take_length, findId_eq hL]
      exact congrArg _ hk
    simp only [hsz, hsz0, if_false, e1, Res_bind_ok, deref_of_get hl2, hrng, e3, e2,
      deref_of_get hr2, Res_pure]
    rw [hd1]
    rfl
  · exact hL.eraseIdx k
  · have hsam : pts m (d.points.eraseIdx k) = (samples m d).eraseIdx k := hL.eraseIdx k
    refine ⟨hL.sublist (fun q hq => List.mem_of_mem_eraseIdx hq), ?_, h.cls, ?_, ?_, ?_⟩
    · have : k < d.points.length := by rw [← hlen]; exact hkl
      simp [h.msize, List.length_eraseIdx, this]
    · have : (labels m d).eraseIdx k = ((samples m d).eraseIdx k).map Pt.y := by
        rw [labels, List.eraseIdx_map]
      unfold labels
      change Counts ((pts m (d.points.eraseIdx k)).map Pt.y) d.classes ds'
      rw [hsam, ← this]
      exact hd2
    · intro p hp
      change p ∈ pts m (d.points.eraseIdx k) at hp
      rw [hsam] at hp
      exact h.dims p (List.mem_of_mem_eraseIdx hp)
    · intro he
      have : k < d.points.length := by rw [← hlen]; exact hkl
      have hl := congrArg List.length he
      simp [List.length_eraseIdx, this] at hl
      omega

theorem removePoint_absent {m : Mem T} {d : Data} (h : Consistent m d) {pid : Int}
    {last : Pt T} (h2 : 2 ≤ d.size) (hlast : (samples m d).getLast? = some last)
    (h0 : 0 < pid) (hle : pid ≤ last.id) (hk : ∀ p ∈ samples m d, (p.id : Int) ≠ pid) :
    removePoint m d pid = .error .uninit := by
  have hL := h.livePts
  have hlen : (samples m d).length = d.points.length := hL.length
  have hlastI : (samples m d)[d.points.length - 1]? = some last := by
    rw [← hlen, ← List.getLast?_eq_getElem?]; exact hlast
  obtain ⟨lr, hl1, hl2⟩ := hL.get _ _ hlastI
  have hs2 : 2 ≤ d.points.length := h2
  have hsz : d.msize ≠ 1 := by rw [h.msize]; omega
  have hsz0 : d.msize ≠ 0 := by rw [h.msize]; omega
  have hrng : ¬ (pid > (last.id : Int) ∨ pid ≤ 0) := by omega
  have e1 : vget d.points (d.msize - 1) = .ok lr := by rw [h.msize]; simpa using hl1
  have e3 : findId m (d.points.take d.msize) pid.toNat = .ok none := by
    rw [h.msize, List.take_length, findId_eq hL]
    congr 1
    rw [List.findIdx?_eq_none_iff]
    intro p hp
    have := hk p hp
    simp; omega
  unfold removePoint
  simp only [hsz, hsz0, if_false, e1, Res_bind_ok, deref_of_get hl2, hrng, e3]

theorem removePoint_refused {m : Mem T} {d : Data} (h : Consistent m d) {pid : Int}
    {last : Pt T} (hlast : (samples m d).getLast? = some last)
    (hcase : d.size = 1 ∨ pid ≤ 0 ∨ (last.id : Int) < pid) :
    removePoint m d pid = .ok (d, false) := by
  have hL := h.livePts
  have hlen : (samples m d).length = d.points.length := hL.length
  have hlastI : (samples m d)[d.points.length - 1]? = some last := by
    rw [← hlen, ← List.getLast?_eq_getElem?]; exact hlast
  obtain ⟨lr, hl1, hl2⟩ := hL.get _ _ hlastI
  have hpos : 0 < d.points.length := by
    rw [← hlen]; apply List.length_pos_iff.2; intro h0; simp [h0] at hlast
  unfold removePoint
  by_cases h1 : d.msize = 1
  · simp [h1]
  · have hsz0 : d.msize ≠ 0 := by rw [h.msize]; omega
    have e1 : vget d.points (d.msize - 1) = .ok lr := by rw [h.msize]; simpa using hl1
    have hrng : pid > (last.id : Int) ∨ pid ≤ 0 := by
      rcases hcase with hc | hc | hc
      · exact absurd (h.msize.trans hc) h1
      · exact Or.inr hc
      · exact Or.inl hc
    simp only [h1, hsz0, if_false, e1, Res_bind_ok, deref_of_get hl2, if_pos hrng, Res_pure]


/-- Removing a listed element. -/
theorem counts_remove {l1 l2 cs : List Int} {ds : List Nat} {y : Int}
    (h : Counts (l1 ++ y :: l2) cs ds) :
    ∃ ds', decAt ds (classPos cs y) = .ok ds' ∧ Counts (l1 ++ l2) cs ds' := by
  obtain ⟨ds', h1, h2⟩ := counts_eraseIdx h (k := l1.length) (y := y) (by simp)
  refine ⟨ds', h1, ?_⟩
  have : (l1 ++ y :: l2).eraseIdx l1.length = l1 ++ l2 := by
    rw [List.eraseIdx_append_of_length_le (Nat.le_refl _)]; simp
  rwa [this] at h2

theorem findIn_none {ids : List Int} {id : Nat} (h : (id : Int) ∉ ids) : findIn ids id = none := by
  have : ids.findIdx (· == (id : Int)) = ids.length := by
    have := (classPos_eq_length_iff ids (id : Int)).2 h
    exact this
  simp [findIn, this]

theorem findIn_some {ids : List Int} {id : Nat} (h : (id : Int) ∈ ids) :
    findIn ids id = some (ids.idxOf (id : Int)) := by
  have h1 : ids.findIdx (· == (id : Int)) = ids.idxOf (id : Int) := rfl
  have h2 : ids.idxOf (id : Int) < ids.length := List.idxOf_lt_length_iff.2 h
  simp [findIn, h1, h2]

theorem removeLoop_ok {m : Mem T} (ids : List Int) (hpos : ∀ i ∈ ids, 0 < i) :
    ∀ (rest done : List Nat) (d : Data) (nf : List Bool),
      Live m rest → Live m done →
      d.msize = (done ++ rest).length →
      Counts ((pts m (done ++ rest)).map Pt.y) d.classes d.dist →
      (done = [] → ∃ p ∈ pts m rest, (p.id : Int) ∉ ids) →
      ∃ d' nf', removeLoop m ids rest done d nf = .ok (d', nf') ∧
        d'.points = done ++ rest.filter (fun r => (m[r]?).all (fun p => (p.id : Int) ∉ ids)) ∧
        d'.msize = d'.points.length ∧
        Counts ((pts m d'.points).map Pt.y) d'.classes d'.dist ∧
        d'.classes = d.classes ∧ d'.fnames = d.fnames ∧ d'.mdim = d.mdim ∧ d'.type = d.type ∧
        nf' = (pts m rest).foldl (fun nf p => if (p.id : Int) ∈ ids then
                nf.set (ids.idxOf (p.id : Int)) false else nf) nf := by
  intro rest
  induction rest with
  | nil =>
    intro done d nf _ hld hm hc _
    refine ⟨{ d with points := done }, nf, rfl, by simp, by simpa using hm, by simpa using hc, rfl,
      rfl, rfl, rfl, by simp⟩
  | cons r rest ih =>
    intro done d nf hlr hld hm hc hk
    obtain ⟨⟨p, hp⟩, hl2⟩ := hlr.cons
    by_cases hin : (p.id : Int) ∈ ids
    · have hids : 0 < (p.id : Int) := hpos _ hin
      have hilt : ids.idxOf (p.id : Int) < ids.length := List.idxOf_lt_length_iff.2 hin
      have hv : vget ids (ids.idxOf (p.id : Int)) = .ok (p.id : Int) := by
        simp [hilt]
      have hguard : ¬ (d.index ≠ [] ∧ (p.id : Int) ≤ 0 ∧ d.msize > 0) := by omega
      have hother : 1 ≤ done.length + rest.length := by
        by_cases hd : done = []
        · obtain ⟨q, hq, hqi⟩ := hk hd
          rw [pts_cons hp] at hq
          rcases List.mem_cons.1 hq with hq | hq
          · subst hq; exact absurd hin hqi
          · have hq' : pts m rest ≠ [] := List.ne_nil_of_mem hq
            have : 0 < (pts m rest).length := List.length_pos_iff.2 hq'
            rw [hl2.length] at this; omega
        · have := List.length_pos_iff.2 hd; omega
      have hms : d.msize ≠ 1 := by rw [hm]; simp; omega
      have hcc : Counts ((pts m done).map Pt.y ++ p.y :: (pts m rest).map Pt.y) d.classes d.dist := by
        have := hc
        rw [pts_append, pts_cons hp] at this
        simpa using this
      obtain ⟨ds', hd1, hd2⟩ := counts_remove hcc
      obtain ⟨d', nf', e1, e2, e3, e4, e5, e6, e7, e8, e9⟩ := ih done
        { d with index := shiftIndex d.index d.msize ((p.id : Int)).toNat, dist := ds',
                 msize := d.msize - 1 } (nf.set (ids.idxOf (p.id : Int)) false) hl2 hld
        (by simp [hm]) (by simpa [pts_append] using hd2)
        (fun hd => by
          obtain ⟨q, hq, hqi⟩ := hk hd
          rw [pts_cons hp] at hq
          rcases List.mem_cons.1 hq with hq | hq
          · subst hq; exact absurd hin hqi
          · exact ⟨q, hq, hqi⟩)
      refine ⟨d', nf', ?_, ?_, e3, e4, e5, e6, e7, e8, ?_⟩
      · simp only [removeLoop, deref_of_get hp, Res_bind_ok, findIn_some hin, hv, if_neg hguard, hms,
          if_false, hd1]
        exact e1
      · rw [e2]; simp [hp, hin]
      · rw [e9, pts_cons hp]; simp [hin]
    · obtain ⟨d', nf', e1, e2, e3, e4, e5, e6, e7, e8, e9⟩ := ih (done ++ [r]) d nf hl2
        (by intro q hq; rcases List.mem_append.1 hq with h | h
            · exact hld q h
            · simp at h; subst h; exact ⟨p, hp⟩)
        (by simpa using hm) (by simpa using hc) (by simp)
      refine ⟨d', nf', ?_, ?_, e3, e4, e5, e6, e7, e8, ?_⟩
      · simp only [removeLoop, deref_of_get hp, Res_bind_ok, findIn_none hin]
        exact e1
      · rw [e2]; simp [hp, hin]
      · rw [e9, pts_cons hp]; simp [hin]

theorem pts_filter {m : Mem T} {ps : List Nat} (h : Live m ps) (f : Pt T → Bool) :
    pts m (ps.filter (fun r => (m[r]?).all f)) = (pts m ps).filter f := by
  induction ps with
  | nil => rfl
  | cons r rs ih =>
    obtain ⟨⟨p, hp⟩, h2⟩ := h.cons
    rw [pts_cons hp]
    by_cases hf : f p
    · simp only [List.filter_cons, hp, Option.all_some, hf, if_true]
      rw [pts_cons hp, ih h2]
    · simp only [List.filter_cons, hp, Option.all_some, hf]
      simpa using ih h2

/-- Flags computed by the loop: position `i` of a duplicate-free id list is cleared iff present. -/
theorem flags_spec (ids : List Int) (hn : ids.Nodup) (ps : List (Pt T)) :
    ∀ nf : List Bool, nf.length = ids.length →
    ps.foldl (fun nf p => if (p.id : Int) ∈ ids then nf.set (ids.idxOf (p.id : Int)) false else nf) nf
      = (nf.zip ids).map (fun x => x.1 && !(ps.any (fun p => (p.id : Int) == x.2))) := by
  induction ps with
  | nil =>
    intro nf hl
    simp only [List.foldl_nil, List.any_nil, Bool.not_false, Bool.and_true]
    rw [List.map_fst_zip (by omega)]
  | cons p ps ih =>
    intro nf hl
    simp only [List.foldl_cons]
    by_cases hin : (p.id : Int) ∈ ids
    · rw [if_pos hin, ih _ (by simpa using hl)]
      apply List.ext_getElem
      · simp
      · intro i h1 h2
        simp only [List.getElem_map, List.getElem_zip, List.getElem_set, List.any_cons]
        have hi : i < ids.length := by simp at h2; omega
        by_cases hc : ids.idxOf (p.id : Int) = i
        · have : ids[i] = (p.id : Int) := by subst hc; simp
          simp [hc, this]
        · have : (p.id : Int) ≠ ids[i] := by
            intro he; apply hc; rw [he]; exact hn.idxOf_getElem i hi
          simp [hc, beq_eq_false_iff_ne.2 this]
    · rw [if_neg hin, ih _ hl]
      apply List.ext_getElem
      · simp
      · intro i h1 h2
        simp only [List.getElem_map, List.getElem_zip, List.any_cons]
        have hi : i < ids.length := by simp at h2; omega
        have : (p.id : Int) ≠ ids[i] := by
          intro he; apply hin; rw [he]; exact List.getElem_mem hi
        simp [beq_eq_false_iff_ne.2 this]

theorem insertClass_counts (d : Data) (ls : List Int) (y : Int)
    (h : Counts ls d.classes d.dist) :
    ∃ d', insertClass d y y = .ok d' ∧
      d' = { d with classes := d'.classes, classNames := d'.classNames, dist := d'.dist } ∧
      Counts (ls ++ [y]) d'.classes d'.dist := by
  unfold insertClass
  by_cases hy : y ∈ d.classes
  · have hne : classPos d.classes y ≠ d.classes.length := by
      intro he; exact (classPos_eq_length_iff _ _).1 he hy
    have hi := incAt_map d.classes (fun c => ls.count c) h.nodup y hy
    rw [← h.counts] at hi
    refine ⟨{ d with dist := d.classes.map (fun c => if c = y then ls.count c + 1 else ls.count c) },
      by simp only [hne, if_false, hi]; rfl, rfl, h.nodup, ?_, ?_⟩
    · intro z hz
      rcases List.mem_append.1 hz with h1 | h1
      · exact h.covers z h1
      · simp at h1; subst h1; exact hy
    · apply List.map_congr_left
      intro c _
      by_cases hc : c = y
      · subst hc; simp
      · have : y ≠ c := fun he => hc he.symm
        simp [hc, this]
  · have he := (classPos_eq_length_iff d.classes y).2 hy
    have hyl : y ∉ ls := fun hh => hy (h.covers y hh)
    refine ⟨_, by simp only [he, if_true]; rfl, rfl, ?_, ?_, ?_⟩
    · rw [List.nodup_append]
      refine ⟨h.nodup, by simp, ?_⟩
      intro a ha b hb
      simp at hb; subst hb
      intro he; subst he; exact hy ha
    · intro z hz
      rcases List.mem_append.1 hz with h1 | h1
      · simp [h.covers z h1]
      · simp at h1; simp [h1]
    · simp only [h.counts, List.map_append, List.map_cons, List.map_nil]
      congr 1
      · apply List.map_congr_left
        intro c hc
        have : y ≠ c := by intro he; subst he; exact hy hc
        simp [this]
      · simp [List.count_eq_zero_of_not_mem hyl]

theorem dim_of_consistent {m : Mem T} {d : Data} (h : Consistent m d) : dim m d = .ok d.mdim := by
  unfold dim
  match hp : d.points with
  | [] => simp [h.mdim0 hp]
  | r :: rs =>
    obtain ⟨p, hg⟩ := h.live r (by simp [hp])
    simp only [deref_of_get hg, Res_bind_ok, Res_pure]
    rw [h.dims p (by simp [samples, hp, hg])]

theorem Consistent_of_same {m m' : Mem T} {d : Data} (h : Consistent m d) (hs : SameUpToIds m m') :
    Consistent m' d where
  live := by
    intro r hr
    obtain ⟨p, hp⟩ := h.live r hr
    have hg := hs.get r
    rw [hp] at hg
    cases h' : m'[r]? with
    | none => simp [h'] at hg
    | some q => exact ⟨q, rfl⟩
  msize := h.msize
  cls := h.cls
  counts := by rw [← hs.labels]; exact h.counts
  dims := by rw [dims_iff_content, ← hs.samples, ← dims_iff_content]; exact h.dims
  mdim0 := h.mdim0

theorem consistent_alloc {m : Mem T} {d : Data} (h : Consistent m d) (e : List (Pt T)) :
    Consistent (m ++ e) d := by
  have hv : Valid m d := by
    intro r hr
    obtain ⟨p, hp⟩ := h.live r hr
    exact (List.getElem?_eq_some_iff.1 hp).1
  refine ⟨?_, h.msize, h.cls, ?_, ?_, h.mdim0⟩
  · intro r hr
    obtain ⟨p, hp⟩ := h.live r hr
    exact ⟨p, by rw [List.getElem?_append_left (hv r hr)]; exact hp⟩
  · unfold labels; rw [samples_alloc hv]; exact h.counts
  · rw [samples_alloc hv]; exact h.dims

/-- Insertion into a consistent dataset. -/
theorem insertPtr_consistent {m : Mem T} {d : Data} (h : Consistent m d) {r : Nat} {p : Pt T}
    (hr : m[r]? = some p) (keep : Bool) :
    (d.points ≠ [] ∧ p.x.length ≠ d.mdim ∧ insertPtr m d r keep = .ok (m, d, false)) ∨
    ((d.points = [] ∨ p.x.length = d.mdim) ∧
      ∃ m' d', insertPtr m d r keep = .ok (m', d', true) ∧ Consistent m' d' ∧
        m' = (if keep then m else m.set r { p with id := d.points.length + 1 }) ∧
        SameUpToIds m m' ∧ d'.points = d.points ++ [r] ∧ d'.mdim = p.x.length ∧
        d'.type = d.type ∧ d'.cdistComputed = d.cdistComputed ∧
        d'.fnames = (if p.x.length > 0 then iota 1 p.x.length else d.fnames) ∧
        d'.index = d.index ++ [(d.points.length : Int)]) := by
  by_cases hd : d.points = [] ∨ p.x.length = d.mdim
  · right
    refine ⟨hd, ?_⟩
    have hnr : ¬ (d.size > 0 ∧ p.x.length ≠ d.mdim) := by
      rintro ⟨h1, h2⟩
      rcases hd with h3 | h3
      · simp [size, h3] at h1
      · exact h2 h3
    have hmd : (if d.mdim = 0 then p.x.length else d.mdim) = p.x.length := by
      split
      · rfl
      · rcases hd with h3 | h3
        · exact absurd (h.mdim0 h3) ‹_›
        · exact h3.symm
    obtain ⟨d2, e1, e2, e3⟩ := insertClass_counts (pushed d r p.x.length) (labels m d) p.y h.counts
    have hpc : pushClass m (pushed d r p.x.length) p.y = .ok d2 := by
      have : (pushed d r p.x.length).isClassification = true := h.cls
      have hv : vget (pushed d r p.x.length).points ((pushed d r p.x.length).msize - 1) = .ok r :=
        vget_snoc _ _ _ (by simp [pushed, h.msize])
      simp [pushClass, this, hv, deref_of_get hr, e1]
    have hp2 : d2.points = d.points ++ [r] := by rw [e2]; rfl
    have hm2 : d2.msize = d.points.length + 1 := by rw [e2]; simp [pushed, h.msize]
    have hd2 : d2.mdim = p.x.length := by rw [e2]; simp [pushed, hmd]
    have hid : assignId m d2 keep
        = .ok (if keep then m else m.set r { p with id := d.points.length + 1 }) := by
      cases keep
      · have hv : vget d2.points (d2.msize - 1) = .ok r := by
          rw [hp2]; exact vget_snoc _ _ _ (by simp [hm2])
        simp only [assignId, hv, Res_bind_ok, deref_of_get hr, Res_pure, Bool.false_eq_true, if_false]
        rw [hm2]
      · simp [assignId]
    have hsame : SameUpToIds m (if keep then m else m.set r { p with id := d.points.length + 1 }) := by
      cases keep
      · exact sameUpToIds_set hr _
      · rfl
    have hix : d2.index ++ [(d2.points.length : Int) - 1] = d.index ++ [(d.points.length : Int)] := by
      have h1 : d2.index = d.index := by rw [e2]; rfl
      rw [h1, hp2]; simp
    refine ⟨_, { d2 with index := d2.index ++ [(d2.points.length : Int) - 1] }, by
      unfold insertPtr
      simp only [deref_of_get hr, dim_of_consistent h, Res_bind_ok, if_neg hnr, hpc, hid, Res_pure], Consistent_of_same ?_ hsame, rfl, hsame, hp2, hd2, by rw [e2]; rfl, by rw [e2]; rfl,
      by rw [e2]; rfl, hix⟩
    refine ⟨?_, ?_, by rw [e2]; exact h.cls, ?_, ?_, ?_⟩
    · intro q hq
      simp only [hp2, List.mem_append, List.mem_singleton] at hq
      rcases hq with hq | hq
      · exact h.live q hq
      · exact ⟨p, hq ▸ hr⟩
    · simp [hm2, hp2]
    · have : labels m { d2 with index := d2.index ++ [(d2.points.length : Int) - 1] }
          = labels m d ++ [p.y] := by
        simp [labels, samples, hp2, hr]
      rw [this]; exact e3
    · intro q hq
      simp only [samples, hp2, List.filterMap_append, List.mem_append] at hq
      show q.x.length = d2.mdim
      rw [hd2]
      rcases hq with hq | hq
      · have hdd := h.dims q hq
        rcases hd with h0 | h0
        · rw [h0] at hq; simp at hq
        · rw [hdd, h0]
      · simp [hr] at hq; rw [hq]
    · intro he; rw [show ({ d2 with index := d2.index ++ [(d2.points.length : Int) - 1] } : Data).points = d2.points from rfl, hp2] at he
      simp at he
  · left
    have hne : d.points ≠ [] := fun h0 => hd (Or.inl h0)
    have hmd : p.x.length ≠ d.mdim := fun h0 => hd (Or.inr h0)
    refine ⟨hne, hmd, ?_⟩
    have : d.points.length > 0 := List.length_pos_iff.2 hne
    simp [insertPtr, deref_of_get hr, dim_of_consistent h, size, this, hmd]

theorem zip_replicate_true {β : Type} (l : List β) (f : β → Bool) :
    (((List.replicate l.length true).zip l).map (fun x => x.1 && f x.2)) = l.map f := by
  induction l with
  | nil => rfl
  | cons a l ih => simp [List.replicate_succ, ih]

end MLTK.Data
