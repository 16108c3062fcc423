import Verif.Lemmas.DataCopy
namespace MLTK.Data
open MLTK.Spec
variable {T : Type}

/-! ## What `insertPoint` writes -/

/-- `insertPoint` never touches a cell other than the inserted one, and with `keepIndex` none. -/
theorem insertPtr_heap {m : Mem T} {d : Data} (hm : d.msize = d.points.length) {r : Nat}
    {keep : Bool} {m' : Mem T} {d' : Data} {b : Bool}
    (h : insertPtr m d r keep = .ok (m', d', b)) :
    d'.msize = d'.points.length ∧ m'.length = m.length ∧
      (∀ q, q ≠ r → m'[q]? = m[q]?) ∧ (keep = true → m' = m) := by
  unfold insertPtr at h
  cases hr : m[r]? with
  | none => simp [deref, hr] at h
  | some p =>
    rw [deref_of_get hr] at h
    cases hdim : dim m d with
    | error e => simp [hdim] at h
    | ok n =>
      simp only [Res_bind_ok, hdim] at h
      by_cases hrej : d.size > 0 ∧ p.x.length ≠ n
      · rw [if_pos hrej] at h
        simp at h
        obtain ⟨rfl, rfl, rfl⟩ := h
        exact ⟨hm, rfl, fun _ _ => rfl, fun _ => rfl⟩
      · rw [if_neg hrej] at h
        cases hpc : pushClass m (pushed d r p.x.length) p.y with
        | error e => simp [hpc] at h
        | ok d2 =>
          have hp2 : d2.points = d.points ++ [r] ∧ d2.msize = d.msize + 1 := by
            unfold pushClass at hpc
            split at hpc
            · cases hv : vget (pushed d r p.x.length).points ((pushed d r p.x.length).msize - 1) with
              | error e => simp [hv] at hpc
              | ok lr =>
                simp only [hv, Res_bind_ok] at hpc
                cases hlr : deref m lr with
                | error e => simp [hlr] at hpc
                | ok last =>
                  simp only [hlr, Res_bind_ok] at hpc
                  unfold insertClass at hpc
                  split at hpc
                  · simp at hpc; subst hpc; exact ⟨rfl, rfl⟩
                  · cases hi : incAt (pushed d r p.x.length).dist
                        (classPos (pushed d r p.x.length).classes p.y) with
                    | error e => simp [hi] at hpc
                    | ok ds => simp [hi] at hpc; subst hpc; exact ⟨rfl, rfl⟩
            · simp at hpc; subst hpc; exact ⟨rfl, rfl⟩
          simp only [hpc, Res_bind_ok] at h
          cases keep with
          | true =>
            simp [assignId] at h
            obtain ⟨rfl, rfl, rfl⟩ := h
            exact ⟨by simp [hp2.1, hp2.2, hm], rfl, fun _ _ => rfl, fun _ => rfl⟩
          | false =>
            have hv : vget d2.points (d2.msize - 1) = .ok r := by
              rw [hp2.1]; exact vget_snoc _ _ _ (by rw [hp2.2, hm]; simp)
            simp only [assignId, Bool.false_eq_true, if_false, hv, Res_bind_ok, deref_of_get hr,
              Res_pure] at h
            simp at h
            obtain ⟨rfl, rfl, rfl⟩ := h
            refine ⟨by simp [hp2.1, hp2.2, hm], by simp, ?_, by simp⟩
            intro q hq
            exact List.getElem?_set_ne (fun h => hq h.symm)

/-! ## Relabelling -/

theorem classPos_inj {cs : List Int} {a b : Int} (ha : a ∈ cs) (h : classPos cs a = classPos cs b)
    (hb : b ∈ cs) : a = b := by
  have h1 := classPos_getElem? cs a ha
  have h2 := classPos_getElem? cs b hb
  rw [h] at h1
  rw [h1] at h2
  exact Option.some.inj h2

theorem pts_set_nodup {m : Mem T} {ps : List Nat} (hL : Live m ps) (hn : ps.Nodup) {k r : Nat}
    (hk : ps[k]? = some r) (q : Pt T) :
    pts (m.set r q) ps = (pts m ps).set k q := by
  induction ps generalizing k with
  | nil => simp at hk
  | cons a ps ih =>
    obtain ⟨⟨p, hp⟩, h2⟩ := hL.cons
    obtain ⟨hna, hn2⟩ := List.nodup_cons.1 hn
    have halt : a < m.length := (List.getElem?_eq_some_iff.1 hp).1
    cases k with
    | zero =>
      simp at hk; subst hk
      rw [pts_cons (p := q) (by simp [halt]), pts_cons hp]
      have : pts (m.set a q) ps = pts m ps := by
        unfold pts
        apply List.filterMap_congr
        intro b hb
        exact List.getElem?_set_ne (fun h => by subst h; exact hna hb)
      simp [this]
    | succ k =>
      simp at hk
      have har : a ≠ r := fun h => by subst h; exact hna (List.mem_of_getElem? hk)
      rw [pts_cons (p := p) (by rw [List.getElem?_set_ne (fun h => har h.symm)]; exact hp), pts_cons hp, ih h2 hn2 hk]
      simp

theorem live_set {m : Mem T} {ps : List Nat} (hL : Live m ps) (r : Nat) (q : Pt T) :
    Live (m.set r q) ps := by
  intro a ha
  have : a < (m.set r q).length := by rw [List.length_set]; exact hL.lt ha
  exact ⟨(m.set r q)[a], List.getElem?_eq_getElem this⟩

theorem count_set {ls : List Int} {k : Nat} {y v : Int} (hk : ls[k]? = some y) (c : Int) :
    (ls.set k v).count c + (if c = y then 1 else 0) = ls.count c + (if c = v then 1 else 0) := by
  induction ls generalizing k with
  | nil => simp at hk
  | cons a ls ih =>
    cases k with
    | zero =>
      simp at hk; subst hk
      simp only [List.set_cons_zero, List.count_cons]
      have e1 : ∀ w : Int, (if (w == c) = true then 1 else 0) = (if c = w then 1 else 0) := by
        intro w
        by_cases h : c = w
        · simp [h]
        · have : ¬ w = c := fun h' => h h'.symm
          simp [h, this]
      rw [e1, e1]
      omega
    | succ k =>
      simp at hk
      have := ih hk
      simp only [List.set_cons_succ, List.count_cons]
      omega

theorem map_eraseIdx_classPos {cs : List Int} (hn : cs.Nodup) {y : Int} (hy : y ∈ cs) :
    cs.eraseIdx (classPos cs y) = cs.filter (fun c => c ≠ y) := by
  induction cs with
  | nil => simp at hy
  | cons a cs ih =>
    obtain ⟨hna, hn2⟩ := List.nodup_cons.1 hn
    by_cases h : a = y
    · subst h
      have : classPos (a :: cs) a = 0 := by simp [classPos, List.findIdx_cons]
      rw [this, List.eraseIdx_cons_zero, List.filter_cons, if_neg (by simp)]
      symm; rw [List.filter_eq_self]
      intro b hb; simp; intro he; exact hna (he ▸ hb)
    · have hm : y ∈ cs := by
        rcases List.mem_cons.1 hy with h' | h'
        · exact absurd h'.symm h
        · exact h'
      have : classPos (a :: cs) y = classPos cs y + 1 := by
        have hb : (a == y) = false := by simpa using h
        simp [classPos, List.findIdx_cons, hb]
      rw [this, List.eraseIdx_cons_succ, ih hn2 hm, List.filter_cons, if_pos (by simpa using h)]

/-- Relabelling to a known class. -/
theorem updateValue_known {m : Mem T} {d : Data} (h : Consistent m d) (hnd : d.points.Nodup)
    (realloc : Bool) {i : Nat} {p : Pt T} (hi : (samples m d)[i]? = some p) {v : Int}
    (hv : v ∈ d.classes) :
    ∃ m' d', updateValue realloc m d i v = .ok (m', d', true) ∧
      samples m' d' = (samples m d).set i { p with y := v } ∧ Consistent m' d' ∧
      d'.points = d.points ∧
      d'.classes = d.classes.filter (fun c => c ∈ labels m' d' ∨ c ≠ p.y) := by
  have hL := h.livePts
  obtain ⟨r, hr1, hr2⟩ := hL.get i p hi
  have hilt : i < d.points.length := (List.getElem?_eq_some_iff.1 hr1).1
  have hlab : (labels m d)[i]? = some p.y := by simp [labels, hi]
  have hpy : p.y ∈ d.classes := h.counts.covers _ (List.mem_of_getElem? hlab)
  have hvpos : classPos d.classes v ≠ d.classes.length := by
    intro he; exact ((classPos_eq_length_iff _ _).1 he) hv
  have hi1 : incAt d.dist (classPos d.classes v)
      = .ok (d.classes.map (fun c => if c = v then (labels m d).count c + 1 else (labels m d).count c)) := by
    rw [h.counts.counts]; exact incAt_map d.classes _ h.counts.nodup v hv
  have hi2 := decAt_map d.classes
    (fun c => if c = v then (labels m d).count c + 1 else (labels m d).count c) h.counts.nodup p.y hpy
  have hcnt := count_set (v := v) hlab
  have hpos : 0 < (labels m d).count p.y := List.count_pos_iff.2 (List.mem_of_getElem? hlab)
  have hmap : d.classes.map (fun c => if c = p.y then decSize (if c = v then (labels m d).count c + 1 else (labels m d).count c)
      else (if c = v then (labels m d).count c + 1 else (labels m d).count c))
      = d.classes.map (fun c => ((labels m d).set i v).count c) := by
    apply List.map_congr_left
    intro c _
    have hc := hcnt c
    by_cases h1 : c = p.y
    · have hp0 : 0 < (labels m d).count c := by rw [h1]; exact hpos
      rw [if_pos h1] at hc ⊢
      have hdec : ∀ n, 0 < n → decSize n = n - 1 := by
        intro n hn; unfold decSize; rw [if_neg (by omega)]
      rw [hdec _ (by split <;> omega)]
      by_cases h2 : c = v
      · rw [if_pos h2] at hc ⊢; omega
      · rw [if_neg h2] at hc ⊢; omega
    · rw [if_neg h1] at hc ⊢
      by_cases h2 : c = v
      · rw [if_pos h2] at hc ⊢; omega
      · rw [if_neg h2] at hc ⊢; omega
  rw [hmap] at hi2
  have hsam : pts (m.set r { p with y := v }) d.points = (samples m d).set i { p with y := v } :=
    pts_set_nodup hL hnd hr1 _
  have hlabs : (pts (m.set r { p with y := v }) d.points).map Pt.y = (labels m d).set i v := by
    rw [hsam, labels, List.map_set]
  have hlabs' : ∀ d' : Data, d'.points = d.points →
      labels (m.set r { p with y := v }) d' = (labels m d).set i v := by
    intro d' hd'
    rw [← hlabs, labels, samples_eq_pts, hd']
  have hcl : vget (d.classes.map (fun c => ((labels m d).set i v).count c)) (classPos d.classes p.y)
      = .ok (((labels m d).set i v).count p.y) := by
    simp [classPos_getElem? d.classes p.y hpy]
  have hmsz : ¬ (i ≥ d.msize) := by rw [h.msize]; omega
  have hlive := live_set hL r { p with y := v }
  have hcover : ∀ y ∈ (labels m d).set i v, y ∈ d.classes := by
    intro y hy
    rcases List.mem_or_eq_of_mem_set hy with hy | hy
    · exact h.counts.covers y hy
    · exact hy ▸ hv
  have hdims : ∀ q ∈ (samples m d).set i { p with y := v }, q.x.length = d.mdim := by
    intro q hq
    rcases List.mem_or_eq_of_mem_set hq with hq | hq
    · exact h.dims q hq
    · rw [hq]; exact h.dims p (List.mem_of_getElem? hi)
  have hvi : vget d.points i = .ok r := by simpa using hr1
  by_cases h0 : ((labels m d).set i v).count p.y = 0
  · obtain ⟨d', hd'⟩ : ∃ d' : Data, d' = { d with
        dist := (d.classes.map (fun c => ((labels m d).set i v).count c)).eraseIdx (classPos d.classes p.y),
        classes := d.classes.eraseIdx (classPos d.classes p.y),
        classNames := d.classNames.eraseIdx (classPos d.classes p.y) } := ⟨_, rfl⟩
    have hp' : d'.points = d.points := by rw [hd']
    have hc' : d'.classes = d.classes.filter (fun c => c ≠ p.y) := by
      rw [hd']; exact map_eraseIdx_classPos h.counts.nodup hpy
    have hl' := hlabs' d' hp'
    refine ⟨m.set r { p with y := v }, d', ?_, ?_, ?_, hp', ?_⟩
    · unfold updateValue
      simp only [if_neg hmsz, hvi, Res_bind_ok, deref_of_get hr2, h.cls, if_true, hvpos, false_and,
        if_false, hi1, hi2, hcl, h0, Res_pure, hd']
    · rw [samples_eq_pts, hp', hsam]
    · refine ⟨by rw [hp']; exact hlive, by rw [hp', hd']; exact h.msize, by rw [hd']; exact h.cls,
        ⟨?_, ?_, ?_⟩, ?_, by rw [hp', hd']; exact h.mdim0⟩
      · rw [hc']; exact h.counts.nodup.filter _
      · intro y hy
        rw [hl'] at hy
        rw [hc', List.mem_filter]
        refine ⟨hcover y hy, ?_⟩
        have : y ≠ p.y := by
          intro he; subst he
          exact (List.count_eq_zero.1 h0) hy
        simpa using this
      · rw [hl', hd', List.eraseIdx_map]
      · intro q hq
        rw [samples_eq_pts, hp', hsam] at hq
        rw [hd']; exact hdims q hq
    · rw [hc', hl']
      apply List.filter_congr
      intro c _
      have := List.count_eq_zero.1 h0
      by_cases hc : c = p.y
      · subst hc; simp [this]
      · simp [hc]
  · obtain ⟨d', hd'⟩ : ∃ d' : Data, d' = { d with
        dist := d.classes.map (fun c => ((labels m d).set i v).count c) } := ⟨_, rfl⟩
    have hp' : d'.points = d.points := by rw [hd']
    have hc' : d'.classes = d.classes := by rw [hd']
    have hl' := hlabs' d' hp'
    refine ⟨m.set r { p with y := v }, d', ?_, ?_, ?_, hp', ?_⟩
    · unfold updateValue
      simp only [if_neg hmsz, hvi, Res_bind_ok, deref_of_get hr2, h.cls, if_true, hvpos, false_and,
        if_false, hi1, hi2, hcl, h0, Res_pure, hd']
    · rw [samples_eq_pts, hp', hsam]
    · refine ⟨by rw [hp']; exact hlive, by rw [hp', hd']; exact h.msize, by rw [hd']; exact h.cls,
        ⟨?_, ?_, ?_⟩, ?_, by rw [hp', hd']; exact h.mdim0⟩
      · rw [hc']; exact h.counts.nodup
      · intro y hy
        rw [hl'] at hy
        rw [hc']; exact hcover y hy
      · rw [hl', hd']
      · intro q hq
        rw [samples_eq_pts, hp', hsam] at hq
        rw [hd']; exact hdims q hq
    · rw [hc', hl']
      symm
      rw [List.filter_eq_self]
      intro c _
      by_cases hc : c = p.y
      · subst hc
        have := List.count_pos_iff.1 (Nat.pos_of_ne_zero h0)
        simp [this]
      · simp [hc]


/-- Relabelling to an unknown class: the new class is counted twice. -/
theorem updateValue_new {m : Mem T} {d : Data} (h : Consistent m d) (hnd : d.points.Nodup)
    {i : Nat} {p : Pt T} (hi : (samples m d)[i]? = some p) {v : Int} (hv : v ∉ d.classes) :
    updateValue true m d i v = .error .badIterator ∧
    ∃ m' d', updateValue false m d i v = .ok (m', d', true) ∧
      samples m' d' = (samples m d).set i { p with y := v } ∧
      d'.classes.getLast? = some v ∧ d'.dist.getLast? = some 2 ∧ (labels m' d').count v = 1 := by
  have hL := h.livePts
  obtain ⟨r, hr1, hr2⟩ := hL.get i p hi
  have hilt : i < d.points.length := (List.getElem?_eq_some_iff.1 hr1).1
  have hlab : (labels m d)[i]? = some p.y := by simp [labels, hi]
  have hpy : p.y ∈ d.classes := h.counts.covers _ (List.mem_of_getElem? hlab)
  have hpv : v ≠ p.y := fun he => hv (he ▸ hpy)
  have hvpos : classPos d.classes v = d.classes.length := (classPos_eq_length_iff _ _).2 hv
  have hmsz : ¬ (i ≥ d.msize) := by rw [h.msize]; omega
  have hvi : vget d.points i = .ok r := by simpa using hr1
  have hsam : pts (m.set r { p with y := v }) d.points = (samples m d).set i { p with y := v } :=
    pts_set_nodup hL hnd hr1 _
  have hlabs' : ∀ d' : Data, d'.points = d.points →
      (labels (m.set r { p with y := v }) d').count v = 1 := by
    intro d' hd'
    rw [labels, samples_eq_pts, hd', hsam, List.map_set]
    have := count_set (v := v) hlab v
    rw [if_neg hpv, if_pos rfl] at this
    have h0 : (labels m d).count v = 0 :=
      List.count_eq_zero.2 (fun hm => hv (h.counts.covers v hm))
    unfold labels at this h0
    simp only at *
    omega
  have hdlen : d.dist.length = d.classes.length := by rw [h.counts.counts]; simp
  have hpos1 : classPos (d.classes ++ [v]) p.y = classPos d.classes p.y := by
    rw [classPos_eq_idxOf, classPos_eq_idxOf, List.idxOf_append_of_mem hpy]
  have hplt := (classPos_lt_iff _ _).2 hpy
  have hinc : incAt (d.dist ++ [1]) d.classes.length = .ok (d.dist ++ [2]) := by
    unfold incAt
    rw [vget_snoc _ _ _ hdlen.symm]
    simp only [Res_bind_ok, vset]
    rw [if_pos (by simp [hdlen]), ← hdlen]
    simp
  have hdec : ∃ ds, decAt (d.dist ++ [2]) (classPos d.classes p.y) = .ok (ds ++ [2]) ∧
      ds.length = d.classes.length := by
    have hg := decAt_map d.classes (fun c => (labels m d).count c) h.counts.nodup p.y hpy
    rw [← h.counts.counts] at hg
    unfold decAt at hg ⊢
    have hlt : classPos d.classes p.y < d.dist.length := by omega
    have hv1 : vget (d.dist ++ [2]) (classPos d.classes p.y) = vget d.dist (classPos d.classes p.y) := by
      unfold vget
      rw [List.getElem?_append_left hlt]
    rw [hv1]
    have hv2 : vget d.dist (classPos d.classes p.y) = .ok d.dist[classPos d.classes p.y] := by
      simp [hlt]
    rw [hv2]
    simp only [Res_bind_ok, vset]
    rw [if_pos (by simp; omega)]
    refine ⟨d.dist.set (classPos d.classes p.y) (decSize d.dist[classPos d.classes p.y]), ?_, by simp [hdlen]⟩
    rw [List.set_append_left _ _ hlt]
  obtain ⟨ds, hdec, hdsl⟩ := hdec
  have hcnt : vget (ds ++ [2]) (classPos d.classes p.y) = .ok (ds[classPos d.classes p.y]'(by omega)) := by
    rw [vget_eq_ok, List.getElem?_append_left (by omega), List.getElem?_eq_getElem (by omega)]
  refine ⟨?_, ?_⟩
  · unfold updateValue
    simp only [if_neg hmsz, hvi, Res_bind_ok, deref_of_get hr2, h.cls, if_true, hvpos, and_self]
    rfl
  · by_cases h0 : ds[classPos d.classes p.y]'(by omega) = 0
    · refine ⟨m.set r { p with y := v }, { d with
          dist := (ds ++ [2]).eraseIdx (classPos d.classes p.y),
          classes := (d.classes ++ [v]).eraseIdx (classPos d.classes p.y),
          classNames := (d.classNames ++ [toString v]).eraseIdx (classPos d.classes p.y) },
          ?_, hsam, ?_, ?_, hlabs' _ rfl⟩
      · unfold updateValue
        simp only [if_neg hmsz, hvi, Res_bind_ok, deref_of_get hr2, h.cls, if_true, hvpos,
          Bool.false_eq_true, and_false, if_false, hpos1, hinc, hdec, hcnt, h0, Res_pure]
      · simp only
        rw [List.eraseIdx_append_of_lt_length hplt]; simp
      · simp only
        rw [List.eraseIdx_append_of_lt_length (by omega)]; simp
    · refine ⟨m.set r { p with y := v }, { d with
          dist := ds ++ [2], classes := d.classes ++ [v],
          classNames := d.classNames ++ [toString v] },
          ?_, hsam, by simp, by simp, hlabs' _ rfl⟩
      unfold updateValue
      simp only [if_neg hmsz, hvi, Res_bind_ok, deref_of_get hr2, h.cls, if_true, hvpos,
          Bool.false_eq_true, and_false, if_false, hpos1, hinc, hdec, hcnt, h0, Res_pure]

/-! ## Insertion after `clear` -/

/-- Two datasets that agree except for the class distribution (and names/types not read by
insertion). -/
structure AgreeButDist (a b : Data) : Prop where
  points : a.points = b.points
  fnames : a.fnames = b.fnames
  index : a.index = b.index
  classNames : a.classNames = b.classNames
  classes : a.classes = b.classes
  msize : a.msize = b.msize
  mdim : a.mdim = b.mdim
  cls : a.isClassification = b.isClassification
  isEmpty : a.isEmpty = b.isEmpty
  len : a.classes.length ≤ a.dist.length

theorem agree_pushed {a b : Data} (h : AgreeButDist a b) (r n : Nat) :
    AgreeButDist (pushed a r n) (pushed b r n) := by
  refine ⟨?_, ?_, h.index, h.classNames, h.classes, ?_, ?_, h.cls, rfl, h.len⟩
  · simp [pushed, h.points]
  · simp [pushed, h.fnames]
  · simp [pushed, h.msize]
  · simp [pushed, h.mdim]

theorem agree_insertClass {a b b' : Data} (h : AgreeButDist a b) {y l : Int}
    (hb : insertClass b y l = .ok b') : ∃ a', insertClass a y l = .ok a' ∧ AgreeButDist a' b' := by
  unfold insertClass at *
  rw [h.classes]
  by_cases hc : classPos b.classes y = b.classes.length
  · rw [if_pos hc] at hb ⊢
    refine ⟨_, rfl, ?_⟩
    simp at hb; subst hb
    exact ⟨h.points, h.fnames, h.index, by simp [h.classNames], rfl, h.msize, h.mdim, h.cls,
      h.isEmpty, by have := h.len; rw [h.classes] at this; simpa using this⟩
  · rw [if_neg hc] at hb ⊢
    have hlt : classPos b.classes y < b.classes.length := by
      have : classPos b.classes y ≤ b.classes.length := List.findIdx_le_length
      omega
    have hla := h.len
    rw [h.classes] at hla
    have hia : ∃ ds, incAt a.dist (classPos b.classes y) = .ok ds ∧ ds.length = a.dist.length := by
      unfold incAt
      have : vget a.dist (classPos b.classes y) = .ok (a.dist[classPos b.classes y]'(by omega)) := by
        rw [vget_eq_ok, List.getElem?_eq_getElem]
      rw [this]
      simp only [Res_bind_ok, vset]
      rw [if_pos (by omega)]
      exact ⟨_, rfl, by simp⟩
    obtain ⟨ds, e, hl⟩ := hia
    cases hib : incAt b.dist (classPos b.classes y) with
    | error e => simp [hib] at hb
    | ok bs =>
      simp [hib] at hb; subst hb
      refine ⟨{ a with dist := ds }, by simp [e, h.classes], ?_⟩
      exact ⟨h.points, h.fnames, h.index, h.classNames, h.classes, h.msize, h.mdim, h.cls, h.isEmpty,
        by simp only; rw [hl]; exact h.len⟩

theorem agree_insertPtr {m m' : Mem T} {a b b' : Data} {r : Nat} {k f : Bool} (h : AgreeButDist a b)
    (hb : insertPtr m b r k = .ok (m', b', f)) :
    ∃ a', insertPtr m a r k = .ok (m', a', f) ∧ AgreeButDist a' b' := by
  unfold insertPtr at *
  cases hr : deref m r with
  | error e => simp [hr] at hb
  | ok p =>
    have hdim : dim m a = dim m b := by simp [dim, h.points]
    have hsz : a.size = b.size := by simp [size, h.points]
    rw [hr] at hb
    simp only [Res_bind_ok, hdim, hsz] at hb ⊢
    cases hd : dim m b with
    | error e => simp [hd] at hb
    | ok n =>
      simp only [hd, Res_bind_ok] at hb ⊢
      by_cases hrej : b.size > 0 ∧ p.x.length ≠ n
      · rw [if_pos hrej] at hb ⊢
        simp at hb
        obtain ⟨rfl, rfl, rfl⟩ := hb
        exact ⟨a, rfl, h⟩
      · rw [if_neg hrej] at hb ⊢
        have hP := agree_pushed h r p.x.length
        have key : ∀ b2, pushClass m (pushed b r p.x.length) p.y = .ok b2 →
            ∃ a2, pushClass m (pushed a r p.x.length) p.y = .ok a2 ∧ AgreeButDist a2 b2 := by
          intro b2 hb2
          unfold pushClass at *
          rw [hP.cls, hP.points, hP.msize]
          cases hc : (pushed b r p.x.length).isClassification with
          | false =>
            simp [hc] at hb2
            exact ⟨_, by simp, hb2 ▸ hP⟩
          | true =>
            simp only [hc, if_true] at hb2 ⊢
            cases hv : vget (pushed b r p.x.length).points ((pushed b r p.x.length).msize - 1) with
            | error e => simp [hv] at hb2
            | ok lr =>
              simp only [hv, Res_bind_ok] at hb2 ⊢
              cases hl : deref m lr with
              | error e => simp [hl] at hb2
              | ok last =>
                simp only [hl, Res_bind_ok] at hb2 ⊢
                exact agree_insertClass hP hb2
        cases hpc : pushClass m (pushed b r p.x.length) p.y with
        | error e => simp [hpc] at hb
        | ok b2 =>
          obtain ⟨a2, ha2, h2⟩ := key b2 hpc
          rw [hpc] at hb
          rw [ha2]
          simp only [Res_bind_ok] at hb ⊢
          have hid : assignId m a2 k = assignId m b2 k := by
            unfold assignId; rw [h2.points, h2.msize]
          rw [hid]
          cases hai : assignId m b2 k with
          | error e => simp [hai] at hb
          | ok m2 =>
            simp [hai] at hb
            obtain ⟨rfl, rfl, rfl⟩ := hb
            exact ⟨_, rfl, ⟨h2.points, h2.fnames, by simp [h2.index, h2.points], h2.classNames, h2.classes, h2.msize,
              h2.mdim, h2.cls, h2.isEmpty, h2.len⟩⟩

theorem agree_run {ops : List (InsOp T)} : ∀ {m m' : Mem T} {a b b' : Data} {fl : List Bool},
    AgreeButDist a b → runInserts m b ops = .ok (m', b', fl) →
    ∃ a', runInserts m a ops = .ok (m', a', fl) ∧ AgreeButDist a' b' := by
  induction ops with
  | nil =>
    intro m m' a b b' fl h hb
    simp [runInserts] at hb
    obtain ⟨rfl, rfl, rfl⟩ := hb
    exact ⟨a, rfl, h⟩
  | cons op ops ih =>
    intro m m' a b b' fl h hb
    simp only [runInserts] at hb ⊢
    cases he : op.exec m b with
    | error e => simp [he] at hb
    | ok x =>
      obtain ⟨m1, b1, f1⟩ := x
      have : ∃ a1, op.exec m a = .ok (m1, a1, f1) ∧ AgreeButDist a1 b1 := by
        cases op with
        | val p k => exact agree_insertPtr h he
        | ptr r k => exact agree_insertPtr h he
      obtain ⟨a1, ha1, h1⟩ := this
      rw [he] at hb
      rw [ha1]
      simp only [Res_bind_ok] at hb ⊢
      cases hrr : runInserts m1 b1 ops with
      | error e => simp [hrr] at hb
      | ok y =>
        obtain ⟨m2, b2, f2⟩ := y
        obtain ⟨a2, ha2, h2⟩ := ih h1 hrr
        simp [hrr] at hb
        obtain ⟨rfl, rfl, rfl⟩ := hb
        exact ⟨a2, by simp [ha2], h2⟩

end MLTK.Data
