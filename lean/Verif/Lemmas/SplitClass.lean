import Verif.Lemmas.SplitLoop
namespace MLTK.Data
open MLTK.Spec
variable {T : Type}

theorem pts_frame {m m1 : Mem T} {ps : List Nat} {n : Nat} (hl : ∀ x ∈ ps, x < n)
    (hf : ∀ x, x < n → m1[x]? = m[x]?) : pts m1 ps = pts m ps := by
  unfold pts
  apply List.filterMap_congr
  intro r hr
  exact hf r (hl r hr)

theorem classLoop_ok (keep : Bool) (classes : List Int) (hn : classes.Nodup) (D : Nat) :
    ∀ (rs : List Nat) (m : Mem T) (parts : List Data),
      Live m rs → (∀ p ∈ pts m rs, p.x.length = D ∧ p.y ∈ classes) →
      parts.length = classes.length → (∀ p ∈ parts, PartOK m D p) →
      ∃ m' parts', classLoop keep classes m parts rs = .ok (m', parts') ∧
        parts'.length = classes.length ∧ (∀ p ∈ parts', PartOK m' D p) ∧
        m.length ≤ m'.length ∧ (∀ x, x < m.length → m'[x]? = m[x]?) ∧
        (∀ (j : Nat) (c : Int) (part : Data), classes[j]? = some c → parts[j]? = some part →
          ∃ part', parts'[j]? = some part' ∧
            (samples m' part').map content
              = (samples m part).map content ++ ((pts m rs).filter (fun p => p.y = c)).map content ∧
            (keep = true → samples m' part'
              = samples m part ++ (pts m rs).filter (fun p => p.y = c))) ∧
        (∀ n, n ≤ m.length → (∀ p ∈ parts, ∀ x ∈ p.points, n ≤ x) → ∀ p ∈ parts', ∀ x ∈ p.points, n ≤ x) := by
  intro rs
  induction rs with
  | nil =>
    intro m parts _ _ hl hp
    exact ⟨m, parts, rfl, hl, hp, Nat.le_refl _, fun _ _ => rfl,
      fun j c part _ hj => ⟨part, hj, by simp, by simp⟩, fun _ _ h => h⟩
  | cons r rs ih =>
    intro m parts hL hdim hl hp
    obtain ⟨⟨p, hr⟩, hL2⟩ := hL.cons
    rw [pts_cons hr] at hdim
    obtain ⟨hpD, hpc⟩ := hdim p (by simp)
    have hpos := (classPos_lt_iff _ _).2 hpc
    have hpos' : classPos classes p.y < parts.length := by omega
    have hnew : (m ++ [p])[m.length]? = some p := by simp
    obtain ⟨m1, d1, e, hok, hs, hkeep, hframe, hpts⟩ :=
      ((hp parts[classPos classes p.y] (List.getElem_mem hpos')).alloc [p]).insert hnew hpD keep
    have hlen1 : m1.length = m.length + 1 := by
      have := hs.length; simp at this; omega
    have hf1 : ∀ x, x < m.length → m1[x]? = m[x]? := by
      intro x hx
      rw [hframe x (by omega), List.getElem?_append_left hx]
    have hv : vget parts (classPos classes p.y) = .ok parts[classPos classes p.y] := by
      rw [vget_eq_ok, List.getElem?_eq_getElem]
    have hptsrs : pts m1 rs = pts m rs := pts_frame (fun x hx => hL2.lt hx) hf1
    obtain ⟨m', parts', e2, h1, h2, h3, h4, h5, h6⟩ := ih m1 (parts.set (classPos classes p.y) d1)
      (by intro x hx
          have := hL2.lt hx
          exact ⟨m1[x]'(by omega), List.getElem?_eq_getElem _⟩)
      (by rw [hptsrs]; intro q hq; exact hdim q (by simp [hq])) (by simpa using hl)
      (by intro q hq
          rcases List.mem_or_eq_of_mem_set hq with h | h
          · exact ((hp q h).alloc [p]).of_same hs
          · rw [h]; exact hok)
    refine ⟨m', parts', ?_, h1, h2, by omega, ?_, ?_, ?_⟩
    · simp only [classLoop, deref_of_get hr, Res_bind_ok, hv, insertVal, e]
      exact e2
    · intro x hx
      rw [h4 x (by omega), hf1 x hx]
    · intro j c part hc hj
      have hjl : j < parts.length := (List.getElem?_eq_some_iff.1 hj).1
      have hpm : part ∈ parts := List.mem_of_getElem? hj
      have hsm : ∀ d : Data, d ∈ parts → samples m1 d = samples m d := fun d hd =>
        pts_frame (fun x hx => (hp d hd).cons.livePts.lt hx) hf1
      rw [pts_cons hr]
      by_cases hjt : classPos classes p.y = j
      · subst hjt
        have hpe : parts[classPos classes p.y] = part := (List.getElem?_eq_some_iff.1 hj).2
        have hcp : p.y = c := by
          have := classPos_getElem? classes p.y hpc
          rw [this] at hc; exact Option.some.inj hc
        obtain ⟨part', e3, e4, e5⟩ := h5 _ c d1 hc (by simp [hpos'])
        have hcell : ∃ p', m1[m.length]? = some p' ∧ content p' = content p ∧ (keep = true → p' = p) := by
          have hg := hs.get m.length
          rw [hnew] at hg
          cases h : m1[m.length]? with
          | none => simp [h] at hg
          | some p' =>
            simp [h] at hg
            refine ⟨p', rfl, hg.symm, ?_⟩
            intro hk
            rw [hkeep hk, hnew] at h
            exact (Option.some.inj h).symm
        obtain ⟨p', hp1, hp2, hp3⟩ := hcell
        have hd1 : samples m1 d1 = samples m part ++ [p'] := by
          rw [samples_eq_pts, hpts, pts_append, pts_cons hp1, hpe]
          have := hsm part hpm
          rw [samples_eq_pts] at this
          rw [this]; rfl
        refine ⟨part', e3, ?_, ?_⟩
        · rw [e4, hd1, hptsrs, List.filter_cons, if_pos (by simp [hcp])]
          simp [hp2]
        · intro hk
          rw [e5 hk, hd1, hp3 hk, hptsrs, List.filter_cons, if_pos (by simp [hcp])]
          simp
      · have hcp : p.y ≠ c := by
          intro he
          apply hjt
          have hcl : j < classes.length := (List.getElem?_eq_some_iff.1 hc).1
          have hce : classes[j] = c := (List.getElem?_eq_some_iff.1 hc).2
          rw [he, ← hce]
          exact classPos_of_nodup classes hn j hcl
        obtain ⟨part', e3, e4, e5⟩ := h5 j c part hc (by rw [List.getElem?_set_ne hjt]; exact hj)
        refine ⟨part', e3, ?_, ?_⟩
        · rw [e4, hsm part hpm, hptsrs, List.filter_cons, if_neg (by simpa using hcp)]
        · intro hk
          rw [e5 hk, hsm part hpm, hptsrs, List.filter_cons, if_neg (by simpa using hcp)]
    · intro n hn' hpn
      refine h6 n (by omega) ?_
      intro q hq
      rcases List.mem_or_eq_of_mem_set hq with h | h
      · exact hpn q h
      · rw [h, hpts]
        intro x hx
        rcases List.mem_append.1 hx with hx | hx
        · exact hpn _ (List.getElem_mem hpos') x hx
        · simp at hx; omega

theorem computeAll_id {m : Mem T} {D : Nat} : ∀ (parts : List Data), (∀ p ∈ parts, PartOK m D p) →
    computeAll m parts = .ok parts := by
  intro parts
  induction parts with
  | nil => intro _; rfl
  | cons d ds ih =>
    intro h
    have hd := h d (by simp)
    have hc := computeDist_ok hd.cons.livePts hd.cons.counts.nodup hd.cons.counts.covers hd.cdist
    rw [← hd.cons.counts.counts] at hc
    simp only [computeAll, hc, Res_bind_ok, ih (fun p hp => h p (by simp [hp])), Res_pure]

theorem filter_partition {α : Type} (f : α → Int) (cs : List Int) (hn : cs.Nodup) (l : List α)
    (h : ∀ a ∈ l, f a ∈ cs) : (cs.flatMap (fun c => l.filter (fun a => f a = c))).Perm l := by
  induction l with
  | nil => simp
  | cons a l ih =>
    have ih' := ih (fun b hb => h b (by simp [hb]))
    have hmem := h a (by simp)
    have key : ∀ (js : List Int), js.Nodup → f a ∈ js →
        (js.flatMap (fun c => (a :: l).filter (fun a => f a = c))).Perm
          (a :: js.flatMap (fun c => l.filter (fun a => f a = c))) := by
      intro js
      induction js with
      | nil => intro _ hm; simp at hm
      | cons b js ihj =>
        intro hn hm
        obtain ⟨hb, hn2⟩ := List.nodup_cons.1 hn
        rw [List.flatMap_cons, List.flatMap_cons]
        by_cases hab : f a = b
        · have : js.flatMap (fun c => (a :: l).filter (fun a => f a = c))
              = js.flatMap (fun c => l.filter (fun a => f a = c)) := by
            apply List.flatMap_congr
            intro c hc
            rw [List.filter_cons, if_neg]
            simp only [decide_eq_true_eq]
            intro he; exact hb (by rw [← hab, he]; exact hc)
          rw [this, List.filter_cons, if_pos (by simp [hab])]
          exact List.Perm.refl _
        · rw [List.filter_cons, if_neg (by simpa using hab)]
          have hm' : f a ∈ js := by
            rcases List.mem_cons.1 hm with h' | h'
            · exact absurd h' hab
            · exact h'
          exact ((ihj hn2 hm').append_left _).trans List.perm_middle
    exact (key cs hn hmem).trans (ih'.cons a)

theorem splitByClasses_ok {m : Mem T} {d : Data} (h : Consistent m d) (keep : Bool) :
    ∃ m' parts, splitByClasses m d keep = .ok (m', parts) ∧ parts.length = d.classes.length ∧
      (∀ p ∈ parts, PartOK m' d.mdim p) ∧ (∀ x, x < m.length → m'[x]? = m[x]?) ∧
      (∀ (j : Nat) (c : Int), d.classes[j]? = some c → ∃ part, parts[j]? = some part ∧
        (samples m' part).map content = ((samples m d).filter (fun p => p.y = c)).map content ∧
        (keep = true → samples m' part = (samples m d).filter (fun p => p.y = c))) ∧
      ∀ p ∈ parts, ∀ x ∈ p.points, m.length ≤ x := by
  obtain ⟨c, e, hp, h1, h2, h3, h4, h5, h6, h7, _⟩ := copy_ok h
  have hcs := copy_samples h hp
  have hcc := copy_consistent h hp h2 h3 h4 h5 h7
  obtain ⟨m', parts, e2, g1, g2, g3, g4, g5, g6⟩ :=
    classLoop_ok (T := T) keep d.classes h.counts.nodup d.mdim c.points (m ++ samples m d)
      (List.replicate d.classes.length empty) hcc.livePts
      (by
        rw [← samples_eq_pts, hcs]
        intro p hp
        exact ⟨h.dims p hp, h.counts.covers _ (List.mem_map.2 ⟨p, hp, rfl⟩)⟩)
      (by simp)
      (by intro p hp'; rw [List.eq_of_mem_replicate hp']; exact partOK_empty _ _)
  refine ⟨m', parts, ?_, g1, g2, ?_, ?_, ?_⟩
  · unfold splitByClasses
    simp only [e, Res_bind_ok, h2, e2, computeAll_id parts g2, Res_pure]
  · intro x hx
    rw [g4 x (by simp; omega), List.getElem?_append_left hx]
  · intro j cl hj
    have hjl : j < d.classes.length := (List.getElem?_eq_some_iff.1 hj).1
    obtain ⟨part, e3, e4, e5⟩ := g5 j cl empty hj (by simp [hjl])
    rw [← samples_eq_pts, hcs] at e4 e5
    refine ⟨part, e3, ?_, ?_⟩
    · rw [e4]; simp [samples, empty]
    · intro hk; rw [e5 hk]; simp [samples, empty]
  · refine g6 m.length (by simp) ?_
    intro p hp' x hx
    rw [List.eq_of_mem_replicate hp'] at hx
    simp [empty] at hx

end MLTK.Data
