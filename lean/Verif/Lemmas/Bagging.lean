import Verif.Model.Bagging
import Verif.Spec.Bagging
import Verif.Lemmas.TrainTest
import Verif.Lemmas.SplitClass
import Verif.Props.Features
namespace MLTK.Bag
open MLTK.Spec
open MLTK.Data
variable {T : Type}

theorem insertAll_inv (keep : Bool) (D : Nat) :
    ∀ (rs : List Nat) (m : Mem T) (d : Data), Live m rs → (∀ p ∈ pts m rs, p.x.length = D) →
      Inv m d → (d.points ≠ [] → d.mdim = D) →
      ∃ m' d', insertAll keep m d rs = .ok (m', d') ∧ Inv m' d' ∧ SameUpToIds m m' ∧
        (∀ x, x ∉ rs → m'[x]? = m[x]?) ∧ d'.points = d.points ++ rs ∧
        (keep = false → (d.points ++ rs).Nodup →
          (samples m' d').map Pt.id = (samples m d).map Pt.id ++ List.range' (d.points.length + 1) rs.length) := by
  intro rs
  induction rs with
  | nil => intro m d _ _ hd _; exact ⟨m, d, rfl, hd, rfl, fun _ _ => rfl, by simp, by simp⟩
  | cons r rs ih =>
    intro m d hL hdim hd hD
    obtain ⟨⟨p, hr⟩, hL2⟩ := hL.cons
    rw [pts_cons hr] at hdim
    have hpD := hdim p (by simp)
    obtain ⟨m1, d1, e, ha⟩ := insertPtr_accepted hd hr keep (by
      by_cases h0 : d.points = []
      · exact Or.inl h0
      · exact Or.inr (by rw [hpD, hD h0]))
    obtain ⟨m', d', e2, h1, h2, h4, h5, h6⟩ := ih m1 d1 (SameUpToIds_live ha.same hL2)
      (SameUpToIds_dims ha.same rs (fun q hq => hdim q (by simp [hq]))) ha.inv (fun _ => by rw [ha.mdim, hpD])
    refine ⟨m', d', ?_, h1, ha.same.trans h2, ?_, ?_, ?_⟩
    · simp only [insertAll, e, Res_bind_ok, e2]
    · intro x hx
      simp only [List.mem_cons, not_or] at hx
      rw [h4 x hx.2, ha.mem]
      split
      · rfl
      · exact List.getElem?_set_ne (fun h => hx.1 h.symm)
    · rw [h5, ha.points]; simp
    · intro hk hnd
      have hnd1 : (d1.points ++ rs).Nodup := by rw [ha.points]; simpa using hnd
      rw [h6 hk hnd1]
      have hlt : r < m.length := (List.getElem?_eq_some_iff.1 hr).1
      have hrn : r ∉ d.points := by
        intro hm
        exact (List.nodup_append.1 hnd).2.2 r hm r (by simp) rfl
      have hs1 : (samples m1 d1).map Pt.id = (samples m d).map Pt.id ++ [d.points.length + 1] := by
        have hm1 : m1 = m.set r { p with id := d.points.length + 1 } := by rw [ha.mem, hk]; rfl
        have hp1 : pts m1 d.points = pts m d.points := by
          unfold pts
          apply List.filterMap_congr
          intro x hx
          rw [hm1]
          refine List.getElem?_set_ne ?_
          rintro rfl; exact hrn hx
        have hg : m1[r]? = some { p with id := d.points.length + 1 } := by
          rw [hm1]; simp [hlt]
        rw [samples_eq_pts, ha.points, pts_append, hp1, pts_cons hg, samples_eq_pts]
        simp
      rw [hs1, ha.points]
      simp [List.range'_succ]

theorem take_mem {m : Mem T} {ps : List Nat} (hL : Live m ps) (k : Nat) {x : Nat} (hx : x ∈ ps.take k) :
    ∃ p, m[x]? = some p ∧ p ∈ (pts m ps).take k := by
  obtain ⟨p, hp⟩ := hL x (List.mem_of_mem_take hx)
  refine ⟨p, hp, ?_⟩
  obtain ⟨i, hi, hxi⟩ := List.getElem_of_mem hx
  have hik : i < k := by simp at hi; omega
  have hil : i < ps.length := by simp at hi; omega
  have hmap := congrArg (fun l => l[i]?) hL.map_some
  have hpx : ps[i] = x := by simpa using hxi
  simp only [List.getElem?_map, List.getElem?_eq_getElem hil, hpx, hp, Option.map_some] at hmap
  have hget : (pts m ps)[i]? = some p := by
    cases hq : (pts m ps)[i]? with
    | none => simp [hq] at hmap
    | some q => simp [hq] at hmap; rw [hmap]
  refine List.mem_of_getElem? (i := i) ?_
  rw [List.getElem?_take, if_pos hik, hget]

theorem sum_counts (cs : List Int) (hn : cs.Nodup) (ls : List Int) (h : ∀ y ∈ ls, y ∈ cs) :
    (cs.map (fun c => ls.count c)).sum = ls.length := by
  have := (filter_partition (fun a : Int => a) cs hn ls h).length_eq
  rw [List.length_flatMap] at this
  rw [← this]
  congr 1
  apply List.map_congr_left
  intro c _
  rw [List.count_eq_length_filter]
  congr 1

theorem count_labels (m : Mem T) (d : Data) (c : Int) :
    (labels m d).count c = ((samples m d).filter (fun p => p.y = c)).length := by
  unfold labels
  rw [List.count_eq_length_filter, List.filter_map, List.length_map]
  congr 1

/-- The lists of the classes given to the draws, in terms of the dataset. -/
theorem class_lists {m m' : Mem T} {d : Data} (h : Consistent m d) {parts : List Data}
    (hl : parts.length = d.classes.length) (hok : ∀ p ∈ parts, PartOK m' d.mdim p)
    (hp : ∀ (j : Nat) (c : Int), d.classes[j]? = some c → ∃ part, parts[j]? = some part ∧
        (samples m' part).map content = ((samples m d).filter (fun p => p.y = c)).map content ∧
        (false = true → samples m' part = (samples m d).filter (fun p => p.y = c))) :
    List.Forall₂ (fun c ps => Live m' ps ∧ (pts m' ps).map content = (ofClass m d c).map content ∧
      ps.length = (labels m d).count c) d.classes (parts.map Data.points) := by
  rw [List.forall₂_iff_get]
  refine ⟨by simp [hl], ?_⟩
  intro i h1 h2
  have h3 : i < parts.length := by simpa using h2
  obtain ⟨part, e1, e2, -⟩ := hp i d.classes[i] (List.getElem?_eq_getElem h1)
  have e3 : parts[i] = part := by
    rw [List.getElem?_eq_getElem h3] at e1; exact Option.some.inj e1
  have hL : Live m' part.points := (hok part (List.mem_of_getElem? e1)).cons.livePts
  have hlen := congrArg List.length e2
  simp only [List.length_map] at hlen
  simp only [List.get_eq_getElem, List.getElem_map, e3]
  refine ⟨hL, e2, ?_⟩
  rw [count_labels, ← hlen, samples_eq_pts, hL.length]

theorem forall₂_length_map {α β γ : Type} {f : α → γ} {g : β → γ} {l : List α} {l' : List β}
    (h : List.Forall₂ (fun a b => g b = f a) l l') : l'.map g = l.map f := by
  induction h with
  | nil => rfl
  | cons a _ ih => simp [a, ih]

theorem flatMap_replicate_first (cs : List Int) (hn : cs.Nodup) (k : Int → Nat) (hk : ∀ c ∈ cs, 0 < k c) :
    FirstAppearanceOrder (cs.flatMap (fun c => List.replicate (k c) c)) cs := by
  unfold FirstAppearanceOrder
  have key : ∀ (cs : List Int), cs.Nodup → (∀ c ∈ cs, 0 < k c) →
      cs.Pairwise (fun a b => (cs.flatMap (fun c => List.replicate (k c) c)).idxOf a
        < (cs.flatMap (fun c => List.replicate (k c) c)).idxOf b) := by
    intro cs
    induction cs with
    | nil => intro _ _; exact List.Pairwise.nil
    | cons a cs ih =>
      intro hn hk
      obtain ⟨ha, hn2⟩ := List.nodup_cons.1 hn
      have hrep : ∀ c ∈ cs, c ∉ List.replicate (k a) a := by
        intro c hc hm
        exact ha ((List.eq_of_mem_replicate hm) ▸ hc)
      have hka := hk a (by simp)
      have hidx : ∀ c ∈ cs, (List.flatMap (fun c => List.replicate (k c) c) (a :: cs)).idxOf c
          = k a + (cs.flatMap (fun c => List.replicate (k c) c)).idxOf c := by
        intro c hc
        rw [List.flatMap_cons, List.idxOf_append, if_neg (hrep c hc), List.length_replicate]
        omega
      have hidxa : (List.flatMap (fun c => List.replicate (k c) c) (a :: cs)).idxOf a = 0 := by
        rw [List.flatMap_cons]
        obtain ⟨j, hj⟩ : ∃ j, k a = j + 1 := ⟨k a - 1, by omega⟩
        rw [hj, List.replicate_succ, List.cons_append, List.idxOf_cons_self]
      refine List.Pairwise.cons ?_ ?_
      · intro b hb
        rw [hidxa, hidx b hb]; omega
      · refine List.Pairwise.imp_of_mem ?_ (ih hn2 (fun c hc => hk c (by simp [hc])))
        intro b c hb hc hlt
        rw [hidx b hb, hidx c hc]; omega
  exact key cs hn hk

theorem first_unique {ls a b : List Int} (ha : FirstAppearanceOrder ls a) (hb : FirstAppearanceOrder ls b)
    (hna : a.Nodup) (hnb : b.Nodup) (hm : ∀ c, c ∈ a ↔ c ∈ b) : a = b := by
  refine List.Perm.eq_of_pairwise (le := fun a b => ls.idxOf a < ls.idxOf b) ?_ ha hb
    ((List.perm_ext_iff_of_nodup hna hnb).2 hm)
  intro x y _ _ h1 h2
  omega

theorem drawClass_const {α : Type} (i fuel : Nat) (cls : List α) (hi : Nat) (x : α) (hx : cls[min i hi]? = some x) :
    ∀ (cnt : Nat) (ids : List Nat) (k : Nat), Feat.drawClass (fun _ hi => min i hi) true fuel cls hi cnt (ids, k)
      = .ok (some (List.replicate cnt x, ids, k + cnt)) := by
  intro cnt
  induction cnt with
  | zero => intro ids k; rfl
  | succ cnt ih =>
    intro ids k
    have hv : vget cls (min i hi) = .ok x := by rw [vget_eq_ok, hx]
    simp only [Feat.drawClass, if_true, hv, Res_bind_ok, ih, Res_pure, List.replicate_succ]
    rw [Nat.add_assoc, Nat.add_comm 1 cnt]

theorem drawAll_const {α : Type} (i fuel : Nat) (q : List α → Nat) : ∀ (classes : List (List α)) (st : List Nat × Nat),
    (∀ c ∈ classes, 1 ≤ q c ∧ q c ≤ c.length) → ∀ out,
    Feat.drawAll (fun _ hi => min i hi) true fuel (classes.map (fun c => (c, q c - 1, q c))) st = .ok (some out) →
    List.Forall₂ (fun c o => i < o.length → ∀ x, c[i]? = some x → x ∈ o) classes out := by
  intro classes
  induction classes with
  | nil =>
    intro st _ out h
    simp [Feat.drawAll] at h
    subst h
    exact List.Forall₂.nil
  | cons c cs ih =>
    intro st h out ho
    obtain ⟨a1, a2⟩ := h c (by simp)
    obtain ⟨ids, k⟩ := st
    have hlt : min i (q c - 1) < c.length := by omega
    have hcl := drawClass_const i fuel c (q c - 1) c[min i (q c - 1)] (List.getElem?_eq_getElem hlt) (q c) ids k
    simp only [List.map_cons, Feat.drawAll, hcl, Res_bind_ok] at ho
    cases hr : Feat.drawAll (fun _ hi => min i hi) true fuel (cs.map (fun c => (c, q c - 1, q c))) (ids, k + q c) with
    | error e => rw [hr] at ho; cases ho
    | ok r =>
      rw [hr, Res_bind_ok] at ho
      cases r with
      | none => simp at ho
      | some ys =>
        simp only [Res_pure, Except.ok.injEq, Option.some.injEq] at ho
        subst ho
        refine List.Forall₂.cons ?_ (ih _ (fun x hx => h x (by simp [hx])) ys hr)
        intro hi x hx
        simp only [List.length_replicate] at hi
        have hmin : min i (q c - 1) = i := by omega
        refine List.mem_replicate.2 ⟨by omega, ?_⟩
        have := List.getElem?_eq_getElem hlt
        simp only [hmin] at this
        rw [hx] at this
        simpa [hmin] using Option.some.inj this

/-- Always drawing position `i` reaches the sample at that position. -/
theorem sampling_const {α : Type} (i fuel : Nat) (classes : List (List α)) (samp : Nat) (h1 : 0 < samp)
    (h2 : samp ≤ (classes.map List.length).sum) (hne : ∀ c ∈ classes, c ≠ []) (out : List (List α))
    (h : Feat.sampling (fun _ hi => min i hi) fuel classes samp true = .ok (some out)) :
    List.Forall₂ (fun c o => i < o.length → ∀ x, c[i]? = some x → x ∈ o) classes out := by
  obtain ⟨e, hq⟩ := Feat.sampling_eq (fun _ hi => min i hi) fuel classes samp true h1 h2 hne
  rw [e] at h
  exact drawAll_const i fuel (fun c => Feat.quota (Feat.share (classes.map List.length).sum samp c.length)) classes _ hq
    out h

/-- Sampling with replacement: the whole result. -/
theorem samplingData_ok {m : Mem T} {d : Data} (h : Consistent m d) (hcl : ∀ c ∈ d.classes, c ∈ labels m d)
    {draw : Nat → Nat → Nat} (hdraw : Props.InRange draw) (fuel : Nat) {samp : Nat} (h1 : 0 < samp)
    (h2 : samp ≤ d.size) :
    ∃ m' s, samplingData m d draw fuel samp true = .ok (some (m', s)) ∧ Bootstrap m d samp m' s ∧
      m.length ≤ m'.length ∧ (∀ x, x < m.length → m'[x]? = m[x]?) ∧ (∀ r ∈ s.points, m.length ≤ r) ∧
      (∀ p ∈ samples m' s, content p ∈ ((ofClass m d p.y).take (bootShare m d samp p.y)).map content) ∧
      (s.points.Nodup → (samples m' s).map Pt.id = List.range' 1 s.points.length) ∧
      ∀ i, draw = (fun _ hi => min i hi) → ∀ c, i < bootShare m d samp c → ∀ q, (ofClass m d c)[i]? = some q →
        content q ∈ (samples m' s).map content := by
  obtain ⟨m1, parts, e, hl, hok, hf, hp, hfresh⟩ := splitByClasses_ok h false
  have hsz : (samples m d).length = d.size := h.livePts.length
  have hlists := class_lists h hl hok hp
  have hdist : (parts.map Data.points).map List.length = d.dist := by
    rw [h.counts.counts]
    exact forall₂_length_map (hlists.imp (fun _ _ hh => hh.2.2))
  have hsum : ((parts.map Data.points).map List.length).sum = d.size := by
    rw [hdist, h.counts.counts, sum_counts _ h.counts.nodup _ h.counts.covers, ← hsz]
    simp [labels]
  have hne : ∀ c ∈ parts.map Data.points, c ≠ [] := by
    intro c hc he
    have : c.length ∈ d.dist := by rw [← hdist]; exact List.mem_map_of_mem hc
    rw [h.counts.counts] at this
    obtain ⟨y, hy, hyc⟩ := List.mem_map.1 this
    have := List.count_pos_iff.2 (hcl y hy)
    rw [he] at hyc
    simp at hyc
    omega
  obtain ⟨out, eo, ho⟩ := Props.C18_with_replacement_partial draw hdraw fuel (parts.map Data.points) samp h1
    (by rw [hsum]; exact h2) hne
  have hsamp : ¬ samp > d.size := by omega
  have eo' : (do
      let his ← (d.dist.map (Feat.share d.size samp)).mapM Feat.upper
      Feat.drawAll draw true fuel ((parts.map Data.points).zip
        (his.zip ((d.dist.map (Feat.share d.size samp)).map Feat.quota))) ([], 0)) = .ok (some out) := by
    have hsh : (parts.map Data.points).map (fun c => Feat.share d.size samp c.length)
        = d.dist.map (Feat.share d.size samp) := by
      rw [← hdist]; simp [Function.comp_def]
    unfold Feat.sampling at eo
    simp only [hsum] at eo
    rw [if_neg hsamp] at eo
    rw [← hsh]
    exact eo
  -- per class
  have hall : List.Forall₂ (fun c o => o.length = bootShare m d samp c ∧ ∀ x ∈ o, ∃ p, m1[x]? = some p ∧
      p.y = c ∧ m.length ≤ x ∧ p.x.length = d.mdim ∧
      content p ∈ ((ofClass m d c).take (bootShare m d samp c)).map content) d.classes out := by
    rw [List.forall₂_iff_get] at hlists ho ⊢
    refine ⟨hlists.1.trans ho.1, ?_⟩
    intro i i1 i2
    have i3 : i < (parts.map Data.points).length := by rw [← hlists.1]; exact i1
    obtain ⟨a1, a2, a3⟩ := hlists.2 i i1 i3
    obtain ⟨b1, b2⟩ := ho.2 i i3 i2
    have hbs : (out.get ⟨i, i2⟩).length = bootShare m d samp (d.classes.get ⟨i, i1⟩) := by
      rw [b1, hsum, a3, bootShare, hsz]
    refine ⟨hbs, ?_⟩
    intro x hx
    have hx2 := b2 x hx
    rw [hbs] at hx2
    obtain ⟨p, p1, p2⟩ := take_mem a1 _ hx2
    have hpm : content p ∈ ((ofClass m d (d.classes.get ⟨i, i1⟩)).take
        (bootShare m d samp (d.classes.get ⟨i, i1⟩))).map content := by
      rw [List.map_take, ← a2, ← List.map_take]
      exact List.mem_map_of_mem p2
    obtain ⟨q, q1, q2⟩ := List.mem_map.1 hpm
    have q3 := List.mem_of_mem_take q1
    have q4 : q ∈ samples m d ∧ q.y = d.classes.get ⟨i, i1⟩ := by
      simpa [ofClass] using q3
    have hyx : p.y = q.y ∧ p.x = q.x := by
      simp [content] at q2
      exact ⟨q2.2.1.symm, q2.1.symm⟩
    refine ⟨p, p1, by rw [hyx.1, q4.2], ?_, by rw [hyx.2]; exact h.dims q q4.1, hpm⟩
    have hmem : (parts.map Data.points).get ⟨i, i3⟩ ∈ parts.map Data.points := List.get_mem _ _
    obtain ⟨part, hpart, hpe⟩ := List.mem_map.1 hmem
    refine hfresh part hpart x ?_
    rw [hpe]
    exact List.mem_of_mem_take hx2
  have hflat : ∀ x ∈ out.flatten, ∃ p, m1[x]? = some p ∧ m.length ≤ x ∧ p.x.length = d.mdim ∧
      content p ∈ ((ofClass m d p.y).take (bootShare m d samp p.y)).map content := by
    intro x hx
    obtain ⟨o, ho1, hxo⟩ := List.mem_flatten.1 hx
    obtain ⟨i, hi, hoi⟩ := List.getElem_of_mem ho1
    rw [List.forall₂_iff_get] at hall
    obtain ⟨-, g⟩ := hall.2 i (by rw [hall.1]; exact hi) hi
    obtain ⟨p, p1, p2, p3, p4, p5⟩ := g x (by simpa [hoi] using hxo)
    exact ⟨p, p1, p3, p4, by rw [p2]; exact p5⟩
  have hL : Live m1 out.flatten := fun x hx => by
    obtain ⟨p, p1, -⟩ := hflat x hx; exact ⟨p, p1⟩
  have hpt : ∀ p ∈ pts m1 out.flatten, ∃ x ∈ out.flatten, m1[x]? = some p := by
    intro p hp
    exact List.mem_filterMap.1 hp
  obtain ⟨m', s, e3, hI, hs, hfr, hpts, hids⟩ := insertAll_inv false d.mdim out.flatten m1 Data.empty hL
    (by
      intro p hp
      obtain ⟨x, x1, x2⟩ := hpt p hp
      obtain ⟨q, q1, q2, q3, q4⟩ := hflat x x1
      rw [x2] at q1
      rw [Option.some.inj q1]; exact q3)
    (inv_empty m1) (fun h => absurd rfl h)
  have hpts' : s.points = out.flatten := by rw [hpts]; rfl
  have hcont : (samples m' s).map content = (pts m1 out.flatten).map content := by
    rw [samples_eq_pts, hpts', ← SameUpToIds_pts hs]
  have hlab : labels m' s = d.classes.flatMap (fun c => List.replicate (bootShare m d samp c) c) := by
    have : labels m' s = (pts m1 out.flatten).map Pt.y := by
      unfold labels
      rw [content_y, hcont, ← content_y]
    rw [this]
    clear this hcont hpts' hids hfr hpts hpt hL hflat eo' eo ho e3 hI hs hdist hlists hcl hl hp
    revert hall
    generalize d.classes = cs
    intro hall
    induction hall with
    | nil => rfl
    | @cons c o cs os a _ ih =>
      rw [List.flatten_cons, pts_append, List.map_append, ih, List.flatMap_cons]
      congr 1
      have : ∀ o : List Nat, (∀ x ∈ o, ∃ p, m1[x]? = some p ∧ p.y = c) →
          (pts m1 o).map Pt.y = List.replicate o.length c := by
        intro o
        induction o with
        | nil => intro _; rfl
        | cons x o iho =>
          intro hh
          obtain ⟨p, p1, p2⟩ := hh x (by simp)
          rw [pts_cons p1, List.map_cons, iho (fun z hz => hh z (by simp [hz])), p2, List.length_cons,
            List.replicate_succ]
      rw [this o (fun x hx => by obtain ⟨p, p1, p2, -⟩ := a.2 x hx; exact ⟨p, p1, p2⟩), a.1]
  have hdrawn : ∀ p ∈ samples m' s, content p ∈ ((ofClass m d p.y).take (bootShare m d samp p.y)).map content := by
    intro p hp
    have : content p ∈ (pts m1 out.flatten).map content := by
      rw [← hcont]; exact List.mem_map_of_mem hp
    obtain ⟨q, hq, hqc⟩ := List.mem_map.1 this
    obtain ⟨x, x1, x2⟩ := hpt q hq
    obtain ⟨q', q1, q2, q3, q4⟩ := hflat x x1
    rw [x2] at q1
    rw [← Option.some.inj q1] at q4
    have hy : q.y = p.y := by simp [content] at hqc; exact hqc.2.1
    rw [← hqc, ← hy]; exact q4
  have hpos : ∀ c ∈ d.classes, 0 < bootShare m d samp c := by
    intro c _; unfold bootShare; omega
  have hclasses : s.classes = d.classes := by
    refine first_unique hI.order ?_ hI.table.nodup h.counts.nodup ?_
    · rw [hlab]; exact flatMap_replicate_first _ h.counts.nodup _ hpos
    · intro c
      rw [hI.table.mem, hlab, List.mem_flatMap]
      constructor
      · rintro ⟨a, a1, a2⟩
        rw [List.eq_of_mem_replicate a2]; exact a1
      · intro hc
        exact ⟨c, hc, List.mem_replicate.2 ⟨by have := hpos c hc; omega, rfl⟩⟩
  have hle : m.length ≤ m1.length := by
    by_contra hlt
    have := hf m1.length (by omega)
    rw [List.getElem?_eq_none (Nat.le_refl _), List.getElem?_eq_getElem (by omega)] at this
    cases this
  refine ⟨m', s, ?_, ⟨hI.consistent, hI.table, hclasses, hlab, ?_⟩, ?_, ?_, ?_, hdrawn, ?_, ?_⟩
  · unfold samplingData
    cases hh : (d.dist.map (Feat.share d.size samp)).mapM Feat.upper with
    | error er => rw [hh] at eo'; cases eo'
    | ok his =>
      rw [hh, Res_bind_ok] at eo'
      simp only [if_neg hsamp, e, hh, eo', e3, Res_bind_ok, Res_pure]
  · intro p hp
    obtain ⟨q, q1, q2⟩ := List.mem_map.1 (hdrawn p hp)
    exact List.mem_map.2 ⟨q, List.mem_of_mem_take q1, q2⟩
  · rw [← hs.length]; exact hle
  · intro x hx
    rw [hfr x ?_, hf x hx]
    intro hm
    obtain ⟨p, -, g, -⟩ := hflat x hm
    omega
  · intro r hr
    rw [hpts'] at hr
    obtain ⟨p, -, g, -⟩ := hflat r hr
    exact g
  · intro hnd
    have := hids rfl (by rw [← hpts]; exact hnd)
    rw [this, hpts']
    simp [samples, Data.empty]
  · intro i hdi c hic q hq
    rw [hcont]
    subst hdi
    have hconst := sampling_const i fuel (parts.map Data.points) samp h1 (by rw [hsum]; exact h2) hne out eo
    have hqs : q ∈ samples m d ∧ q.y = c := by
      have := List.mem_of_getElem? hq
      simpa [ofClass] using this
    have hcm : c ∈ d.classes := h.counts.covers c (List.mem_map.2 ⟨q, hqs⟩)
    obtain ⟨j, hj, hjc⟩ := List.getElem_of_mem hcm
    rw [List.forall₂_iff_get] at hlists hconst hall
    have j2 : j < (parts.map Data.points).length := by rw [← hlists.1]; exact hj
    have j3 : j < out.length := by rw [← hconst.1]; exact j2
    obtain ⟨a1, a2, a3⟩ := hlists.2 j hj j2
    have b := hconst.2 j j2 j3
    obtain ⟨c1, c2⟩ := hall.2 j hj j3
    simp only [List.get_eq_getElem, hjc] at a1 a2 a3 b c1 c2
    have hgi : ((pts m1 ((parts.map Data.points)[j])).map content)[i]? = some (content q) := by
      rw [a2, List.getElem?_map, hq]; rfl
    have hmap := congrArg (fun l => l[i]?) a1.map_some
    simp only [List.getElem?_map] at hmap hgi
    cases hpi : (pts m1 ((parts.map Data.points)[j]))[i]? with
    | none => rw [hpi] at hgi; cases hgi
    | some p =>
      obtain ⟨x, x1, x2⟩ := a1.get i p hpi
      have hxo := b (by rw [c1]; exact hic) x x1
      rw [hpi] at hgi
      have hcq : content p = content q := by simpa using hgi
      refine List.mem_map.2 ⟨p, ?_, hcq⟩
      exact List.mem_filterMap.2 ⟨x, List.mem_flatten.2 ⟨_, List.getElem_mem j3, hxo⟩, x2⟩

theorem samples_frame {m m1 : Mem T} {d : Data} (hL : Live m d.points)
    (hf : ∀ x, x < m.length → m1[x]? = m[x]?) : samples m1 d = samples m d :=
  pts_frame (fun _ hx => hL.lt hx) hf

theorem consistent_frame {m m1 : Mem T} {d : Data} (h : Consistent m d)
    (hf : ∀ x, x < m.length → m1[x]? = m[x]?) : Consistent m1 d := by
  have hs := samples_frame h.livePts hf
  refine ⟨?_, h.msize, h.cls, ?_, ?_, h.mdim0⟩
  · intro r hr
    obtain ⟨p, hp⟩ := h.live r hr
    exact ⟨p, by rw [hf r (h.livePts.lt hr), hp]⟩
  · unfold labels; rw [hs]; exact h.counts
  · rw [hs]; exact h.dims

theorem bootShare_congr {m m1 : Mem T} {d : Data} (hs : samples m1 d = samples m d) (samp : Nat) :
    bootShare m1 d samp = bootShare m d samp := by
  funext c; simp [bootShare, labels, hs]

theorem ofClass_congr {m m1 : Mem T} {d : Data} (hs : samples m1 d = samples m d) :
    ofClass m1 d = ofClass m d := by
  funext c; simp [ofClass, hs]

theorem bootstrap_source {m m1 m' : Mem T} {d s : Data} {samp : Nat} (hs : samples m1 d = samples m d)
    (h : Bootstrap m1 d samp m' s) : Bootstrap m d samp m' s := by
  refine ⟨h.cons, h.table, h.classes, ?_, ?_⟩
  · rw [← bootShare_congr hs]; exact h.labels
  · rw [← ofClass_congr hs]; exact h.drawn

theorem bootstrap_frame {m m' m2 : Mem T} {d s : Data} {samp : Nat}
    (h : Bootstrap m d samp m' s) (hf : ∀ x, x < m'.length → m2[x]? = m'[x]?) : Bootstrap m d samp m2 s := by
  have hs := samples_frame h.cons.livePts hf
  have hl : labels m2 s = labels m' s := by unfold labels; rw [hs]
  refine ⟨consistent_frame h.cons hf, ?_, h.classes, ?_, ?_⟩
  · rw [hl]; exact h.table
  · rw [hl]; exact h.labels
  · rw [hs]; exact h.drawn

/-- What the loop over the estimators gives. -/
theorem trainLoop_ok {d : Data} {draws : Nat → Nat → Nat → Nat} (hdraw : ∀ i, Props.InRange (draws i)) (fuel : Nat)
    {samp : Nat} (h1 : 0 < samp) (h2 : samp ≤ d.size) : ∀ (n i : Nat) (m : Mem T), Consistent m d →
    (∀ c ∈ d.classes, c ∈ labels m d) →
    ∃ m' cs, trainLoop d draws fuel samp n i m = .ok (some (m', cs)) ∧ cs.length = n ∧ m.length ≤ m'.length ∧
      (∀ x, x < m.length → m'[x]? = m[x]?) ∧ (cs.flatMap Data.points).Nodup ∧
      (∀ r ∈ cs.flatMap Data.points, m.length ≤ r) ∧
      ∀ c ∈ cs, Bootstrap m d samp m' c ∧
        ∀ p ∈ samples m' c, content p ∈ ((ofClass m d p.y).take (bootShare m d samp p.y)).map content := by
  intro n
  induction n with
  | zero =>
    intro i m _ _
    exact ⟨m, [], rfl, rfl, Nat.le_refl _, fun _ _ => rfl, by simp, by simp, by simp⟩
  | succ n ih =>
    intro i m h hcl
    obtain ⟨m1, s, e1, hb, hl1, hf1, hr1, hd1, -, -⟩ := samplingData_ok h hcl (hdraw i) fuel h1 h2
    obtain ⟨c, e2, cp, c1, c2, c3, c4, c5, c6, c7, -⟩ := copy_ok hb.cons
    have hcs := copy_samples hb.cons cp
    have hcc := copy_consistent hb.cons cp c2 c3 c4 c5 c7
    have hf2 : ∀ x, x < m.length → (m1 ++ samples m1 s)[x]? = m[x]? := by
      intro x hx
      rw [List.getElem?_append_left (by omega), hf1 x hx]
    have hsd := samples_frame h.livePts hf2
    have hld : labels (m1 ++ samples m1 s) d = labels m d := by unfold labels; rw [hsd]
    obtain ⟨m', cs, e3, g1, g2, g3, g4, g5, g6⟩ := ih (i + 1) (m1 ++ samples m1 s) (consistent_frame h hf2)
      (by rw [hld]; exact hcl)
    have hbc : Bootstrap m d samp (m1 ++ samples m1 s) c := by
      have hl : labels (m1 ++ samples m1 s) c = labels m1 s := by unfold labels; rw [hcs]
      refine ⟨hcc, ?_, by rw [c2, hb.classes], by rw [hl, hb.labels], by rw [hcs]; exact hb.drawn⟩
      rw [hl, c2, c3]; exact hb.table
    have hlen : (m1 ++ samples m1 s).length = m1.length + s.size := by
      rw [List.length_append]
      congr 1
      exact hb.cons.livePts.length
    refine ⟨m', c :: cs, ?_, by simp [g1], ?_, ?_, ?_, ?_, ?_⟩
    · simp only [trainLoop, e1, e2, e3, Res_bind_ok, Res_pure]
    · omega
    · intro x hx
      rw [g3 x (by omega), hf2 x hx]
    · rw [List.flatMap_cons, List.nodup_append]
      refine ⟨by rw [cp]; exact List.nodup_range', g4, ?_⟩
      intro a ha b hb' hab
      have := g5 b hb'
      rw [cp] at ha
      have := List.mem_range'_1.1 ha
      omega
    · intro r hr
      rw [List.flatMap_cons] at hr
      rcases List.mem_append.1 hr with hr | hr
      · rw [cp] at hr
        have := List.mem_range'_1.1 hr
        omega
      · have := g5 r hr
        omega
    · intro c' hc'
      rcases List.mem_cons.1 hc' with rfl | hc'
      · refine ⟨bootstrap_frame hbc g3, ?_⟩
        rw [samples_frame hbc.cons.livePts g3, hcs]
        exact hd1
      · obtain ⟨q1, q2⟩ := g6 c' hc'
        refine ⟨bootstrap_source hsd q1, ?_⟩
        rw [bootShare_congr hsd, ofClass_congr hsd] at q2
        exact q2

end MLTK.Bag
