import Mathlib.Tactic.Linarith
import Mathlib.Data.List.GetD
import Verif.Model.Sampling
import Verif.Spec.Sampling
import Verif.Lemmas.TrainTest
import Verif.Lemmas.Features
/-!
# Lemmas about over-sampling and artificial datasets
-/
namespace MLTK.Sampling
open MLTK.Data
open MLTK.Spec

section
variable {K : Type}

/-- Insertion of a new point by value. -/
theorem insertVal_ok {m : Mem K} {d : Data} (h : Consistent m d) (hix : d.index.length = d.points.length)
    (hnd : d.points.Nodup) (p : Pt K) (hp : d.points = [] ∨ p.x.length = d.mdim) :
    ∃ m' d', insertVal m d p false = .ok (m', d', true) ∧ Consistent m' d' ∧
      samples m' d' = samples m d ++ [{ p with id := d.points.length + 1 }] ∧
      d'.points.length = d.points.length + 1 ∧ d'.mdim = p.x.length ∧ d'.index.length = d'.points.length ∧
      d'.points.Nodup ∧ d'.points ≠ [] := by
  have hg : (m ++ [p])[m.length]? = some p := by simp
  have hc := consistent_alloc h [p]
  rcases insertPtr_consistent hc hg false with ⟨h1, h2, _⟩ | ⟨_, m', d', e, c, hm, _, hpts, hmd, _, _, _, hi⟩
  · rcases hp with hp | hp
    · exact absurd hp h1
    · exact absurd hp h2
  · have hm' : m' = m ++ [{ p with id := d.points.length + 1 }] := by
      rw [hm]
      simp
    refine ⟨m', d', e, c, ?_, by rw [hpts]; simp, hmd, by rw [hi, hpts]; simp [hix], ?_, by rw [hpts]; simp⟩
    · rw [samples_eq_pts, hpts, pts_append, hm', h.livePts.pts_append_mem, ← samples_eq_pts]
      congr 1
      simp [pts]
    · rw [hpts]
      refine List.nodup_append.2 ⟨hnd, by simp, ?_⟩
      intro a ha b hb hab
      simp only [List.mem_singleton] at hb
      have := h.livePts.lt ha
      omega

/-- What the loops that create points maintain. -/
structure Growing (dims : Nat) (m : Mem K) (d : Data) (l : List (List K × Int)) : Prop where
  cons : Consistent m d
  index : d.index.length = d.points.length
  nodup : d.points.Nodup
  mdim : d.points = [] ∨ d.mdim = dims
  content : (samples m d).map labelledPoint = l

theorem Growing.size {dims : Nat} {m : Mem K} {d : Data} {l : List (List K × Int)} (h : Growing dims m d l) :
    d.points.length = l.length := by
  rw [← h.content, List.length_map]
  exact (h.cons.livePts.length).symm

theorem Growing.push {dims : Nat} {m : Mem K} {d : Data} {l : List (List K × Int)} (h : Growing dims m d l)
    (p : Pt K) (hp : p.x.length = dims) :
    ∃ m' d', insertVal m d p false = .ok (m', d', true) ∧ Growing dims m' d' (l ++ [(p.x, p.y)]) := by
  obtain ⟨m', d', e, c, hs, _, hmd, hix, hnd, _⟩ := insertVal_ok h.cons h.index h.nodup p (by
    rcases h.mdim with h1 | h1
    · exact Or.inl h1
    · exact Or.inr (by rw [hp, h1]))
  refine ⟨m', d', e, c, hix, hnd, Or.inr (by rw [hmd, hp]), ?_⟩
  rw [hs, List.map_append, h.content]
  rfl

theorem growing_empty (dims : Nat) (d : Data) (h1 : d.points = []) (h2 : d.msize = 0) (h3 : d.isClassification = true)
    (h4 : d.classes = []) (h5 : d.dist = []) (h6 : d.mdim = 0) (h7 : d.index = []) : Growing (K := K) dims [] d [] := by
  refine ⟨⟨by simp [h1], by simp [h1, h2], h3, ?_, ?_, fun _ => h6⟩, by simp [h1, h7], by simp [h1], Or.inl h1, ?_⟩
  · have : labels ([] : Mem K) d = [] := by simp [labels, samples, h1]
    rw [this, h4, h5]
    exact ⟨by simp, by simp, by simp⟩
  · simp [samples, h1]
  · simp [samples, h1]

/-- Renumbering gives the samples consecutive ids and changes nothing else. -/
theorem renumber_ok : ∀ (rs : List Nat) (i : Nat) (m : Mem K), Live m rs → rs.Nodup →
    ∃ m', renumber i rs m = .ok m' ∧ SameUpToIds m m' ∧
      pts m' rs = (pts m rs).zipIdx.map (fun q => { q.1 with id := i + q.2 + 1 }) ∧ ∀ r, r ∉ rs → m'[r]? = m[r]?
  | [], _, m, _, _ => ⟨m, rfl, rfl, rfl, fun _ _ => rfl⟩
  | r :: rs, i, m, hl, hn => by
    obtain ⟨⟨p, hp⟩, hl2⟩ := hl.cons
    have hsame := sameUpToIds_set hp (i + 1)
    rw [List.nodup_cons] at hn
    have hlive : Live (m.set r { p with id := i + 1 }) rs := by
      intro q hq
      obtain ⟨u, hu⟩ := hl2 q hq
      refine ⟨u, ?_⟩
      have hne : r ≠ q := fun h => hn.1 (h ▸ hq)
      rw [List.getElem?_set_ne hne]
      exact hu
    obtain ⟨m', e, h1, h2, h3⟩ := renumber_ok rs (i + 1) _ hlive hn.2
    refine ⟨m', ?_, hsame.trans h1, ?_, ?_⟩
    · rw [renumber, deref_of_get hp, Res_bind_ok, e]
    · have hr : m'[r]? = some { p with id := i + 1 } := by
        rw [h3 r hn.1, List.getElem?_set_self (List.getElem?_eq_some_iff.1 hp).1]
      have hrest : pts (m.set r { p with id := i + 1 }) rs = pts m rs := by
        unfold pts
        apply List.filterMap_congr
        intro q hq
        have hne : r ≠ q := fun h => hn.1 (h ▸ hq)
        exact List.getElem?_set_ne hne
      rw [pts_cons hr, pts_cons hp, h2, hrest, List.zipIdx_cons, List.map_cons]
      congr 1
      rw [List.zipIdx_eq_map_add, List.map_map, show List.zipIdx (pts m rs) (0 + 1) = _ from List.zipIdx_eq_map_add ..,
        List.map_map]
      apply List.map_congr_left
      intro q _
      simp only [Function.comp_apply, Nat.zero_add]
      congr 1
      omega
    · intro q hq
      rw [List.mem_cons, not_or] at hq
      rw [h3 q hq.2, List.getElem?_set_ne (fun h => hq.1 h.symm)]

/-- Shuffling and renumbering: the same points in some order, with ids 1, 2, … and index 0, 1, …. -/
theorem finish_ok {dims : Nat} {m : Mem K} {d : Data} {l : List (List K × Int)} (h : Growing dims m d l)
    (shuffled : Bool) (σ : List Nat → List Nat) (hσ : ∀ ps, (σ ps).Perm ps) :
    ∃ m' d', finish shuffled σ m d = .ok (m', d') ∧ Consistent m' d' ∧
      ((samples m' d').map labelledPoint).Perm l ∧ (shuffled = false → (samples m' d').map labelledPoint = l) ∧
      (samples m' d').map Pt.id = List.range' 1 l.length ∧ d'.index = iota 0 l.length ∧ d'.size = l.length ∧
      d'.classes = d.classes := by
  -- the order of the pointers
  obtain ⟨d1, e1, hp1, hcl, hc1, hns⟩ : ∃ d1, (if shuffled then Data.shuffle d σ else pure d) = .ok d1 ∧
      d1.points.Perm d.points ∧ d1.classes = d.classes ∧ Consistent m d1 ∧ (shuffled = false → d1 = d) := by
    cases shuffled with
    | false => exact ⟨d, rfl, List.Perm.refl _, rfl, h.cons, fun _ => rfl⟩
    | true =>
      refine ⟨{ d with points := σ d.points, index := iota 0 d.msize ++ d.index.drop d.msize }, ?_, hσ _, rfl, ?_, by simp⟩
      · simp only [if_true]
        rw [Data.shuffle, if_neg (by rw [h.index, h.cons.msize]; omega)]
      · have hsp : (samples m { d with points := σ d.points, index := iota 0 d.msize ++ d.index.drop d.msize }).Perm
            (samples m d) := (hσ d.points).filterMap _
        have hlp := hsp.map Pt.y
        refine ⟨fun r hr => h.cons.live r ((hσ d.points).mem_iff.1 hr), ?_, h.cons.cls, ?_, ?_, ?_⟩
        · show d.msize = (σ d.points).length
          rw [(hσ d.points).length_eq, h.cons.msize]
        · refine ⟨h.cons.counts.nodup, fun y hy => h.cons.counts.covers y (hlp.mem_iff.1 hy), ?_⟩
          rw [show (_ : List Nat) = d.dist from rfl, h.cons.counts.counts]
          apply List.map_congr_left
          intro c _
          exact (hlp.count_eq c).symm
        · intro p hp
          exact h.cons.dims p (hsp.mem_iff.1 hp)
        · intro hnil
          have : d.points = [] := by
            have := (hσ d.points).length_eq
            rw [show σ d.points = [] from hnil] at this
            exact List.length_eq_zero_iff.1 this.symm
          exact h.cons.mdim0 this
  obtain ⟨m', e2, hsame, hpts, _⟩ := renumber_ok d1.points 0 m hc1.livePts (hp1.nodup_iff.2 h.nodup)
  have hlen : d1.points.length = l.length := by rw [hp1.length_eq, h.size]
  have hcon := Consistent_of_same hc1 hsame
  have hsam : samples m' { d1 with index := iota 0 d1.points.length } = pts m' d1.points := rfl
  have hlab : (pts m' d1.points).map labelledPoint = (pts m d1.points).map labelledPoint := by
    rw [hpts, List.map_map]
    have : (labelledPoint ∘ fun q : Pt K × Nat => { q.1 with id := 0 + q.2 + 1 }) = labelledPoint ∘ Prod.fst := by
      funext q; rfl
    rw [this, ← List.map_map, List.zipIdx_map_fst]
  have hplen : (pts m d1.points).length = l.length := by
    rw [hc1.livePts.length, hlen]
  refine ⟨m', { d1 with index := iota 0 d1.points.length }, ?_, ?_, ?_, ?_, ?_, ?_, ?_, hcl⟩
  · have hf : finish shuffled σ m d = (if shuffled then Data.shuffle d σ else pure d) >>= fun d =>
        renumber 0 d.points m >>= fun m => pure (m, { d with index := iota 0 d.points.length }) := by
      unfold finish
      cases shuffled <;> rfl
    rw [hf, e1, Res_bind_ok, e2, Res_bind_ok, Res_pure]
  · exact ⟨hcon.live, hcon.msize, hcon.cls, hcon.counts, hcon.dims, hcon.mdim0⟩
  · rw [hsam, hlab, ← h.content]
    exact (hp1.filterMap _).map _
  · intro hs
    rw [hsam, hlab, hns hs, ← h.content]
    rfl
  · rw [hsam, hpts, List.map_map]
    have : (Pt.id ∘ fun q : Pt K × Nat => { q.1 with id := 0 + q.2 + 1 }) = (fun n => n + 1) ∘ Prod.snd := by
      funext q; simp
    rw [this, ← List.map_map, List.zipIdx_map_snd, hplen]
    simp [List.range'_eq_map_range, Nat.add_comm]
  · show iota 0 d1.points.length = _
    rw [hlen]
  · exact hlen

/-! ### Blobs -/

variable [Field K]

theorem blobPoint_ok (normal : Nat → K → K → K) (dims c t : Nat) (centers : List (List K)) (sds : List K)
    (hc : c < centers.length) (hd : dims ≤ (centers[c]).length) (hs : c < sds.length) :
    blobPoint normal dims centers[c] sds[c] (t * dims) = .ok (blobRow normal centers sds dims c t) := by
  apply Feat.mapM_ok
  intro j hj
  rw [List.mem_range] at hj
  have hj' : j < (centers[c]).length := by omega
  simp only [vget, List.getElem?_eq_getElem hj', Res_bind_ok, Res_pure]
  rw [List.getD_eq_getElem _ _ hc, List.getD_eq_getElem _ _ hj', List.getD_eq_getElem _ _ hs]

/-- The point made at time `t` around the centre `c`. -/
def blobEntry (normal : Nat → K → K → K) (centers : List (List K)) (sds : List K) (dims : Nat) (q : Nat × Nat) :
    List K × Int := (blobRow normal centers sds dims q.1 q.2, groupLabel centers.length q.1)

theorem blobCentre_ok (normal : Nat → K → K → K) (dims : Nat) (centers : List (List K)) (sds : List K) (c : Nat)
    (hc : c < centers.length) (hd : dims ≤ (centers[c]).length) (hs : c < sds.length) :
    ∀ (n : Nat) (m : Mem K) (d : Data) (l : List (List K × Int)), Growing dims m d l →
      ∃ m' d', blobCentre normal dims true centers sds c n (l.length * dims) m d = .ok (m', d') ∧
        Growing dims m' d' (l ++ ((List.replicate n c).zipIdx l.length).map (blobEntry normal centers sds dims))
  | 0, m, d, l, h => ⟨m, d, rfl, by simpa using h⟩
  | n + 1, m, d, l, h => by
    rw [blobCentre]
    simp only [vget, List.getElem?_eq_getElem hc, List.getElem?_eq_getElem hs, Res_bind_ok]
    rw [blobPoint_ok normal dims c l.length centers sds hc hd hs, Res_bind_ok]
    obtain ⟨m1, d1, e1, g1⟩ := h.push { x := blobRow normal centers sds dims c l.length, y := groupLabel centers.length c }
      (by simp [blobRow])
    have e1' := e1
    simp only [if_true]
    rw [show blobLabel centers.length c = groupLabel centers.length c from rfl, e1, Res_bind_ok]
    obtain ⟨m2, d2, e2, g2⟩ := blobCentre_ok normal dims centers sds c hc hd hs n m1 d1 _ g1
    refine ⟨m2, d2, ?_, ?_⟩
    · simp only [List.length_append, List.length_singleton, Nat.add_mul, Nat.one_mul] at e2
      exact e2
    · rw [List.replicate_succ, List.zipIdx_cons, List.map_cons]
      rw [List.length_append, List.length_singleton, List.append_assoc, List.singleton_append] at g2
      exact g2

theorem blobCentres_ok (normal : Nat → K → K → K) (dims : Nat) (centers : List (List K)) (sds : List K)
    (hd : ∀ x ∈ centers, dims ≤ x.length) (hs : centers.length ≤ sds.length) (n : Nat) :
    ∀ (cs : List Nat) (_ : ∀ c ∈ cs, c < centers.length) (m : Mem K) (d : Data) (l : List (List K × Int)), Growing dims m d l →
      ∃ m' d', blobCentres normal dims true centers sds n cs (l.length * dims) m d = .ok (m', d') ∧
        Growing dims m' d' (l ++ ((cs.flatMap (fun c => List.replicate n c)).zipIdx l.length).map
          (blobEntry normal centers sds dims))
  | [], _, m, d, l, h => ⟨m, d, rfl, by simpa using h⟩
  | c :: cs, hcs, m, d, l, h => by
    have hc := hcs c (by simp)
    obtain ⟨m1, d1, e1, g1⟩ := blobCentre_ok normal dims centers sds c hc (hd _ (List.getElem_mem hc)) (by omega) n m d l h
    rw [blobCentres, e1, Res_bind_ok]
    obtain ⟨m2, d2, e2, g2⟩ := blobCentres_ok normal dims centers sds hd hs n cs (fun x hx => hcs x (by simp [hx])) m1 d1 _ g1
    have hl : (l ++ ((List.replicate n c).zipIdx l.length).map (blobEntry normal centers sds dims)).length = l.length + n := by
      simp
    rw [hl] at e2 g2
    refine ⟨m2, d2, ?_, ?_⟩
    · rw [Nat.add_mul] at e2
      exact e2
    · rw [List.flatMap_cons, List.zipIdx_append, List.map_append, ← List.append_assoc, List.length_replicate]
      exact g2

theorem blobLoop_ok (normal : Nat → K → K → K) (dims : Nat) (centers : List (List K)) (sds : List K)
    (hd : ∀ x ∈ centers, dims ≤ x.length) (hs : centers.length ≤ sds.length) :
    ∀ (ns : List Nat) (m : Mem K) (d : Data) (l : List (List K × Int)), Growing dims m d l →
      ∃ m' d', blobLoop normal dims true centers sds ns (l.length * dims) m d = .ok (m', d') ∧
        Growing dims m' d' (l ++ ((blobOrder ns centers.length).zipIdx l.length).map (blobEntry normal centers sds dims))
  | [], m, d, l, h => ⟨m, d, rfl, by simpa [blobOrder] using h⟩
  | n :: ns, m, d, l, h => by
    obtain ⟨m1, d1, e1, g1⟩ := blobCentres_ok normal dims centers sds hd hs n (List.range centers.length)
      (fun c hc => List.mem_range.1 hc) m d l h
    rw [blobLoop, e1, Res_bind_ok]
    obtain ⟨m2, d2, e2, g2⟩ := blobLoop_ok normal dims centers sds hd hs ns m1 d1 _ g1
    have hlf : ((List.range centers.length).flatMap (fun c => List.replicate n c)).length = centers.length * n := by
      rw [List.length_flatMap]
      simp
    have hl : (l ++ (((List.range centers.length).flatMap (fun c => List.replicate n c)).zipIdx l.length).map
        (blobEntry normal centers sds dims)).length = l.length + centers.length * n := by
      rw [List.length_append, List.length_map, List.length_zipIdx, hlf]
    rw [hl] at e2 g2
    refine ⟨m2, d2, ?_, ?_⟩
    · rw [Nat.add_mul] at e2
      exact e2
    · have : blobOrder (n :: ns) centers.length =
          (List.range centers.length).flatMap (fun c => List.replicate n c) ++ blobOrder ns centers.length := by
        simp [blobOrder]
      rw [this, List.zipIdx_append, List.map_append, ← List.append_assoc, hlf]
      exact g2


/-! ### Neighbours -/

omit [Field K] in
theorem uniqueFrom_spec [LinearOrder K] : ∀ (l : List (Nat × K)) (a : Nat × K),
    (a :: l).Pairwise (fun x y => x.2 ≤ y.2) → ((a :: l).map Prod.fst).Nodup →
    (uniqueFrom (fun a b => decide (a.2 = b.2) || decide (a.1 = b.1)) a l).Sublist (a :: l) ∧
    (uniqueFrom (fun a b => decide (a.2 = b.2) || decide (a.1 = b.1)) a l).Pairwise (fun x y => x.2 < y.2) ∧
    ∀ x ∈ a :: l, ∃ y ∈ uniqueFrom (fun a b => decide (a.2 = b.2) || decide (a.1 = b.1)) a l, y.2 = x.2
  | [], a, _, _ => ⟨by simp [uniqueFrom], by simp [uniqueFrom], by simp [uniqueFrom]⟩
  | b :: l, a, hp, hn => by
    have hab : a.1 ≠ b.1 := by
      simp only [List.map_cons, List.nodup_cons, List.mem_cons, not_or] at hn
      exact hn.1.1
    have hle : a.2 ≤ b.2 := (List.pairwise_cons.1 hp).1 b (by simp)
    by_cases h : a.2 = b.2
    · have e : uniqueFrom (fun a b => decide (a.2 = b.2) || decide (a.1 = b.1)) a (b :: l) =
          uniqueFrom (fun a b => decide (a.2 = b.2) || decide (a.1 = b.1)) a l := by simp [uniqueFrom, h]
      have hsub : (a :: l).Sublist (a :: b :: l) := List.Sublist.cons_cons a (List.sublist_cons_self b l)
      obtain ⟨h1, h2, h3⟩ := uniqueFrom_spec l a (hp.sublist hsub) (hn.sublist (hsub.map _))
      rw [e]
      refine ⟨h1.trans hsub, h2, ?_⟩
      intro x hx
      rcases List.mem_cons.1 hx with hx | hx
      · exact h3 x (by simp [hx])
      · rcases List.mem_cons.1 hx with hx | hx
        · obtain ⟨y, hy, hye⟩ := h3 a (by simp)
          exact ⟨y, hy, by rw [hye, h, hx]⟩
        · exact h3 x (by simp [hx])
    · have e : uniqueFrom (fun a b => decide (a.2 = b.2) || decide (a.1 = b.1)) a (b :: l) =
          a :: uniqueFrom (fun a b => decide (a.2 = b.2) || decide (a.1 = b.1)) b l := by simp [uniqueFrom, h, hab]
      obtain ⟨h1, h2, h3⟩ := uniqueFrom_spec l b (List.pairwise_cons.1 hp).2 (by
        rw [List.map_cons, List.nodup_cons] at hn; exact hn.2)
      rw [e]
      refine ⟨List.Sublist.cons_cons a h1, ?_, ?_⟩
      · rw [List.pairwise_cons]
        refine ⟨?_, h2⟩
        intro y hy
        have hy' := h1.mem hy
        rcases List.mem_cons.1 hy' with hy' | hy'
        · rw [hy']; exact lt_of_le_of_ne hle h
        · exact lt_of_lt_of_le (lt_of_le_of_ne hle h) ((List.pairwise_cons.1 (List.pairwise_cons.1 hp).2).1 y hy')
      · intro x hx
        rcases List.mem_cons.1 hx with hx | hx
        · exact ⟨a, by simp, by rw [hx]⟩
        · obtain ⟨y, hy, hye⟩ := h3 x hx
          exact ⟨y, by simp [hy], hye⟩

omit [Field K] in
theorem unique_spec [LinearOrder K] (l : List (Nat × K)) (hp : l.Pairwise (fun x y => x.2 ≤ y.2)) (hn : (l.map Prod.fst).Nodup) :
    (unique (fun a b => decide (a.2 = b.2) || decide (a.1 = b.1)) l).Sublist l ∧
    (unique (fun a b => decide (a.2 = b.2) || decide (a.1 = b.1)) l).Pairwise (fun x y => x.2 < y.2) ∧
    ∀ x ∈ l, ∃ y ∈ unique (fun a b => decide (a.2 = b.2) || decide (a.1 = b.1)) l, y.2 = x.2 := by
  cases l with
  | nil => exact ⟨by simp [unique], by simp [unique], by simp⟩
  | cons a l => exact uniqueFrom_spec l a hp hn

/-- What `std::sort` by distance guarantees. -/
def SortsByDistance [LinearOrder K] (srt : List (Nat × K) → List (Nat × K)) : Prop :=
  ∀ l, (srt l).Perm l ∧ (srt l).Pairwise (fun x y => x.2 ≤ y.2)

theorem neighbours_spec [LinearOrder K] (dist : List K → List K → K) (srt : List (Nat × K) → List (Nat × K))
    (hs : SortsByDistance srt) (k : Nat) (Z : List (Pt K)) (z : Pt K) :
    (neighbours dist srt k Z z).length = min k (distinctDistances dist Z z) ∧
    ∀ e ∈ neighbours dist srt k Z z, ∃ q, 0 < e.1 ∧ Z[e.1 - 1]? = some q ∧ NearNeighbour dist Z k z q := by
  set ds := Z.zipIdx.map (fun p => (p.2 + 1, dist z.x p.1.x)) with hds
  set u := unique (fun a b : Nat × K => decide (a.2 = b.2) || decide (a.1 = b.1)) (srt ds) with hu
  set v := u.filter (fun p => decide (p.2 ≠ 0)) with hv
  have hv0 : neighbours dist srt k Z z = v.take k := rfl
  obtain ⟨hperm, hpw⟩ := hs ds
  have hfst : (ds.map Prod.fst).Nodup := by
    rw [hds, List.map_map]
    have : (Prod.fst ∘ fun p : Pt K × Nat => (p.2 + 1, dist z.x p.1.x)) = (fun n => n + 1) ∘ Prod.snd := rfl
    rw [this, ← List.map_map, List.zipIdx_map_snd]
    exact (List.nodup_range' (step := 1)).map (fun a b h => Nat.succ.inj h)
  obtain ⟨u1, u2, u3⟩ := unique_spec (srt ds) hpw ((hperm.map Prod.fst).nodup_iff.2 hfst)
  rw [← hu] at u1 u2 u3
  have hmemds : ∀ e ∈ ds, 0 < e.1 ∧ ∃ q, Z[e.1 - 1]? = some q ∧ e.2 = dist z.x q.x := by
    intro e he
    rw [hds, List.mem_map] at he
    obtain ⟨⟨q, i⟩, hq, rfl⟩ := he
    rw [List.mk_mem_zipIdx_iff_getElem?] at hq
    exact ⟨by simp, q, by simpa using hq, rfl⟩
  have hsnd : ds.map Prod.snd = Z.map (fun p => dist z.x p.x) := by
    rw [hds, List.map_map]
    have : (Prod.snd ∘ fun p : Pt K × Nat => (p.2 + 1, dist z.x p.1.x)) = (fun p => dist z.x p.x) ∘ Prod.fst := rfl
    rw [this, ← List.map_map, List.zipIdx_map_fst]
  set S := (Z.map (fun p => dist z.x p.x)).toFinset.erase 0 with hS
  have hvS : (v.map Prod.snd).toFinset = S := by
    ext x
    simp only [hS, List.mem_toFinset, Finset.mem_erase]
    rw [← hsnd]
    constructor
    · intro hx
      obtain ⟨e, he, rfl⟩ := List.mem_map.1 hx
      rw [hv, List.mem_filter] at he
      exact ⟨by simpa using he.2, List.mem_map.2 ⟨e, hperm.mem_iff.1 (u1.mem he.1), rfl⟩⟩
    · rintro ⟨h0, hx⟩
      obtain ⟨e, he, rfl⟩ := List.mem_map.1 hx
      obtain ⟨y, hy, hye⟩ := u3 e (hperm.mem_iff.2 he)
      refine List.mem_map.2 ⟨y, ?_, hye⟩
      rw [hv, List.mem_filter]
      exact ⟨hy, by simpa [hye] using h0⟩
  have hvp : v.Pairwise (fun x y => x.2 < y.2) := u2.sublist List.filter_sublist
  have hvnd : (v.map Prod.snd).Nodup := by
    rw [List.Nodup, List.pairwise_map]
    exact hvp.imp (fun h => ne_of_lt h)
  have hlen : v.length = distinctDistances dist Z z := by
    unfold distinctDistances
    rw [← hS, ← hvS, List.toFinset_card_of_nodup hvnd, List.length_map]
  refine ⟨by rw [hv0, List.length_take, hlen], ?_⟩
  intro e he
  rw [hv0] at he
  obtain ⟨i, hi, hie⟩ := List.mem_take_iff_getElem.1 he
  have hiv : i < v.length := by omega
  have hev : e ∈ v := hie ▸ List.getElem_mem _
  have heu := (List.mem_filter.1 (hv ▸ hev))
  obtain ⟨hpos, q, hq, hqd⟩ := hmemds e (hperm.mem_iff.1 (u1.mem heu.1))
  refine ⟨q, hpos, hq, List.mem_of_getElem? hq, ?_, ?_⟩
  · rw [← hqd]; simpa using heu.2
  · rw [← hS, ← hqd]
    have hsub : S.filter (· < e.2) ⊆ ((v.take i).map Prod.snd).toFinset := by
      intro x hx
      rw [Finset.mem_filter, ← hvS, List.mem_toFinset] at hx
      obtain ⟨hx1, hx2⟩ := hx
      obtain ⟨y, hy, rfl⟩ := List.mem_map.1 hx1
      obtain ⟨j, hj, hje⟩ := List.getElem_of_mem hy
      rw [List.mem_toFinset]
      refine List.mem_map.2 ⟨y, List.mem_take_iff_getElem.2 ⟨j, ?_, hje⟩, rfl⟩
      by_contra hcon
      have hij : i ≤ j := by omega
      rcases Nat.lt_or_eq_of_le hij with h | h
      · have := List.pairwise_iff_getElem.1 hvp i j hiv hj h
        rw [hie, hje] at this
        exact absurd hx2 (not_lt.2 (le_of_lt this))
      · subst h
        rw [hie] at hje
        rw [hje] at hx2
        exact absurd hx2 (lt_irrefl _)
    calc (S.filter (· < e.2)).card ≤ ((v.take i).map Prod.snd).toFinset.card := Finset.card_le_card hsub
      _ ≤ ((v.take i).map Prod.snd).length := List.toFinset_card_le _
      _ ≤ i := by simp
      _ < k := by omega

/-! ### SMOTE -/

omit [Field K] in
theorem ofClass_ok (m : Mem K) (c : Int) : ∀ rs : List Nat, Live m rs →
    ofClass m c rs = .ok ((pts m rs).filter (fun p => p.y = c))
  | [], _ => rfl
  | r :: rs, h => by
    obtain ⟨⟨p, hp⟩, h2⟩ := h.cons
    rw [ofClass, deref_of_get hp, Res_bind_ok, ofClass_ok m c rs h2, Res_bind_ok, pts_cons hp, List.filter_cons]
    by_cases hc : p.y = c <;> simp [hc, Res_pure]

/-- One new point. -/
def Made [LinearOrder K] (dist : List K → List K → K) (alpha : Nat → K) (k : Nat) (c : Int) (Z all : List (Pt K)) (p : Pt K) : Prop :=
  p.y = c ∧ ∃ z ∈ Z, ∃ (j : Nat) (q0 q : Pt K), Z[j]? = some q0 ∧ NearNeighbour dist Z k z q0 ∧ all[j]? = some q ∧
    ∃ a, BeyondPoint (alpha a) z.x q.x p.x

omit [Field K] in
theorem pts_at {m : Mem K} {rs : List Nat} (h : Live m rs) {i : Nat} (hi : i < rs.length) {p : Pt K}
    (hp : m[rs[i]]? = some p) : (pts m rs)[i]? = some p := by
  have := congrArg (fun l => l[i]?) h.map_some
  simp only [List.getElem?_map, List.getElem?_eq_getElem hi, Option.map_some, hp] at this
  cases hq : (pts m rs)[i]? with
  | none => simp [hq] at this
  | some q => simp only [hq, Option.map_some, Option.some.injEq] at this; rw [this]

theorem synth_ok (m : Mem K) (rs : List Nat) (alpha : Nat → K) (c : Int) (z : Pt K) (hl : Live m rs) :
    ∀ (qs : List (Nat × K)) (a : Nat), (∀ q ∈ qs, q.1 - 1 < rs.length) →
      ∃ l, synth m rs alpha c z a qs = .ok l ∧ l.length = qs.length ∧
        ∀ p ∈ l, p.y = c ∧ ∃ e ∈ qs, ∃ q : Pt K, (pts m rs)[e.1 - 1]? = some q ∧ ∃ b, BeyondPoint (alpha b) z.x q.x p.x
  | [], _, _ => ⟨[], rfl, rfl, by simp⟩
  | q :: qs, a, h => by
    obtain ⟨l, e, hlen, hall⟩ := synth_ok m rs alpha c z hl qs (a + 1) (fun x hx => h x (by simp [hx]))
    have hq := h q (by simp)
    obtain ⟨p, hp⟩ := hl (rs[q.1 - 1]) (List.getElem_mem hq)
    rw [synth]
    simp only [vget, List.getElem?_eq_getElem hq, Res_bind_ok, deref_of_get hp, e, Res_pure]
    refine ⟨_, rfl, by simp [hlen], ?_⟩
    intro s hs
    rcases List.mem_cons.1 hs with hs | hs
    · subst hs
      refine ⟨rfl, q, by simp, p, ?_, a, rfl⟩
      exact pts_at hl hq hp
    · obtain ⟨h1, e', he', h2⟩ := hall s hs
      exact ⟨h1, e', by simp [he'], h2⟩


theorem synthAll_ok [LinearOrder K] (m : Mem K) (rs : List Nat) (hl : Live m rs) (dist : List K → List K → K)
    (srt : List (Nat × K) → List (Nat × K)) (hs : SortsByDistance srt) (k : Nat) (alpha : Nat → K) (c : Int) (Z : List (Pt K))
    (hZ : Z.length ≤ rs.length) :
    ∀ (zs : List (Pt K)) (a : Nat), (∀ z ∈ zs, z ∈ Z) →
      ∃ l, synthAll m rs dist srt k alpha c Z a zs = .ok l ∧
        l.length = (zs.map (fun z => min k (distinctDistances dist Z z))).sum ∧
        ∀ p ∈ l, Made dist alpha k c Z (pts m rs) p
  | [], _, _ => ⟨[], rfl, rfl, by simp⟩
  | z :: zs, a, h => by
    obtain ⟨hn1, hn2⟩ := neighbours_spec dist srt hs k Z z
    have hz := h z (by simp)
    obtain ⟨l, e, hlen, hall⟩ := synth_ok m rs alpha c z hl (neighbours dist srt k Z z) a (by
      intro q hq
      obtain ⟨q', _, h2, _⟩ := hn2 q hq
      have := (List.getElem?_eq_some_iff.1 h2).1
      omega)
    obtain ⟨l', e', hlen', hall'⟩ := synthAll_ok m rs hl dist srt hs k alpha c Z hZ zs (a + (neighbours dist srt k Z z).length)
      (fun x hx => h x (by simp [hx]))
    refine ⟨l ++ l', ?_, ?_, ?_⟩
    · rw [synthAll]
      simp only [e, e', Res_bind_ok, Res_pure]
    · rw [List.length_append, hlen, hlen', hn1, List.map_cons, List.sum_cons]
    · intro p hp
      rcases List.mem_append.1 hp with hp | hp
      · obtain ⟨h1, e1, he1, q, hq, b, hb⟩ := hall p hp
        obtain ⟨q0, _, h3, h4⟩ := hn2 e1 he1
        exact ⟨h1, z, hz, e1.1 - 1, q0, q, h3, h4, hq, b, hb⟩
      · exact hall' p hp

omit [Field K] in
theorem insertAll_consistent (D : Nat) : ∀ (rs : List Nat) (m : Mem K) (d : Data), Consistent m d → d.points ≠ [] → d.mdim = D →
    Live m rs → (∀ p ∈ pts m rs, p.x.length = D) →
      ∃ m' d', insertAll false m d rs = .ok (m', d') ∧ Consistent m' d' ∧ SameUpToIds m m' ∧
        (∀ x, x ∉ rs → m'[x]? = m[x]?) ∧ d'.points = d.points ++ rs
  | [], m, d, h, _, _, _, _ => ⟨m, d, rfl, h, rfl, fun _ _ => rfl, by simp⟩
  | r :: rs, m, d, h, hne, hD, hl, hdim => by
    obtain ⟨⟨p, hp⟩, hl2⟩ := hl.cons
    rw [pts_cons hp] at hdim
    rcases insertPtr_consistent h hp false with ⟨_, h2, _⟩ | ⟨_, m1, d1, e, c, hm, hsame, hpts, hmd, _⟩
    · exact absurd ((hdim p (by simp)).trans hD.symm) h2
    · obtain ⟨m', d', e2, c2, hs2, hf2, hp2⟩ := insertAll_consistent D rs m1 d1 c (by rw [hpts]; simp)
        (by rw [hmd]; exact hdim p (by simp)) (SameUpToIds_live hsame hl2)
        (SameUpToIds_dims hsame rs (fun q hq => hdim q (by simp [hq])))
      refine ⟨m', d', by simp only [insertAll, e, Res_bind_ok, e2], c2, hsame.trans hs2, ?_, by rw [hp2, hpts]; simp⟩
      intro x hx
      simp only [List.mem_cons, not_or] at hx
      rw [hf2 x hx.2, hm]
      simp only [Bool.false_eq_true, if_false]
      exact List.getElem?_set_ne (fun h => hx.1 h.symm)

theorem minIdx_spec (f : Int → Nat) (cs : List Int) (hne : cs ≠ []) :
    ∃ c, vget cs (minIdx (cs.map f)) = .ok c ∧ c ∈ cs ∧ ∀ c' ∈ cs, f c ≤ f c' := by
  have hne' : cs.map f ≠ [] := by simpa using hne
  cases hm : (cs.map f).min? with
  | none => exact absurd (List.min?_eq_none_iff.1 hm) hne'
  | some v =>
    obtain ⟨h1, h2⟩ := List.min?_eq_some_iff.1 hm
    have hlt : (cs.map f).idxOf v < (cs.map f).length := List.idxOf_lt_length_of_mem h1
    have hlt' : (cs.map f).idxOf v < cs.length := by simpa using hlt
    have hv := List.getElem_idxOf hlt
    rw [List.getElem_map] at hv
    refine ⟨cs[(cs.map f).idxOf v], ?_, List.getElem_mem _, ?_⟩
    · simp only [minIdx, hm, vget, List.getElem?_eq_getElem hlt']
    · intro c' hc'
      rw [hv]
      exact h2 _ (List.mem_map_of_mem hc')

theorem smote_ok [LinearOrder K] (dist : List K → List K → K) (srt : List (Nat × K) → List (Nat × K)) (hs : SortsByDistance srt)
    (k : Nat) (r : K) (alpha : Nat → K) (σ : List Nat → List Nat) (hσ : ∀ l, (σ l).Perm l) (m : Mem K) (d : Data)
    (h : Consistent m d) (hne : d.points ≠ []) :
    ∃ c m' d' added, c ∈ d.classes ∧ (∀ c' ∈ d.classes, (labels m d).count c ≤ (labels m d).count c') ∧
      smote dist srt k r alpha σ m d = .ok (m', d') ∧ Consistent m' d' ∧ samples m' d' = samples m d ++ added ∧
      (∀ x < m.length, m'[x]? = m[x]?) ∧
      added.length = ((samplesOf m d c).map (fun z => min k (distinctDistances dist (samplesOf m d c) z))).sum ∧
      ∀ p ∈ added, Made dist alpha k c (samplesOf m d c) (samples m d) p := by
  have hcl : d.classes ≠ [] := by
    obtain ⟨r0, rs, hr⟩ := List.exists_cons_of_ne_nil hne
    obtain ⟨p, hp⟩ := h.live r0 (by rw [hr]; simp)
    have : p.y ∈ labels m d := by
      unfold labels
      rw [samples_eq_pts, hr, pts_cons hp]
      simp
    intro h0
    have h1 := h.counts.covers _ this
    rw [h0] at h1
    simp at h1
  obtain ⟨c, ec, hc1, hc2⟩ := minIdx_spec (fun c => (labels m d).count c) d.classes hcl
  rw [← h.counts.counts] at ec
  have eZ := ofClass_ok m c d.points h.livePts
  have hZ : (pts m d.points).filter (fun p => p.y = c) = samplesOf m d c := rfl
  rw [hZ] at eZ
  have hZlen : (samplesOf m d c).length ≤ d.points.length := by
    unfold samplesOf
    refine Nat.le_trans (List.length_filter_le _ _) ?_
    rw [samples_eq_pts, h.livePts.length]
  obtain ⟨art, ea, hal, hall⟩ := synthAll_ok m d.points h.livePts dist srt hs k alpha c (samplesOf m d c) hZlen
    (samplesOf m d c) 0 (fun _ hz => hz)
  have hpermσ := hσ (List.range' m.length art.length)
  have hlive : Live (m ++ art) (σ (List.range' m.length art.length)) := by
    intro x hx
    have hx' := hpermσ.mem_iff.1 hx
    rw [List.mem_range'_1] at hx'
    have : x < (m ++ art).length := by simp; omega
    exact ⟨_, List.getElem?_eq_getElem this⟩
  have hfresh : pts (m ++ art) (List.range' m.length art.length) = art := pts_fresh m art
  have hpart : (pts (m ++ art) (σ (List.range' m.length art.length))).Perm art := by
    have := hpermσ.filterMap (fun r => (m ++ art)[r]?)
    exact this.trans (by rw [show List.filterMap _ _ = pts (m ++ art) (List.range' m.length art.length) from rfl, hfresh])
  have hmd : ∀ p ∈ art, p.x.length = d.mdim := by
    intro p hp
    obtain ⟨_, z, hz, j, q0, q, _, _, hq, a, hb⟩ := hall p hp
    rw [hb, List.length_zipWith]
    have h1 := h.dims z (List.mem_of_mem_filter hz)
    have h2 := h.dims q (List.mem_of_getElem? hq)
    omega
  obtain ⟨m', d', ei, hc', hsame, hframe, hpts⟩ := insertAll_consistent d.mdim (σ (List.range' m.length art.length)) (m ++ art) d
    (consistent_alloc h art) hne rfl hlive (fun p hp => hmd p (hpart.mem_iff.1 hp))
  have hcont := SameUpToIds_pts hsame (σ (List.range' m.length art.length))
  refine ⟨c, m', d', pts m' (σ (List.range' m.length art.length)), hc1, hc2, ?_, hc', ?_, ?_, ?_, ?_⟩
  · rw [smote]
    simp only [ec, eZ, ea, Res_bind_ok, ei]
  · rw [samples_eq_pts, hpts, pts_append]
    congr 1
    unfold samples pts
    apply List.filterMap_congr
    intro x hx
    have hxl := h.livePts.lt hx
    rw [hframe x (fun hx' => by
      have := (List.mem_range'_1.1 (hpermσ.mem_iff.1 hx')).1
      omega), List.getElem?_append_left hxl]
  · intro x hxl
    rw [hframe x (fun hx' => by
      have := (List.mem_range'_1.1 (hpermσ.mem_iff.1 hx')).1
      omega), List.getElem?_append_left hxl]
  · have : (pts m' (σ (List.range' m.length art.length))).length = art.length := by
      rw [(SameUpToIds_live hsame hlive).length, hpermσ.length_eq, List.length_range']
    rw [this, hal]
  · intro p hp
    have h1 : content p ∈ (pts (m ++ art) (σ (List.range' m.length art.length))).map content := by
      rw [hcont]; exact List.mem_map_of_mem hp
    obtain ⟨p', hp', he⟩ := List.mem_map.1 h1
    have h2 := hall p' (hpart.mem_iff.1 hp')
    simp only [content, Prod.mk.injEq] at he
    obtain ⟨hx, hy, _⟩ := he
    unfold Made BeyondPoint at h2 ⊢
    rw [hx, hy] at h2
    exact h2

end
end MLTK.Sampling
