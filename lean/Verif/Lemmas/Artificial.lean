import Mathlib.Algebra.BigOperators.Group.List.Basic
import Verif.Lemmas.Sampling
/-!
# Lemmas about artificial datasets and borderline over-sampling
-/
namespace MLTK.Sampling
open MLTK.Data
open MLTK.Spec

section
variable {K : Type} [Field K]

/-! ### Spirals -/

omit [Field K] in
theorem spiralClass_ok (coord : Nat → Nat → K × K) (classes i : Nat) :
    ∀ (js : List Nat) (m : Mem K) (d : Data) (l : List (List K × Int)), Growing 2 m d l →
      ∃ m' d', spiralClass coord classes i js m d = .ok (m', d') ∧
        Growing 2 m' d' (l ++ js.map (fun j => ([(coord i j).1, (coord i j).2], groupLabel classes i)))
  | [], m, d, l, h => ⟨m, d, rfl, by simpa using h⟩
  | j :: js, m, d, l, h => by
    obtain ⟨m1, d1, e1, g1⟩ := h.push { x := [(coord i j).1, (coord i j).2], y := groupLabel classes i } (by simp)
    obtain ⟨m2, d2, e2, g2⟩ := spiralClass_ok coord classes i js m1 d1 _ g1
    refine ⟨m2, d2, ?_, ?_⟩
    · rw [spiralClass, show blobLabel classes i = groupLabel classes i from rfl, e1, Res_bind_ok]
      exact e2
    · rw [List.append_assoc] at g2
      exact g2

omit [Field K] in
theorem spiralLoop_ok (coord : Nat → Nat → K × K) (classes per : Nat) :
    ∀ (is : List Nat) (m : Mem K) (d : Data) (l : List (List K × Int)), Growing 2 m d l →
      ∃ m' d', spiralLoop coord classes per is m d = .ok (m', d') ∧
        Growing 2 m' d' (l ++ is.flatMap (fun i => (List.range per).map
          (fun j => ([(coord i j).1, (coord i j).2], groupLabel classes i))))
  | [], m, d, l, h => ⟨m, d, rfl, by simpa using h⟩
  | i :: is, m, d, l, h => by
    obtain ⟨m1, d1, e1, g1⟩ := spiralClass_ok coord classes i (List.range per) m d l h
    obtain ⟨m2, d2, e2, g2⟩ := spiralLoop_ok coord classes per is m1 d1 _ g1
    refine ⟨m2, d2, ?_, ?_⟩
    · rw [spiralLoop, e1, Res_bind_ok]
      exact e2
    · rw [List.flatMap_cons, ← List.append_assoc]
      exact g2

theorem groupLabel_inj {n a b : Nat} (ha : a < n) (hb : b < n) (h : groupLabel n a = groupLabel n b) : a = b := by
  unfold groupLabel at h
  by_cases hn : n = 2
  · subst hn
    simp only [if_true] at h
    by_cases h1 : a = 0 <;> by_cases h2 : b = 0 <;> simp [h1, h2] at h <;> omega
  · rw [if_neg hn, if_neg hn] at h
    omega

/-! ### Regression -/

theorem dotLoop_eq (p q : List K) : dotLoop p q = (List.zipWith (· * ·) p q).sum := by
  unfold dotLoop
  have key : ∀ (l : List (K × K)) (s : K), l.foldl (fun s u => s + u.1 * u.2) s = s + (l.map (fun u => u.1 * u.2)).sum := by
    intro l
    induction l with
    | nil => intro s; simp
    | cons u l ih => intro s; rw [List.foldl_cons, ih, List.map_cons, List.sum_cons, add_assoc]
  rw [key, zero_add, List.zip_eq_zipWith, List.map_zipWith]

theorem regRows_spec (g : Nat → K) (dims : Nat) : ∀ (is : List Nat) (a : Nat),
    regRows g dims a is = is.zipIdx.map (fun q => { x := (List.range dims).map (fun j => g (a + q.2 * dims + j)), y := 0, id := q.1 + 1 })
  | [], _ => rfl
  | i :: is, a => by
    rw [regRows, regRows_spec g dims is (a + dims), List.zipIdx_cons, List.map_cons]
    congr 1
    · simp
    · rw [List.zipIdx_eq_map_add (l := is) (i := 0 + 1), List.map_map]
      apply List.map_congr_left
      intro q _
      simp only [Function.comp_apply, RegPt.mk.injEq, and_true, true_and]
      apply List.map_congr_left
      intro j _
      congr 1
      ring

theorem regCoef_spec (g : Nat → K) (dims informative a : Nat) :
    regCoef g dims informative a = (List.range dims).map (fun j => if j < informative then g (a + j) else 0) := by
  have key : ∀ k, k ≤ dims → (List.range k).foldl (fun c i => c.set i (g (a + i))) (List.replicate dims 0) =
      (List.range dims).map (fun j => if j < k then g (a + j) else 0) := by
    intro k
    induction k with
    | zero =>
      intro _
      simp only [List.range_zero, List.foldl_nil, Nat.not_lt_zero, if_false]
      apply List.ext_getElem <;> simp
    | succ k ih =>
      intro hk
      rw [List.range_succ (n := k), List.foldl_append, ih (by omega), List.foldl_cons, List.foldl_nil]
      apply List.ext_getElem
      · simp
      · intro i h1 h2
        simp only [List.length_map, List.length_range] at h2
        rw [List.getElem_set]
        simp only [List.getElem_map, List.getElem_range]
        by_cases hik : k = i
        · subst hik; simp
        · rw [if_neg hik]
          have : (i < k) ↔ (i < k + 1) := by omega
          simp only [this]
  unfold regCoef
  rw [key _ (Nat.min_le_left _ _)]
  apply List.map_congr_left
  intro j hj
  rw [List.mem_range] at hj
  have : (j < min dims informative) ↔ (j < informative) := by omega
  simp only [this]

theorem regLabels_spec (e : Nat → K) (bias : K) (noisy : Bool) (coef : List K) : ∀ (ps : List (RegPt K)) (a : Nat),
    regLabels e bias noisy coef a ps = ps.zipIdx.map (fun q => { q.1 with
      y := dotLoop q.1.x coef + bias + (if noisy then e (a + q.2) else 0) })
  | [], _ => rfl
  | p :: ps, a => by
    rw [regLabels, regLabels_spec e bias noisy coef ps (a + 1), List.zipIdx_cons, List.map_cons]
    congr 1
    · cases noisy <;> simp
    · rw [List.zipIdx_eq_map_add (l := ps) (i := 0 + 1), List.map_map]
      apply List.map_congr_left
      intro q _
      simp only [Function.comp_apply]
      have : a + 1 + q.2 = a + (0 + 1 + q.2) := by omega
      rw [this]

/-! ### Borderline over-sampling -/

omit [Field K] in
theorem consistent_frame {m m' : Mem K} {d : Data} (h : Consistent m d) (hf : ∀ x ∈ d.points, m'[x]? = m[x]?) :
    Consistent m' d ∧ samples m' d = samples m d := by
  have hs : samples m' d = samples m d := by
    unfold samples
    exact List.filterMap_congr hf
  refine ⟨⟨?_, h.msize, h.cls, ?_, ?_, h.mdim0⟩, hs⟩
  · intro r hr
    rw [hf r hr]
    exact h.live r hr
  · unfold labels
    rw [hs]
    exact h.counts
  · rw [hs]
    exact h.dims

omit [Field K] in
theorem derefAll_ok (m : Mem K) : ∀ rs : List Nat, Live m rs → rs.mapM (deref m) = .ok (pts m rs)
  | [], _ => rfl
  | r :: rs, h => by
    obtain ⟨⟨p, hp⟩, h2⟩ := h.cons
    rw [List.mapM_cons, deref_of_get hp, Res_bind_ok, derefAll_ok m rs h2, Res_bind_ok, pts_cons hp, Res_pure]

theorem neighbours_x [DecidableEq K] (dist : List K → List K → K) (srt : List (Nat × K) → List (Nat × K)) (k : Nat)
    (Z : List (Pt K)) {z z' : Pt K} (h : z.x = z'.x) : neighbours dist srt k Z z = neighbours dist srt k Z z' := by
  unfold neighbours
  rw [h]

omit [Field K] in
theorem dangerCount_ok {m : Mem K} {rs : List Nat} (hl : Live m rs) (maj : Int) (mm : Nat) (ns : List (Nat × K))
    (hlen : mm ≤ ns.length) (hns : ∀ e ∈ ns, e.1 - 1 < rs.length) : ∃ n, dangerCount m rs maj mm ns = .ok n := by
  have e : ns.mapM (fun q => do
      let r ← vget rs (q.1 - 1)
      let p ← deref m r
      pure p.y) = (Except.ok (ns.map (fun q => ((pts m rs).getD (q.1 - 1) { x := [], y := 0 }).y)) : Res (List Int)) := by
    apply Feat.mapM_ok
    intro q hq
    have hq' := hns q hq
    obtain ⟨p, hp⟩ := hl (rs[q.1 - 1]) (List.getElem_mem hq')
    have := pts_at hl hq' hp
    simp only [vget, List.getElem?_eq_getElem hq', Res_bind_ok, deref_of_get hp, Res_pure, List.getD_eq_getElem?_getD, this,
      Option.getD_some]
  unfold dangerCount
  simp only [e, Res_bind_ok]
  rw [if_neg (by omega)]
  exact ⟨_, rfl⟩

omit [Field K] in
theorem same_deref {m0 m : Mem K} (hs : SameUpToIds m0 m) {r : Nat} {p0 : Pt K} (h : m0[r]? = some p0) :
    ∃ p, m[r]? = some p ∧ p.x = p0.x ∧ p.y = p0.y := by
  have h1 := hs.get r
  rw [h] at h1
  cases hm : m[r]? with
  | none => rw [hm] at h1; simp at h1
  | some p =>
    rw [hm] at h1
    simp only [Option.map_some, Option.some.injEq, content, Prod.mk.injEq] at h1
    exact ⟨p, rfl, h1.1.symm, h1.2.1.symm⟩

theorem dangerLoop_ok [LinearOrder K] (dist : List K → List K → K) (srt : List (Nat × K) → List (Nat × K)) (hsrt : SortsByDistance srt)
    (mm : Nat) (maj : Int) {m0 : Mem K} {d : Data} (h : Consistent m0 d)
    (hnb : ∀ z ∈ samples m0 d, mm ≤ distinctDistances dist (samples m0 d) z) :
    ∀ (rs : List Nat) (_ : ∀ r ∈ rs, r ∈ d.points) (m : Mem K) (dg : Data) (ids : List Nat), SameUpToIds m0 m → Consistent m dg →
      (dg.points ≠ [] → dg.mdim = d.mdim) → (∀ r ∈ dg.points, r ∈ d.points) →
      ∃ m' dg' ids', dangerLoop dist srt mm maj d.points (samples m0 d) rs m dg ids = .ok (m', dg', ids') ∧ SameUpToIds m0 m' ∧
        Consistent m' dg' ∧ (dg'.points ≠ [] → dg'.mdim = d.mdim) ∧ ∀ r ∈ dg'.points, r ∈ d.points
  | [], _, m, dg, ids, h1, h2, h3, h4 => ⟨m, dg, ids, rfl, h1, h2, h3, h4⟩
  | r :: rs, hrs, m, dg, ids, h1, h2, h3, h4 => by
    have hr := hrs r (by simp)
    obtain ⟨p0, hp0⟩ := h.live r hr
    obtain ⟨p, hp, hx, hy⟩ := same_deref h1 hp0
    have hp0s : p0 ∈ samples m0 d := List.mem_filterMap.2 ⟨r, hr, hp0⟩
    obtain ⟨hn1, hn2⟩ := neighbours_spec dist srt hsrt mm (samples m0 d) p
    rw [neighbours_x dist srt mm (samples m0 d) hx] at hn1 hn2
    have hdd : distinctDistances dist (samples m0 d) p = distinctDistances dist (samples m0 d) p0 := by
      unfold distinctDistances; rw [hx]
    rw [hdd] at hn1
    have hge := hnb p0 hp0s
    obtain ⟨n, hn⟩ := dangerCount_ok (SameUpToIds_live h1 h.livePts) maj mm
      (neighbours dist srt mm (samples m0 d) p) (by rw [neighbours_x dist srt mm (samples m0 d) hx, hn1]; omega) (by
        intro e he
        rw [neighbours_x dist srt mm (samples m0 d) hx] at he
        obtain ⟨q, _, hq, _⟩ := hn2 e he
        have := (List.getElem?_eq_some_iff.1 hq).1
        rw [samples_eq_pts, h.livePts.length] at this
        exact this)
    have hpl : p.x.length = d.mdim := by rw [hx]; exact h.dims p0 hp0s
    rw [dangerLoop, deref_of_get hp, Res_bind_ok, hn, Res_bind_ok]
    split
    · rcases insertPtr_consistent h2 hp false with ⟨g1, g2, _⟩ | ⟨_, m1, d1, e1, c1, _, s1, p1, md1, _⟩
      · exact absurd (hpl.trans (h3 g1).symm) g2
      · simp only [e1, Res_bind_ok]
        exact dangerLoop_ok dist srt hsrt mm maj h hnb rs (fun x hx => hrs x (by simp [hx])) m1 d1 _ (h1.trans s1) c1
          (fun _ => by rw [md1, hpl]) (by
            intro x hx
            rw [p1] at hx
            rcases List.mem_append.1 hx with hx | hx
            · exact h4 x hx
            · rw [List.mem_singleton] at hx; rw [hx]; exact hr)
    · exact dangerLoop_ok dist srt hsrt mm maj h hnb rs (fun x hx => hrs x (by simp [hx])) m dg ids h1 h2 h3 h4

omit [Field K] in
theorem returnLoop_ok (ids : List Nat) (D : Nat) : ∀ (rs : List Nat) (m : Mem K) (d : Data), Consistent m d → d.points ≠ [] →
    d.mdim = D → Live m rs → (∀ p ∈ pts m rs, p.x.length = D) →
      ∃ m' d' l, returnLoop ids rs m d = .ok (m', d') ∧ Consistent m' d' ∧ SameUpToIds m m' ∧ d'.points = d.points ++ l ∧
        l.Sublist rs
  | [], m, d, h, _, _, _, _ => ⟨m, d, [], rfl, h, rfl, by simp, by simp⟩
  | r :: rs, m, d, h, hne, hD, hl, hdim => by
    obtain ⟨⟨p, hp⟩, hl2⟩ := hl.cons
    rw [pts_cons hp] at hdim
    rw [returnLoop, deref_of_get hp, Res_bind_ok]
    split
    · rcases insertPtr_consistent h hp false with ⟨_, h2, _⟩ | ⟨_, m1, d1, e, c, hm, hsame, hpts, hmd, _⟩
      · exact absurd ((hdim p (by simp)).trans hD.symm) h2
      · obtain ⟨m', d', l, e2, c2, hs2, hp2, hsub⟩ := returnLoop_ok ids D rs m1 d1 c (by rw [hpts]; simp)
          (by rw [hmd]; exact hdim p (by simp)) (SameUpToIds_live hsame hl2)
          (SameUpToIds_dims hsame rs (fun q hq => hdim q (by simp [hq])))
        refine ⟨m', d', r :: l, by simp only [e, Res_bind_ok, e2], c2, hsame.trans hs2, by rw [hp2, hpts]; simp,
          hsub.cons_cons r⟩
    · obtain ⟨m', d', l, e2, c2, hs2, hp2, hsub⟩ := returnLoop_ok ids D rs m d h hne hD hl2 (fun q hq => hdim q (by simp [hq]))
      exact ⟨m', d', l, e2, c2, hs2, hp2, hsub.cons r⟩

theorem maxIdx_ok (cs : List Int) (f : Int → Nat) (hne : cs ≠ []) : ∃ c, vget cs (maxIdx (cs.map f)) = .ok c := by
  have hne' : cs.map f ≠ [] := by simpa using hne
  cases hm : (cs.map f).max? with
  | none => exact absurd (List.max?_eq_none_iff.1 hm) hne'
  | some v =>
    have h1 := (List.max?_eq_some_iff.1 hm).1
    have hlt : (cs.map f).idxOf v < (cs.map f).length := List.idxOf_lt_length_of_mem h1
    have hlt' : (cs.map f).idxOf v < cs.length := by simpa using hlt
    refine ⟨cs[(cs.map f).idxOf v], ?_⟩
    simp only [maxIdx, hm, vget, List.getElem?_eq_getElem hlt']

omit [Field K] in
theorem classes_ne {m : Mem K} {d : Data} (h : Consistent m d) (hne : d.points ≠ []) : d.classes ≠ [] := by
  obtain ⟨r0, rs, hr⟩ := List.exists_cons_of_ne_nil hne
  obtain ⟨p, hp⟩ := h.live r0 (by rw [hr]; simp)
  have : p.y ∈ labels m d := by
    unfold labels
    rw [samples_eq_pts, hr, pts_cons hp]
    simp
  intro h0
  have h1 := h.counts.covers _ this
  rw [h0] at h1
  simp at h1

/-- What a sample returned by the borderline method can be. -/
def Derived (alpha : Nat → K) (all : List (Pt K)) (p : Pt K) : Prop :=
  (∃ q ∈ all, q.x = p.x ∧ q.y = p.y) ∨
  (∃ z ∈ all, ∃ q ∈ all, p.y = z.y ∧ ∃ a, BeyondPoint (alpha a) z.x q.x p.x)

theorem borderline_ok [LinearOrder K] (dist : List K → List K → K) (srt : List (Nat × K) → List (Nat × K)) (hsrt : SortsByDistance srt)
    (k : Nat) (r : K) (mm : Nat) (alpha : Nat → K) (σ : List Nat → List Nat) (hσ : ∀ l, (σ l).Perm l) (m : Mem K) (d : Data)
    (h : Consistent m d) (hne : d.points ≠ []) (hnb : ∀ z ∈ samples m d, mm ≤ distinctDistances dist (samples m d) z) :
    ∃ m' d' orig added, borderline dist srt k r mm alpha σ m d = .ok (m', d') ∧ Consistent m' d' ∧
      samples m' d' = orig ++ added ∧ orig.map content = (samples m d).map content ∧
      ∀ p ∈ added, Derived alpha (samples m d) p := by
  obtain ⟨maj, emaj⟩ := maxIdx_ok d.classes (fun c => (labels m d).count c) (classes_ne h hne)
  rw [← h.counts.counts] at emaj
  have eall := derefAll_ok m d.points h.livePts
  rw [← samples_eq_pts] at eall
  obtain ⟨m1, dg, ids, e1, s1, c1, md1, sub1⟩ := dangerLoop_ok dist srt hsrt mm maj h hnb d.points (fun _ h => h) m Data.empty []
    rfl (inv_empty m).consistent (fun h => absurd rfl h) (by simp [Data.empty])
  have hc1 := Consistent_of_same h s1
  rw [borderline]
  simp only [emaj, eall, Res_bind_ok, e1]
  by_cases hdg : dg.points = []
  · rw [if_pos hdg]
    refine ⟨m1, d, samples m1 d, [], rfl, hc1, by simp, ?_, by simp⟩
    exact (s1.samples d).symm
  · rw [if_neg hdg]
    obtain ⟨c, m2, dg2, made, _, _, e2, c2, hs2, hframe, _, hmade⟩ := smote_ok dist srt hsrt k r alpha σ hσ m1 dg c1 hdg
    simp only [e2, Res_bind_ok]
    have hf2 : ∀ x ∈ d.points, m2[x]? = m1[x]? := fun x hx => hframe x (hc1.livePts.lt hx)
    obtain ⟨hc2, hsd2⟩ := consistent_frame hc1 hf2
    -- every sample of the danger subset is derived from the dataset
    have hdgmem : ∀ p ∈ samples m1 dg, ∃ q ∈ samples m d, q.x = p.x ∧ q.y = p.y := by
      intro p hp
      obtain ⟨r, hr, hrp⟩ := List.mem_filterMap.1 hp
      obtain ⟨p0, hp0⟩ := h.live r (sub1 r hr)
      obtain ⟨p', hp', hx, hy⟩ := same_deref s1 hp0
      rw [hrp] at hp'
      cases hp'
      exact ⟨p0, List.mem_filterMap.2 ⟨r, sub1 r hr, hp0⟩, hx.symm, hy.symm⟩
    have hder : ∀ p ∈ samples m2 dg2, Derived alpha (samples m d) p := by
      intro p hp
      rw [hs2] at hp
      rcases List.mem_append.1 hp with hp | hp
      · exact Or.inl (hdgmem p hp)
      · obtain ⟨hy, z, hz, j, q0, q, _, _, hq, a, hb⟩ := hmade p hp
        obtain ⟨hz1, hz2⟩ := List.mem_filter.1 hz
        obtain ⟨z', hz', hzx, hzy⟩ := hdgmem z hz1
        obtain ⟨q', hq', hqx, _⟩ := hdgmem q (List.mem_of_getElem? hq)
        refine Or.inr ⟨z', hz', q', hq', ?_, a, ?_⟩
        · rw [hzy, hy]; exact (by simpa using hz2 : z.y = c).symm
        · rw [hzx, hqx]; exact hb
    have hdims : ∀ p ∈ pts m2 dg2.points, p.x.length = d.mdim := by
      intro p hp
      rcases hder p hp with ⟨q, hq, hx, _⟩ | ⟨z, hz, q, hq, _, a, hb⟩
      · rw [← hx]; exact h.dims q hq
      · rw [hb, List.length_zipWith, h.dims z hz, h.dims q hq, Nat.min_self]
    obtain ⟨m3, d3, l, e3, c3, s3, p3, hsub⟩ := returnLoop_ok ids d.mdim dg2.points m2 d hc2 hne rfl c2.livePts hdims
    refine ⟨m3, d3, pts m3 d.points, pts m3 l, e3, c3, ?_, ?_, ?_⟩
    · rw [samples_eq_pts, p3, pts_append]
    · rw [← SameUpToIds_pts s3, ← samples_eq_pts, hsd2]
      exact (s1.samples d).symm
    · intro p hp
      obtain ⟨r, hr, hrp⟩ := List.mem_filterMap.1 hp
      obtain ⟨p0, hp0⟩ := c2.live r (hsub.mem hr)
      obtain ⟨p', hp', hx, hy⟩ := same_deref s3 hp0
      rw [hrp] at hp'
      cases hp'
      have := hder p0 (List.mem_filterMap.2 ⟨r, hsub.mem hr, hp0⟩)
      unfold Derived BeyondPoint at this ⊢
      rw [hx, hy]
      exact this

/-- Too few neighbours: a null pointer is read. -/
theorem borderline_null [LinearOrder K] (dist : List K → List K → K) (srt : List (Nat × K) → List (Nat × K)) (hsrt : SortsByDistance srt)
    (k : Nat) (r : K) (mm : Nat) (alpha : Nat → K) (σ : List Nat → List Nat) (m : Mem K) (d : Data)
    (h : Consistent m d) (z : Pt K) (hz : (samples m d)[0]? = some z) (hnb : distinctDistances dist (samples m d) z < mm) :
    borderline dist srt k r mm alpha σ m d = .error .badPointer := by
  rw [samples_eq_pts] at hz
  obtain ⟨r0, hr0, hrz⟩ := h.livePts.get 0 z hz
  obtain ⟨rs, hrs⟩ : ∃ rs, d.points = r0 :: rs := by
    cases hd : d.points with
    | nil => rw [hd] at hr0; simp at hr0
    | cons a l => rw [hd] at hr0; simp at hr0; exact ⟨l, by rw [hr0]⟩
  have hne : d.points ≠ [] := by rw [hrs]; simp
  obtain ⟨maj, emaj⟩ := maxIdx_ok d.classes (fun c => (labels m d).count c) (classes_ne h hne)
  rw [← h.counts.counts] at emaj
  have eall := derefAll_ok m d.points h.livePts
  rw [← samples_eq_pts] at eall
  obtain ⟨hn1, hn2⟩ := neighbours_spec dist srt hsrt mm (samples m d) z
  have ecount : dangerCount m d.points maj mm (neighbours dist srt mm (samples m d) z) = .error .badPointer := by
    have e : (neighbours dist srt mm (samples m d) z).mapM (fun q => do
        let r ← vget d.points (q.1 - 1)
        let p ← deref m r
        pure p.y) = (Except.ok ((neighbours dist srt mm (samples m d) z).map
          (fun q => ((pts m d.points).getD (q.1 - 1) { x := [], y := 0 }).y)) : Res (List Int)) := by
      apply Feat.mapM_ok
      intro q hq
      obtain ⟨q', _, hq', _⟩ := hn2 q hq
      have hlt := (List.getElem?_eq_some_iff.1 hq').1
      rw [samples_eq_pts, h.livePts.length] at hlt
      obtain ⟨p, hp⟩ := h.livePts (d.points[q.1 - 1]) (List.getElem_mem hlt)
      have := pts_at h.livePts hlt hp
      simp only [vget, List.getElem?_eq_getElem hlt, Res_bind_ok, deref_of_get hp, Res_pure, List.getD_eq_getElem?_getD, this,
        Option.getD_some]
    unfold dangerCount
    simp only [e, Res_bind_ok]
    rw [if_pos (by omega)]
  rw [borderline]
  simp only [emaj, eall, Res_bind_ok]
  have : dangerLoop dist srt mm maj d.points (samples m d) d.points m Data.empty [] = .error .badPointer := by
    conv_lhs => arg 7; rw [hrs]
    rw [dangerLoop, deref_of_get hrz, Res_bind_ok, ecount]
    rfl
  rw [this]
  rfl

end
end MLTK.Sampling
