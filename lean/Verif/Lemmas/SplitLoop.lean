import Verif.Lemmas.Split
namespace MLTK.Data
open MLTK.Spec
variable {T : Type}

/-- A part under construction: consistent, of dimension `D` unless empty, index as long as the
points. -/
structure PartOK (m : Mem T) (D : Nat) (p : Data) : Prop where
  cons : Consistent m p
  dim : p.points ≠ [] → p.mdim = D
  index : p.index.length = p.points.length
  cdist : p.cdistComputed = false
  type : p.type = "Classification"

theorem partOK_empty (m : Mem T) (D : Nat) : PartOK m D empty :=
  ⟨(inv_empty m).consistent, fun h => absurd rfl h, rfl, rfl, rfl⟩

theorem PartOK.of_same {m m' : Mem T} {D : Nat} {p : Data} (h : PartOK m D p)
    (hs : SameUpToIds m m') : PartOK m' D p :=
  ⟨Consistent_of_same h.cons hs, h.dim, h.index, h.cdist, h.type⟩

theorem PartOK.alloc {m : Mem T} {D : Nat} {p : Data} (h : PartOK m D p) (e : List (Pt T)) :
    PartOK (m ++ e) D p :=
  ⟨consistent_alloc h.cons e, h.dim, h.index, h.cdist, h.type⟩

theorem PartOK.insert {m : Mem T} {D : Nat} {d : Data} (h : PartOK m D d) {r : Nat} {p : Pt T}
    (hr : m[r]? = some p) (hd : p.x.length = D) (keep : Bool) :
    ∃ m' d', insertPtr m d r keep = .ok (m', d', true) ∧ PartOK m' D d' ∧ SameUpToIds m m' ∧
      (keep = true → m' = m) ∧ (∀ q, q ≠ r → m'[q]? = m[q]?) ∧ d'.points = d.points ++ [r] := by
  rcases insertPtr_consistent h.cons hr keep with ⟨h1, h2, _⟩ | ⟨_, m', d', e, hc, hm, hs, hp, hmd, ht, hcd, _, hix⟩
  · exact absurd (hd.trans (h.dim h1).symm) h2
  · refine ⟨m', d', e, ⟨hc, fun _ => hmd.trans hd, by rw [hix, hp]; simp [h.index], by rw [hcd]; exact h.cdist,
      by rw [ht]; exact h.type⟩,
      hs, ?_, ?_, hp⟩
    · intro hk; rw [hm, if_pos hk]
    · intro q hq
      rw [hm]; split
      · rfl
      · exact List.getElem?_set_ne (fun h => hq h.symm)

theorem SameUpToIds_live {m m' : Mem T} (hs : SameUpToIds m m') {ps : List Nat} (h : Live m ps) :
    Live m' ps := by
  intro r hr
  have hlt := h.lt hr
  have hl : m.length = m'.length := hs.length
  exact ⟨m'[r]'(by omega), List.getElem?_eq_getElem _⟩

theorem SameUpToIds_pts {m m' : Mem T} (hs : SameUpToIds m m') (ps : List Nat) :
    (pts m ps).map content = (pts m' ps).map content := hs.filterMap ps

theorem SameUpToIds_dims {m m' : Mem T} (hs : SameUpToIds m m') (ps : List Nat) {D : Nat}
    (h : ∀ p ∈ pts m ps, p.x.length = D) : ∀ p ∈ pts m' ps, p.x.length = D := by
  have := SameUpToIds_pts hs ps
  intro p hp
  have hc : content p ∈ (pts m ps).map content := by
    rw [this]; exact List.mem_map.2 ⟨p, hp, rfl⟩
  obtain ⟨q, hq, he⟩ := List.mem_map.1 hc
  have h1 : q.x = p.x := congrArg Prod.fst he
  rw [← h1]; exact h q hq

theorem fillLoop_ok (keep : Bool) (lm : List (String × Nat)) (k : Nat) (hk : 0 < k)
    (hlm : ∀ y, mapGet lm (labelKey y) = 0) (D : Nat) :
    ∀ (rs : List Nat) (m : Mem T) (parts : List Data) (fill : List Nat) (t : Nat),
      Live m rs → (∀ p ∈ pts m rs, p.x.length = D) → parts.length = k →
      (∀ p ∈ parts, PartOK m D p) → fill[0]? = some t →
      ∃ m' parts', fillLoop keep lm k m parts fill rs = .ok (m', parts') ∧ parts'.length = k ∧
        (∀ p ∈ parts', PartOK m' D p) ∧ SameUpToIds m m' ∧ (keep = true → m' = m) ∧
        (∀ q, q ∉ rs → m'[q]? = m[q]?) ∧
        (∀ j part, parts[j]? = some part → ∃ part', parts'[j]? = some part' ∧
          part'.points = part.points ++ deal k j t rs) := by
  intro rs
  induction rs with
  | nil =>
    intro m parts fill t _ _ hl hp _
    exact ⟨m, parts, rfl, hl, hp, rfl, fun _ => rfl, fun _ _ => rfl,
      fun j part hj => ⟨part, hj, by simp [deal]⟩⟩
  | cons r rs ih =>
    intro m parts fill t hL hdim hl hp hf
    obtain ⟨⟨p, hr⟩, hL2⟩ := hL.cons
    rw [pts_cons hr] at hdim
    have hmod : t % k < parts.length := by rw [hl]; exact Nat.mod_lt _ hk
    have hflt : 0 < fill.length := (List.getElem?_eq_some_iff.1 hf).1
    obtain ⟨m1, d1, e, hok, hs, hkeep, hframe, hpts⟩ :=
      (hp parts[t % k] (List.getElem_mem hmod)).insert hr (hdim p (by simp)) keep
    have hv1 : vget fill 0 = .ok t := by simpa using hf
    have hv2 : vget parts (t % k) = .ok parts[t % k] := by
      rw [vget_eq_ok, List.getElem?_eq_getElem]
    have hset : vset fill 0 (t + 1) = .ok (fill.set 0 (t + 1)) := by simp [vset, hflt]
    have hparts : ∀ q ∈ parts.set (t % k) d1, PartOK m1 D q := by
      intro q hq
      rcases List.mem_or_eq_of_mem_set hq with h | h
      · exact (hp q h).of_same hs
      · rw [h]; exact hok
    obtain ⟨m', parts', e2, h1, h2, h3, h4, h5, h6⟩ := ih m1 (parts.set (t % k) d1) (fill.set 0 (t + 1)) (t + 1)
      (SameUpToIds_live hs hL2)
      (SameUpToIds_dims hs rs (fun q hq => hdim q (by simp [hq]))) (by simpa using hl) hparts
      (by simp [hflt])
    refine ⟨m', parts', ?_, h1, h2, hs.trans h3, ?_, ?_, ?_⟩
    · simp only [fillLoop, deref_of_get hr, Res_bind_ok, hlm, hv1, hset, hv2, e]
      exact e2
    · intro hk'; rw [h4 hk', hkeep hk']
    · intro q hq
      rw [h5 q (fun h => hq (by simp [h])), hframe q (fun h => hq (by simp [h]))]
    · intro j part hj
      have hjl : j < parts.length := (List.getElem?_eq_some_iff.1 hj).1
      by_cases hjt : t % k = j
      · subst hjt
        have hpe : parts[t % k] = part := (List.getElem?_eq_some_iff.1 hj).2
        obtain ⟨part', e3, e4⟩ := h6 (t % k) d1 (by simp [hmod])
        refine ⟨part', e3, ?_⟩
        rw [e4, hpts, hpe]
        simp [deal]
      · obtain ⟨part', e3, e4⟩ := h6 j part (by rw [List.getElem?_set_ne hjt]; exact hj)
        refine ⟨part', e3, ?_⟩
        rw [e4]
        simp [deal, hjt]

theorem multimapOrder_perm (m : Mem T) (rs : List Nat) : (multimapOrder m rs).Perm rs :=
  List.perm_insertionSort _ _

theorem multimapOrder_sorted (m : Mem T) (rs : List Nat) :
    (multimapOrder m rs).Pairwise (fun a b => keyOf m a ≤ keyOf m b) := by
  haveI : Std.Total (fun a b => keyOf m a ≤ keyOf m b) := ⟨fun a b => le_total _ _⟩
  haveI : IsTrans Nat (fun a b => keyOf m a ≤ keyOf m b) := ⟨fun a b c h1 h2 => le_trans h1 h2⟩
  exact List.pairwise_insertionSort _ rs


/-! ## The plain split -/

theorem plainInner_ok (keep : Bool) (D : Nat) :
    ∀ (q : Nat) (m : Mem T) (part : Data) (rest : List Nat),
      Live m rest → (∀ p ∈ pts m rest, p.x.length = D) → PartOK m D part → q ≤ rest.length →
      ∃ m' part', plainInner keep q m part rest
          = .ok (m', part', rest.drop q, decide (0 < q ∧ rest.length = q)) ∧
        PartOK m' D part' ∧ SameUpToIds m m' ∧ (keep = true → m' = m) ∧
        (∀ x, x ∉ rest → m'[x]? = m[x]?) ∧ part'.points = part.points ++ rest.take q := by
  intro q
  induction q with
  | zero =>
    intro m part rest _ _ hp _
    exact ⟨m, part, by simp [plainInner], hp, rfl, fun _ => rfl, fun _ _ => rfl, by simp⟩
  | succ q ih =>
    intro m part rest hL hdim hp hq
    cases rest with
    | nil => simp at hq
    | cons r rest =>
      obtain ⟨⟨p, hr⟩, hL2⟩ := hL.cons
      rw [pts_cons hr] at hdim
      obtain ⟨m1, d1, e, hok, hs, hkeep, hframe, hpts⟩ := hp.insert hr (hdim p (by simp)) keep
      by_cases hrest : rest = []
      · subst hrest
        have hq0 : q = 0 := by simpa using hq
        subst hq0
        refine ⟨m1, d1, by simp [plainInner, e], hok, hs, hkeep, ?_, by simp [hpts]⟩
        intro x hx; exact hframe x (fun h => hx (by simp [h]))
      · obtain ⟨m', part', e2, h1, h2, h3, h4, h5⟩ := ih m1 d1 rest (SameUpToIds_live hs hL2)
          (SameUpToIds_dims hs rest (fun q hq => hdim q (by simp [hq]))) hok (by simpa using hq)
        refine ⟨m', part', ?_, h1, hs.trans h2, ?_, ?_, ?_⟩
        · simp only [plainInner, e, Res_bind_ok, if_neg hrest, e2, List.drop_succ_cons,
            List.length_cons]
          have hpos : 0 < rest.length := List.length_pos_iff.2 hrest
          have : (0 < q ∧ rest.length = q) ↔ (0 < q + 1 ∧ rest.length + 1 = q + 1) := by
            constructor <;> (rintro ⟨a, b⟩; constructor <;> omega)
          simp only [this]
        · intro hk; rw [h3 hk, hkeep hk]
        · intro x hx
          rw [h4 x (fun h => hx (by simp [h])), hframe x (fun h => hx (by simp [h]))]
        · rw [h5, hpts]; simp

theorem plainOuter_ok (keep : Bool) (D q : Nat) :
    ∀ (n : Nat) (m : Mem T) (done : List Data) (rest : List Nat),
      Live m rest → (∀ p ∈ pts m rest, p.x.length = D) → (∀ p ∈ done, PartOK m D p) →
      n * q ≤ rest.length →
      ∃ m' parts', plainOuter keep q m (List.replicate n empty) done rest = .ok (m', done ++ parts') ∧
        (∀ p ∈ done ++ parts', PartOK m' D p) ∧ SameUpToIds m m' ∧ (keep = true → m' = m) ∧
        (∀ x, x ∉ rest → m'[x]? = m[x]?) ∧
        parts'.map Data.points = (List.range n).map (fun j => (rest.drop (j * q)).take q) := by
  intro n
  induction n with
  | zero =>
    intro m done rest _ _ hd _
    exact ⟨m, [], by simp [plainOuter], by simpa using hd, rfl, fun _ => rfl, fun _ _ => rfl, rfl⟩
  | succ n ih =>
    intro m done rest hL hdim hd hle
    have hq : q ≤ rest.length := by
      have : (n + 1) * q = n * q + q := by ring
      omega
    obtain ⟨m1, d1, e, hok, hs, hkeep, hframe, hpts⟩ :=
      plainInner_ok keep D q m empty rest hL hdim (partOK_empty m D) hq
    have hpts' : d1.points = rest.take q := by rw [hpts]; simp [empty]
    by_cases hstop : 0 < q ∧ rest.length = q
    · have hn : n = 0 := by
        by_contra hn
        have h1 : (n + 1) * q = n * q + q := by ring
        have h2 : 0 < n * q := Nat.mul_pos (Nat.pos_of_ne_zero hn) hstop.1
        omega
      subst hn
      refine ⟨m1, [d1], ?_, ?_, hs, hkeep, hframe, ?_⟩
      · simp only [List.replicate_succ, List.replicate_zero, plainOuter, e, Res_bind_ok, hstop,
          decide_true, and_self, if_true]
        simp
      · intro p hp
        rcases List.mem_append.1 hp with h | h
        · exact (hd p h).of_same hs
        · simp at h; rw [h]; exact hok
      · simp [hpts']
    · obtain ⟨m', parts', e2, h1, h2, h3, h4, h5⟩ := ih m1 (done ++ [d1]) (rest.drop q)
        (SameUpToIds_live hs (hL.sublist (fun x hx => List.mem_of_mem_drop hx)))
        (SameUpToIds_dims hs _ (fun x hx => hdim x (by
          unfold pts at hx ⊢
          obtain ⟨r, hr, he⟩ := List.mem_filterMap.1 hx
          exact List.mem_filterMap.2 ⟨r, List.mem_of_mem_drop hr, he⟩)))
        (by
          intro p hp
          rcases List.mem_append.1 hp with h | h
          · exact (hd p h).of_same hs
          · simp at h; rw [h]; exact hok)
        (by
          have : (n + 1) * q = n * q + q := by ring
          rw [List.length_drop]; omega)
      refine ⟨m', d1 :: parts', ?_, ?_, hs.trans h2, ?_, ?_, ?_⟩
      · simp only [List.replicate_succ, plainOuter, e, Res_bind_ok]
        rw [decide_eq_false hstop]
        simp only [Bool.false_eq_true, if_false]
        rw [e2]; simp
      · simpa using h1
      · intro hk; rw [h3 hk, hkeep hk]
      · intro x hx
        rw [h4 x (fun h => hx (List.mem_of_mem_drop h)), hframe x hx]
      · rw [List.map_cons, h5, hpts', List.range_succ_eq_map, List.map_cons]
        simp only [Nat.zero_mul, List.drop_zero, List.map_map]
        congr 1
        apply List.map_congr_left
        intro j _
        simp only [Function.comp_apply, List.drop_drop]
        congr 2
        rw [Nat.succ_mul]; omega

theorem chunks_flatten {α : Type} (q : Nat) : ∀ (n : Nat) (l : List α), n * q ≤ l.length →
    ((List.range n).map (fun j => (l.drop (j * q)).take q)).flatten = l.take (n * q) := by
  intro n
  induction n with
  | zero => intro l _; simp
  | succ n ih =>
    intro l hl
    have h1 : (n + 1) * q = n * q + q := by ring
    rw [List.range_succ, List.map_append, List.flatten_append, ih l (by omega), h1, List.take_add]
    simp

/-! ## `splitSample` -/

/-- What both kinds of split guarantee: which fresh objects are in which part, and that the old heap
is untouched. -/
structure SplitRes (m m' : Mem T) (d : Data) (keep : Bool) (k : Nat) (parts : List Data) : Prop where
  length : parts.length = k
  ok : ∀ p ∈ parts, PartOK m' d.mdim p
  same : SameUpToIds (m ++ samples m d) m'
  keeps : keep = true → m' = m ++ samples m d
  frame : ∀ x, x < m.length → m'[x]? = m[x]?

theorem shuffle_ok (d : Data) (σ : List Nat → List Nat) (h : d.msize ≤ d.index.length) :
    shuffle d σ = .ok { d with points := σ d.points, index := iota 0 d.msize ++ d.index.drop d.msize } := by
  unfold shuffle; rw [if_neg (by omega)]

theorem splitSample_strat {m : Mem T} {d : Data} (h : Consistent m d) (hidx : d.size ≤ d.index.length)
    {k : Nat} (hk : 0 < k) (keep : Bool) {σ : List Nat → List Nat} (hσ : ∀ l, (σ l).Perm l) :
    ∃ m' parts, ∃ order : List Nat, splitSample m d k true keep σ = .ok (m', parts) ∧ SplitRes m m' d keep k parts ∧
      order.Perm (List.range' m.length d.size) ∧
      order.Pairwise (fun a b => keyOf (m ++ samples m d) a ≤ keyOf (m ++ samples m d) b) ∧
      parts.map Data.points = (List.range k).map (fun j => deal k j 0 order) := by
  obtain ⟨c, e, hp, h1, h2, h3, h4, h5, h6, h7, _⟩ := copy_ok h
  have hcs := copy_samples h hp
  have hcc := copy_consistent h hp h2 h3 h4 h5 h7
  have hsh := shuffle_ok c σ (by rw [h7, h6]; exact hidx)
  obtain ⟨order, hord⟩ : ∃ order, order = multimapOrder (m ++ samples m d) (σ c.points) := ⟨_, rfl⟩
  have hperm : order.Perm c.points := by rw [hord]; exact (multimapOrder_perm _ _).trans (hσ _)
  have hL : Live (m ++ samples m d) order :=
    hcc.livePts.sublist (fun x hx => hperm.mem_iff.1 hx)
  have hdims : ∀ p ∈ pts (m ++ samples m d) order, p.x.length = d.mdim := by
    intro p hp'
    have : p ∈ pts (m ++ samples m d) c.points := (hperm.filterMap _).mem_iff.1 hp'
    rw [← h4]; exact hcc.dims p this
  obtain ⟨m', parts, e2, g1, g2, g3, g4, g5, g6⟩ :=
    fillLoop_ok (T := T) keep (labelMap c.classes) k hk (mapGet_labelMap _) d.mdim order
      (m ++ samples m d) (List.replicate k empty) (List.replicate k 0) 0 hL hdims (by simp)
      (by intro p hp'; rw [List.eq_of_mem_replicate hp']; exact partOK_empty _ _)
      (by simp [hk])
  refine ⟨m', parts, order, ?_, ⟨g1, g2, g3, g4, ?_⟩, by rw [← hp]; exact hperm,
    by rw [hord]; exact multimapOrder_sorted _ _, ?_⟩
  · unfold splitSample
    simp only [if_neg (Nat.ne_of_gt hk), Res_bind_ok, e, hsh, h.cls, Bool.and_self, if_true]
    rw [← hord]; exact e2
  · intro x hx
    rw [g5 x, List.getElem?_append_left hx]
    intro hx'
    have := hperm.mem_iff.1 hx'
    rw [hp] at this
    have := List.mem_range'_1.1 this
    omega
  · apply List.ext_getElem
    · simp [g1]
    · intro j hj1 hj2
      have hjk : j < k := by simpa using hj2
      obtain ⟨part', e3, e4⟩ := g6 j empty (by simp [hjk])
      have : parts[j]'(by simpa using hj1) = part' := (List.getElem?_eq_some_iff.1 e3).2
      simp only [List.getElem_map, List.getElem_range, this, e4]
      simp [empty]

theorem splitSample_plain {m : Mem T} {d : Data} (h : Consistent m d) (hidx : d.size ≤ d.index.length)
    {k : Nat} (hk : 0 < k) (keep : Bool) {σ : List Nat → List Nat} (hσ : ∀ l, (σ l).Perm l) :
    ∃ m' parts, ∃ order : List Nat, splitSample m d k false keep σ = .ok (m', parts) ∧ SplitRes m m' d keep k parts ∧
      order.Perm (List.range' m.length d.size) ∧
      parts.map Data.points
        = (List.range k).map (fun j => (order.drop (j * (d.size / k))).take (d.size / k)) := by
  obtain ⟨c, e, hp, h1, h2, h3, h4, h5, h6, h7, _⟩ := copy_ok h
  have hcs := copy_samples h hp
  have hcc := copy_consistent h hp h2 h3 h4 h5 h7
  have hsh := shuffle_ok c σ (by rw [h7, h6]; exact hidx)
  have hperm : (σ c.points).Perm c.points := hσ _
  have hL : Live (m ++ samples m d) (σ c.points) :=
    hcc.livePts.sublist (fun x hx => hperm.mem_iff.1 hx)
  have hdims : ∀ p ∈ pts (m ++ samples m d) (σ c.points), p.x.length = d.mdim := by
    intro p hp'
    have : p ∈ pts (m ++ samples m d) c.points := (hperm.filterMap _).mem_iff.1 hp'
    rw [← h4]; exact hcc.dims p this
  have hlen : (σ c.points).length = d.size := by rw [hperm.length_eq, hp]; simp
  obtain ⟨m', parts, e2, g2, g3, g4, g5, g6⟩ :=
    plainOuter_ok (T := T) keep d.mdim (d.size / k) k (m ++ samples m d) [] (σ c.points) hL hdims
      (by simp) (by rw [hlen]; exact Nat.mul_div_le _ _)
  rw [List.nil_append] at e2 g2
  refine ⟨m', parts, σ c.points, ?_, ⟨?_, g2, g3, g4, ?_⟩, by rw [← hp]; exact hperm, g6⟩
  · unfold splitSample
    simp only [if_neg (Nat.ne_of_gt hk), Res_bind_ok, e, hsh, Bool.and_false, Bool.false_eq_true, if_false]
    exact e2
  · have := congrArg List.length g6
    simpa using this
  · intro x hx
    rw [g5 x, List.getElem?_append_left hx]
    intro hx'
    have := hperm.mem_iff.1 hx'
    rw [hp] at this
    have := List.mem_range'_1.1 this
    omega

/-- Contents of the parts, from the pointers of the parts. -/
theorem flatMap_samples (m : Mem T) (parts : List Data) :
    parts.flatMap (samples m) = pts m (parts.map Data.points).flatten := by
  induction parts with
  | nil => rfl
  | cons a parts ih =>
    rw [List.flatMap_cons, ih, List.map_cons, List.flatten_cons, pts_append]; rfl

end MLTK.Data
