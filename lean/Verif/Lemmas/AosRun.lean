import Verif.Lemmas.Aos
import Verif.Lemmas.Point
import Verif.Props.Features
import Verif.Spec.AosRun
/-!
# Lemmas about the admissible ordered search
-/
namespace MLTK.Aos
open MLTK.Data (Res_bind_ok Res_bind_error Res_pure)
open MLTK.Feat (Tbl removeFeatures)
open MLTK.Perc (Libm)
open MLTK.Spec
open MLTK.Props (Aligned)

theorem bind_inv {α β : Type} {x : Res α} {f : α → Res β} {b : β} (h : (x >>= f) = .ok b) :
    ∃ a, x = .ok a ∧ f a = .ok b := by
  cases x with
  | error e => cases h
  | ok a => exact ⟨a, rfl, h⟩

section
variable {K : Type}

/-- The node keeps what the search relies on. -/
structure NodeOk [Zero K] [LT K] (names : List Int) (D : Nat) (Q : List Int → Prop) (nd : Node K) : Prop where
  len : nd.fnames.length = nd.level
  nodup : nd.fnames.Nodup
  sub : ∀ f ∈ nd.fnames, f ∈ names
  pos : 1 ≤ nd.level
  trained : nd.rgamma > 0 → nd.level ≤ D
  q : Q nd.fnames

/-- Nodes which agree in names, level and real margin. -/
def SameKey (a b : Node K) : Prop := a.fnames = b.fnames ∧ a.level = b.level ∧ a.rgamma = b.rgamma

theorem NodeOk.congr [Zero K] [LT K] {names : List Int} {D : Nat} {Q : List Int → Prop} {a b : Node K}
    (h : NodeOk names D Q a) (e : SameKey b a) : NodeOk names D Q b := by
  obtain ⟨e1, e2, e3⟩ := e
  exact ⟨by rw [e1, e2]; exact h.len, by rw [e1]; exact h.nodup, by rw [e1]; exact h.sub, by rw [e2]; exact h.pos,
    by rw [e3, e2]; exact h.trained, by rw [e1]; exact h.q⟩

theorem deref_inv {m : Nodes K} {p : Option Nat} {nd : Node K} (h : deref m p = .ok nd) :
    ∃ q, p = some q ∧ m[q]? = some (some nd) := by
  unfold deref at h
  cases p with
  | none => cases h
  | some q =>
    refine ⟨q, rfl, ?_⟩
    simp only at h
    split at h
    · rename_i nd' hm
      cases h
      exact hm
    · cases h

theorem deref_of {m : Nodes K} {p : Nat} {nd : Node K} (h : m[p]? = some (some nd)) : deref m (some p) = .ok nd := by
  simp [deref, h]

theorem free_inv {m m' : Nodes K} {p : Nat} (h : free m (some p) = .ok m') : m' = m.set p none := by
  unfold free at h
  simp only at h
  split at h <;> cases h
  rfl

variable [Field K] [LinearOrder K]

theorem scan_inv {m : Nodes K} {nd : Node K} : ∀ {b : List Nat} {q : Nat}, scan m nd b = .ok (some q) →
    q ∈ b ∧ ∃ other, m[q]? = some (some other) ∧ nd.level = other.level := by
  intro b
  induction b with
  | nil => intro q h; cases h
  | cons r b ih =>
    intro q h
    rw [scan] at h
    obtain ⟨other, h1, h⟩ := bind_inv h
    obtain ⟨e, h2, h⟩ := bind_inv h
    cases e with
    | false =>
      obtain ⟨h3, h4⟩ := ih h
      exact ⟨by simp [h3], h4⟩
    | true =>
      cases h
      obtain ⟨r', hr, hm⟩ := deref_inv h1
      cases hr
      refine ⟨by simp, other, hm, ?_⟩
      unfold nodeEqual at h2
      by_contra hne
      rw [if_pos hne] at h2
      cases h2

/-- What `add` does to the nodes and the table. -/
theorem add_inv {m m' : Nodes K} {h h' : Hash} {p : Nat} {b : Bool} (e : add m h p = .ok (m', h', b)) :
    (∀ (q : Nat) (nd' : Node K), m'[q]? = some (some nd') → ∃ nd, m[q]? = some (some nd) ∧ SameKey nd' nd) ∧
    (∀ (q : Nat) (nd : Node K), q ≠ p → m[q]? = some (some nd) → ∃ nd', m'[q]? = some (some nd') ∧ SameKey nd' nd) ∧
    m'.length = m.length ∧ (b = true → m' = m) ∧
    (∀ bk ∈ h'.buckets, ∀ q ∈ bk, q = p ∨ ∃ bk ∈ h.buckets, q ∈ bk) ∧
    (b = false → ∃ bk ∈ h.buckets, ∃ q ∈ bk, ∃ nd other, m[p]? = some (some nd) ∧ m[q]? = some (some other) ∧
      nd.level = other.level) := by
  unfold add at e
  obtain ⟨nd, hnd, e⟩ := bind_inv e
  obtain ⟨index, _, e⟩ := bind_inv e
  obtain ⟨bucket, hbk, e⟩ := bind_inv e
  obtain ⟨found, hf, e⟩ := bind_inv e
  rw [vget_eq_ok] at hbk
  have hmem : bucket ∈ h.buckets := List.mem_of_getElem? hbk
  obtain ⟨p', hp', hp⟩ := deref_inv hnd
  cases hp'
  cases found with
  | none =>
    simp only at e
    split at e
    · cases e
    · obtain ⟨buckets, hv, e⟩ := bind_inv e
      cases e
      refine ⟨fun q nd' hq => ⟨nd', hq, rfl, rfl, rfl⟩, fun q nd' _ hq => ⟨nd', hq, rfl, rfl, rfl⟩, rfl, fun _ => rfl, ?_,
        by simp⟩
      unfold vset at hv
      split at hv
      · cases hv
        intro bk hbk' q hq
        rcases List.mem_or_eq_of_mem_set hbk' with h1 | h1
        · exact Or.inr ⟨bk, h1, hq⟩
        · rw [h1] at hq
          rcases List.mem_append.1 hq with h2 | h2
          · exact Or.inr ⟨bucket, hmem, h2⟩
          · exact Or.inl (by simpa using h2)
      · cases hv
  | some q =>
    simp only at e
    obtain ⟨m2, hr, e⟩ := bind_inv e
    cases e
    obtain ⟨hq, other, hoth, hlev⟩ := scan_inv hf
    unfold refound at hr
    rw [deref_of hoth, Res_bind_ok] at hr
    simp only at hr
    have hm := free_inv hr
    set m1 := (if other.rgamma < 0 ∧ other.value < nd.value then
      store m q { other with pgamma := nd.pgamma, value := nd.value } else m) with hm1
    have hlen : m1.length = m.length := by
      rw [hm1]; split <;> simp [store]
    have hk : ∀ (r : Nat) (nd' : Node K), m1[r]? = some (some nd') → ∃ nd, m[r]? = some (some nd) ∧ SameKey nd' nd := by
      intro r nd' hr'
      rw [hm1] at hr'
      split at hr'
      · by_cases hrq : q = r
        · subst hrq
          have hlt : q < m.length := (List.getElem?_eq_some_iff.1 hoth).1
          rw [store, List.getElem?_set_self hlt] at hr'
          cases hr'
          exact ⟨other, hoth, rfl, rfl, rfl⟩
        · rw [store, List.getElem?_set_ne hrq] at hr'
          exact ⟨nd', hr', rfl, rfl, rfl⟩
      · exact ⟨nd', hr', rfl, rfl, rfl⟩
    have hk' : ∀ (r : Nat) (nd : Node K), m[r]? = some (some nd) → ∃ nd', m1[r]? = some (some nd') ∧ SameKey nd' nd := by
      intro r nd' hr'
      rw [hm1]
      split
      · by_cases hrq : q = r
        · subst hrq
          have hlt : q < m.length := (List.getElem?_eq_some_iff.1 hoth).1
          rw [hoth] at hr'
          cases hr'
          exact ⟨_, List.getElem?_set_self hlt, rfl, rfl, rfl⟩
        · exact ⟨nd', by rw [store, List.getElem?_set_ne hrq]; exact hr', rfl, rfl, rfl⟩
      · exact ⟨nd', hr', rfl, rfl, rfl⟩
    subst hm
    refine ⟨?_, ?_, ?_, by simp, ?_, ?_⟩
    · intro r nd' hr'
      by_cases hrp : p = r
      · subst hrp
        rw [List.getElem?_set] at hr'
        simp only [if_true] at hr'
        split at hr' <;> cases hr'
      · rw [List.getElem?_set_ne hrp] at hr'
        exact hk r nd' hr'
    · intro r nd' hrp hr'
      rw [List.getElem?_set_ne (Ne.symm hrp)]
      exact hk' r nd' hr'
    · simpa using hlen
    · exact fun bk hbk' q hq => Or.inr ⟨bk, hbk', hq⟩
    · exact fun _ => ⟨bucket, hmem, q, hq, nd, other, hp, hoth, hlev⟩

theorem insert_size {cap : Nat} {m : Nodes K} {h h' : Heap} {tok : Nat} {b : Bool}
    (e : insert cap m h tok = .ok (h', b)) : h.size ≤ h'.size ∧ (h.size ≠ cap → h'.size = h.size + 1) := by
  unfold insert at e
  obtain ⟨t, _, e⟩ := bind_inv e
  split at e
  · rename_i hs
    obtain ⟨l, _, e⟩ := bind_inv e
    split at e
    · obtain ⟨a, _, e⟩ := bind_inv e
      cases e
      exact ⟨le_rfl, fun h => absurd hs h⟩
    · cases e
      exact ⟨le_rfl, fun h => absurd hs h⟩
  · obtain ⟨a, _, e⟩ := bind_inv e
    cases e
    exact ⟨by simp, fun _ => rfl⟩

theorem cutLoop_inv {levelat cut : Nat} {thr : K} : ∀ {i : Nat} {m m' : Nodes K} {h h' : Heap},
    cutLoop levelat cut thr i m h = .ok (m', h') →
    (∀ (q : Nat) (nd : Node K), m'[q]? = some (some nd) → m[q]? = some (some nd)) ∧ m'.length = m.length := by
  intro i
  induction i with
  | zero => intro m m' h h' e; cases e; exact ⟨fun _ _ h => h, rfl⟩
  | succ i ih =>
    intro m m' h h' e
    rw [cutLoop] at e
    obtain ⟨nd, hnd, e⟩ := bind_inv e
    split at e
    · obtain ⟨m1, hm1, e⟩ := bind_inv e
      obtain ⟨a, _, e⟩ := bind_inv e
      obtain ⟨h1, h2⟩ := ih e
      obtain ⟨q, hq, _⟩ := deref_inv hnd
      rw [hq] at hm1
      have := free_inv hm1
      subst this
      refine ⟨?_, by simpa using h2⟩
      intro r nd' hr
      have := h1 r nd' hr
      by_cases hrq : q = r
      · subst hrq
        rw [List.getElem?_set] at this
        simp only [if_true] at this
        split at this <;> cases this
      · rwa [List.getElem?_set_ne hrq] at this
    · exact ih e

theorem pop_inv {m : Nodes K} {h h' : Heap} {p : Option Nat} (e : pop m h = .ok (h', p)) (hs : h.size ≠ 0) :
    p = h.elements 1 ∧ h'.size = h.size - 1 := by
  unfold pop at e
  rw [if_neg hs] at e
  obtain ⟨a, _, e⟩ := bind_inv e
  cases e
  exact ⟨rfl, rfl⟩

end

theorem sortDesc_perm (l : List Int) : (sortDesc l).Perm l := List.perm_insertionSort _ l

section
variable {K : Type} [Field K] [LinearOrder K]

/-- Every live node is in order. -/
def MemOk (names : List Int) (D : Nat) (Q : List Int → Prop) (m : Nodes K) : Prop :=
  ∀ (p : Nat) (nd : Node K), m[p]? = some (some nd) → NodeOk names D Q nd

theorem mapM_vget (l : List Int) : (List.range l.length).mapM (fun j => vget l j) = .ok l := by
  rw [Feat.mapM_ok (fun j => vget l j) (fun j => l.getD j 0) _
    (fun j hj => PointM.vget_getD (List.mem_range.1 hj) 0)]
  congr 1
  apply List.ext_getElem (by simp)
  intro i h1 h2
  simp [List.getD_eq_getElem?_getD, h2]

theorem vget_lt_of {α : Type} {l : List α} {i : Nat} {a : α} (h : vget l i = .ok a) : i < l.length ∧ a ∈ l := by
  rw [vget_eq_ok] at h
  exact ⟨(List.getElem?_eq_some_iff.1 h).1, List.mem_of_getElem? h⟩

/-- What the children of a node are made of. -/
structure Parent (names : List Int) (level : Nat) (ofnames : List Int) (weights : List (K × Int)) : Prop where
  len : ofnames.length = level
  nodup : ofnames.Nodup
  sub : ∀ f ∈ ofnames, f ∈ names
  new : ∀ wt ∈ weights, wt.2 ∈ names ∧ wt.2 ∉ ofnames

theorem memOk_add {names : List Int} {D : Nat} {Q : List Int → Prop} {m m' : Nodes K}
    (hm : MemOk names D Q m)
    (h : ∀ (q : Nat) (nd' : Node K), m'[q]? = some (some nd') → ∃ nd, m[q]? = some (some nd) ∧ SameKey nd' nd) :
    MemOk names D Q m' := by
  intro p nd hp
  obtain ⟨nd0, h0, hk⟩ := h p nd hp
  exact (hm p nd0 h0).congr hk

variable [IsStrictOrderedRing K]

theorem branch_inv {lm : Libm K} {c : Cfg K} {dim level : Nat} {ofnames : List Int} {weights : List (K × Int)}
    {wnorm margin : K} {st st' : Srch K} {i : Nat} {names : List Int} {D : Nat} {Q : List Int → Prop}
    (e : branch lm c dim level ofnames weights wnorm margin st i = .ok st')
    (hp : Parent names level ofnames weights) (hm : MemOk names D Q st.mem)
    (hQ : ∀ wt, vget weights i = .ok wt → Q (sortDesc (ofnames ++ [wt.2]))) :
    MemOk names D Q st'.mem ∧ st'.part = st.part ∧ st'.lool = st.lool ∧ i < weights.length ∧
      st.heap.size ≤ st'.heap.size := by
  unfold branch at e
  obtain ⟨wt, hwt, e⟩ := bind_inv e
  obtain ⟨tp, _, e⟩ := bind_inv e
  obtain ⟨old, hold, e⟩ := bind_inv e
  rw [← hp.len, mapM_vget] at hold
  cases hold
  simp only at e
  obtain ⟨⟨mem, hash, new⟩, hadd, e⟩ := bind_inv e
  obtain ⟨hlt, hin⟩ := vget_lt_of hwt
  obtain ⟨h1, h2⟩ := hp.new wt hin
  have hnew : NodeOk names D Q (⟨sortDesc (ofnames ++ [wt.2]), level + 1, tp, tp, -1⟩ : Node K) := by
    have hperm := sortDesc_perm (ofnames ++ [wt.2])
    refine ⟨?_, ?_, ?_, by simp, ?_, hQ wt hwt⟩
    · rw [hperm.length_eq]; simp [hp.len]
    · rw [hperm.nodup_iff, List.nodup_append]
      refine ⟨hp.nodup, by simp, ?_⟩
      intro a ha b hb
      simp only [List.mem_singleton] at hb
      rintro rfl
      exact h2 (hb ▸ ha)
    · intro f hf
      rcases List.mem_append.1 (hperm.mem_iff.1 hf) with h | h
      · exact hp.sub f h
      · simp only [List.mem_singleton] at h; rw [h]; exact h1
    · intro h
      have : (-1 : K) < 0 := by simp
      exact absurd h (not_lt.2 this.le)
  have hm1 : MemOk names D Q (st.mem ++ [some ⟨sortDesc (ofnames ++ [wt.2]), level + 1, tp, tp, -1⟩]) := by
    intro p nd hnd
    rw [List.getElem?_append] at hnd
    split at hnd
    · exact hm p nd hnd
    · rw [List.getElem?_singleton] at hnd
      split at hnd <;> cases hnd
      exact hnew
  have hm2 := memOk_add hm1 (add_inv hadd).1
  simp only at e
  split at e
  · cases e
    exact ⟨hm2, rfl, rfl, hlt, le_rfl⟩
  · split at e
    · obtain ⟨⟨heap, b⟩, hins, e⟩ := bind_inv e
      cases e
      exact ⟨hm2, rfl, rfl, hlt, (insert_size hins).1⟩
    · cases e
      exact ⟨hm2, rfl, rfl, hlt, le_rfl⟩

omit [Field K] [LinearOrder K] [IsStrictOrderedRing K] in
theorem foldlM_inv {α β : Type} {f : β → α → Res β} (P : β → Prop) : ∀ {l : List α} {s s' : β},
    l.foldlM f s = .ok s' → P s → (∀ s a s', a ∈ l → P s → f s a = .ok s' → P s') → P s' := by
  intro l
  induction l with
  | nil => intro s s' e h _; cases e; exact h
  | cons a l ih =>
    intro s s' e h hs
    rw [List.foldlM_cons] at e
    obtain ⟨t, ht, e⟩ := bind_inv e
    exact ih e (hs s a t (by simp) h ht) (fun s b s' hb => hs s b s' (by simp [hb]))

omit [Field K] [LinearOrder K] [IsStrictOrderedRing K] in
theorem mapM_inv {α β : Type} {f : α → Res β} : ∀ {l : List α} {r : List β}, l.mapM f = .ok r →
    List.Forall₂ (fun a b => f a = .ok b) l r := by
  intro l
  induction l with
  | nil => intro r e; cases e; exact .nil
  | cons a l ih =>
    intro r e
    rw [List.mapM_cons] at e
    obtain ⟨b, hb, e⟩ := bind_inv e
    obtain ⟨bs, hbs, e⟩ := bind_inv e
    cases e
    exact .cons hb (ih hbs)

omit [Field K] [LinearOrder K] [IsStrictOrderedRing K] in
theorem weightsOf_inv {sample : Tbl K} {w : List K} {ws : List (K × Int)} (e : weightsOf sample w = .ok ws) :
    ws.length = sample.dim ∧ ∀ (i : Nat) x, ws[i]? = some x → w[i]? = some x.1 ∧ sample.fnames[i]? = some x.2 := by
  have h := mapM_inv e
  have hl := h.length_eq
  refine ⟨by simpa using hl.symm, ?_⟩
  intro i x hx
  obtain ⟨hi, rfl⟩ := List.getElem?_eq_some_iff.1 hx
  have hi' : i < (List.range sample.dim).length := by omega
  have := h.get hi' hi
  simp only [List.get_eq_getElem, List.getElem_range] at this
  obtain ⟨wi, h1, this⟩ := bind_inv this
  obtain ⟨f, h2, this⟩ := bind_inv this
  rw [vget_eq_ok] at h1 h2
  have hx : (wi, f) = ws[i] := Except.ok.inj this
  rw [← hx]
  exact ⟨h1, h2⟩

omit [Field K] [LinearOrder K] [IsStrictOrderedRing K] in
theorem weightsOf_mem {sample : Tbl K} {w : List K} {ws : List (K × Int)} (e : weightsOf sample w = .ok ws)
    {x : K × Int} (hx : x ∈ ws) : x.2 ∈ sample.fnames := by
  obtain ⟨i, hi⟩ := List.mem_iff_getElem?.1 hx
  exact List.mem_of_getElem? ((weightsOf_inv e).2 i x hi).2

theorem expand_inv {lm : Libm K} {c : Cfg K} {srt : List (K × Int) → List (K × Int)} {sample : Tbl K} {w : List K}
    {margin : K} {level : Nat} {ofnames : List Int} {first : Bool} {st st' : Srch K} {names : List Int} {D : Nat}
    {Q : List Int → Prop}
    (e : expand lm c srt sample w margin level ofnames first st = .ok st')
    (hsrt : ∀ l, (srt l).Perm l)
    (hlen : ofnames.length = level) (hnd : ofnames.Nodup) (hsub : ∀ f ∈ ofnames, f ∈ names)
    (hsam : ∀ f ∈ sample.fnames, f ∈ names ∧ f ∉ ofnames)
    (hQ : ∀ ws, weightsOf sample w = .ok ws → ∀ i wt, i < c.breadth → vget (srt ws) i = .ok wt →
      Q (sortDesc (ofnames ++ [wt.2])))
    (hm : MemOk names D Q st.mem) :
    MemOk names D Q st'.mem ∧ st'.part = (if first then sample else st.part) ∧ st'.lool = st.lool ∧
      c.breadth ≤ sample.dim := by
  unfold expand at e
  obtain ⟨st1, h1, e⟩ := bind_inv e
  obtain ⟨ws, hws, e⟩ := bind_inv e
  have hst1 : MemOk names D Q st1.mem ∧ st1.part = (if first then sample else st.part) ∧ st1.lool = st.lool := by
    unfold closeLevel at h1
    split at h1
    · rename_i hf
      obtain ⟨⟨mem, heap⟩, hcut, h1⟩ := bind_inv h1
      cases h1
      refine ⟨?_, by simp [hf], rfl⟩
      intro p nd hp
      exact hm p nd ((cutLoop_inv hcut).1 p nd hp)
    · rename_i hf
      cases h1
      exact ⟨hm, by simp [hf], rfl⟩
  have hpar : Parent names level ofnames (srt ws) :=
    ⟨hlen, hnd, hsub, fun wt hwt => hsam _ (weightsOf_mem hws ((hsrt ws).mem_iff.1 hwt))⟩
  have hfold := foldlM_inv (fun s => MemOk names D Q s.mem ∧ s.part = st1.part ∧ s.lool = st1.lool) e ⟨hst1.1, rfl, rfl⟩ (by
    rintro s i s' hi ⟨ha, hb, hc⟩ hs
    obtain ⟨r1, r2, r3, _, _⟩ := branch_inv hs hpar ha (fun wt hwt => hQ ws hws i wt (List.mem_range.1 hi) hwt)
    exact ⟨r1, r2.trans hb, r3.trans hc⟩)
  refine ⟨hfold.1, hfold.2.1.trans hst1.2.1, hfold.2.2.trans hst1.2.2, ?_⟩
  rcases Nat.eq_zero_or_pos c.breadth with h0 | h0
  · omega
  · have hb : List.range c.breadth = List.range (c.breadth - 1) ++ [c.breadth - 1] := by
      rw [← List.range_succ]; congr 1; omega
    rw [hb, List.foldlM_append] at e
    obtain ⟨s2, _, e⟩ := bind_inv e
    rw [List.foldlM_cons] at e
    obtain ⟨s3, e, _⟩ := bind_inv e
    unfold branch at e
    obtain ⟨wt, hwt, _⟩ := bind_inv e
    have := (vget_lt_of hwt).1
    rw [(hsrt ws).length_eq, (weightsOf_inv hws).1] at this
    omega

/-- The first round. -/
theorem mainLoop_root {lm : Libm K} {c : Cfg K} {srt : List (K × Int) → List (K × Int)}
    {learn : Nat → Tbl K → Bool × List K × K} {sample : Tbl K} {st st' : Srch K} {names : List Int} {D : Nat}
    {Q : List Int → Prop}
    (e : mainLoop lm c srt learn sample st = .ok st') (hs : st.heap.size = 0)
    (hsrt : ∀ l, (srt l).Perm l) (hsam : ∀ f ∈ sample.fnames, f ∈ names)
    (hQ : ∀ ws, weightsOf sample (learn st.calls sample).2.1 = .ok ws → ∀ i wt, i < c.breadth →
      vget (srt ws) i = .ok wt → Q [wt.2])
    (hm : MemOk names D Q st.mem) :
    MemOk names D Q st'.mem ∧ st'.part = (if st.lool = 0 then sample else st.part) ∧ st'.lool = st.lool ∧
      c.breadth ≤ sample.dim := by
  unfold mainLoop at e
  rw [if_pos hs] at e
  have := expand_inv (names := names) (D := D) (Q := Q) e hsrt rfl List.nodup_nil (by simp) (fun f hf => ⟨hsam f hf, by simp⟩)
    (fun ws hws i wt hi hwt => hQ ws hws i wt hi hwt) hm
  simpa using this

theorem memOk_store {names : List Int} {D : Nat} {Q : List Int → Prop} {m : Nodes K} {p : Nat} {nd : Node K}
    (hm : MemOk names D Q m) (hn : NodeOk names D Q nd) : MemOk names D Q (store m p nd) := by
  intro q nd' hq
  rw [store, List.getElem?_set] at hq
  split at hq
  · split at hq <;> cases hq
    exact hn
  · exact hm q nd' hq

/-- A later round. -/
theorem mainLoop_node {lm : Libm K} {c : Cfg K} {srt : List (K × Int) → List (K × Int)}
    {learn : Nat → Tbl K → Bool × List K × K} {sample : Tbl K} {st st' : Srch K} {names : List Int}
    {D : Nat} {Q : List Int → Prop}
    (e : mainLoop lm c srt learn sample st = .ok st') (hs : st.heap.size ≠ 0)
    (hsrt : ∀ l, (srt l).Perm l)
    (hsam : ∀ nd, deref st.mem (st.heap.elements 1) = .ok nd → nd.level ≤ c.depth →
      ∀ f ∈ sample.fnames, f ∈ names ∧ f ∉ nd.fnames)
    (hD : ∀ k s, (learn k s).2.2 > 0 → c.depth ≤ D)
    (hQ : ∀ l f, Q l → Q (sortDesc (l ++ [f])))
    (hm : MemOk names D Q st.mem) :
    ∃ nd, deref st.mem (st.heap.elements 1) = .ok nd ∧ MemOk names D Q st'.mem ∧
      ((st'.part = st.part ∧ st'.lool = st.lool) ∨
       (st'.part = sample ∧ st'.lool = nd.level ∧ st.lool < nd.level ∧ nd.level ≤ c.depth ∧ c.breadth ≤ sample.dim ∧
        (nd.level = c.depth → nd.rgamma > 0))) := by
  unfold mainLoop at e
  rw [if_neg hs] at e
  obtain ⟨⟨heap, p⟩, hpop, e⟩ := bind_inv e
  simp only at e
  obtain ⟨nd, hnd, e⟩ := bind_inv e
  obtain ⟨rfl, _⟩ := pop_inv hpop hs
  refine ⟨nd, hnd, ?_⟩
  obtain ⟨q, hq, hmq⟩ := deref_inv hnd
  have hno := hm q nd hmq
  have key : ∀ (nd' : Node K) (w : List K) (margin : K) (s : Srch K), nd'.level = nd.level → nd'.fnames = nd.fnames →
      ¬ nd.level > c.depth → (nd.level = c.depth → nd.rgamma > 0) → MemOk names D Q s.mem → s.part = st.part → s.lool = st.lool →
      expandNode lm c srt sample w margin nd' s = .ok st' →
      MemOk names D Q st'.mem ∧ ((st'.part = st.part ∧ st'.lool = st.lool) ∨
       (st'.part = sample ∧ st'.lool = nd.level ∧ st.lool < nd.level ∧ nd.level ≤ c.depth ∧ c.breadth ≤ sample.dim ∧
        (nd.level = c.depth → nd.rgamma > 0))) := by
    intro nd' w margin s hl hf hlev hlast hms hpart hlool he
    have hsam' := hsam nd hnd (by omega)
    unfold expandNode at he
    rw [hl, hf] at he
    split at he
    · rename_i hgt
      obtain ⟨r1, r2, r3, r4⟩ := expand_inv (names := names) (D := D) (Q := Q) he hsrt hno.len hno.nodup hno.sub hsam'
        (fun ws _ i wt _ _ => hQ _ _ hno.q) hms
      refine ⟨r1, Or.inr ⟨by simpa using r2, r3, by omega, by omega, r4, hlast⟩⟩
    · obtain ⟨r1, r2, r3, r4⟩ := expand_inv (names := names) (D := D) (Q := Q) he hsrt hno.len hno.nodup hno.sub hsam'
        (fun ws _ i wt _ _ => hQ _ _ hno.q) hms
      exact ⟨r1, Or.inl ⟨by simpa [hpart] using r2, by rw [r3, hlool]⟩⟩
  split at e
  · cases e
    exact ⟨hm, Or.inl ⟨rfl, rfl⟩⟩
  · rename_i hlev
    split at e
    · rename_i hr
      obtain ⟨w, _, e⟩ := bind_inv e
      exact key nd w nd.rgamma { st with heap := heap } rfl rfl hlev (fun _ => hr) hm rfl rfl e
    · split at e
      · cases e
        exact ⟨hm, Or.inl ⟨rfl, rfl⟩⟩
      · obtain ⟨top, _, e⟩ := bind_inv e
        have hst : MemOk names D Q (store st.mem ((st.heap.elements 1).getD 0)
            { nd with value := (learn st.calls sample).2.2, rgamma := (learn st.calls sample).2.2 }) :=
          memOk_store hm ⟨hno.len, hno.nodup, hno.sub, hno.pos, fun h => by
            have := hD _ _ h
            show nd.level ≤ _
            omega, hno.q⟩
        split at e
        · obtain ⟨ws, _, e⟩ := bind_inv e
          obtain ⟨⟨h2, b2⟩, _, e⟩ := bind_inv e
          cases e
          exact ⟨hst, Or.inl ⟨rfl, rfl⟩⟩
        · rename_i hcond
          exact key _ _ _ _ (by rfl) (by rfl) hlev (fun h => absurd (Or.inr h) hcond) (by exact hst) (by rfl) (by rfl) e

/-! ### The whole search -/

omit [Field K] [LinearOrder K] [IsStrictOrderedRing K] in
theorem without_nil (samples : Tbl K) (ha : Aligned samples) : Without samples [] = samples := by
  obtain ⟨h1, h2, -, -⟩ := ha
  cases samples with
  | mk rows fnames dim =>
    simp only at h1 h2
    unfold Without
    simp only [List.not_mem_nil, not_false_eq_true, decide_true, List.filter_true, List.length_nil, Nat.sub_zero,
      Tbl.mk.injEq, and_true]
    conv_rhs => rw [← List.map_id rows]
    apply List.map_congr_left
    intro row hr
    rw [List.map_fst_zip (by rw [h2 row hr, h1])]
    rfl

omit [Field K] [LinearOrder K] [IsStrictOrderedRing K] in
theorem filter_notin_length {names R : List Int} (hn : names.Nodup) (hR : R.Nodup) (hs : ∀ f ∈ R, f ∈ names) :
    (names.filter (fun n => decide (n ∉ R))).length = names.length - R.length := by
  have h1 : (names.filter (fun n => decide (n ∈ R))).Perm R := by
    rw [List.perm_ext_iff_of_nodup (hn.filter _) hR]
    intro a
    simp only [List.mem_filter, decide_eq_true_eq]
    exact ⟨fun h => h.2, fun h => ⟨hs a h, h⟩⟩
  have h2 := List.length_eq_length_filter_add (l := names) (fun n => decide (n ∈ R))
  rw [h1.length_eq] at h2
  have h3 : (names.filter (fun n => decide (n ∉ R))) = names.filter (fun x => !decide (x ∈ R)) := by
    apply List.filter_congr
    intro x _
    simp
  rw [h3]
  omega

omit [Field K] [LinearOrder K] [IsStrictOrderedRing K] in
theorem nodup_of_aligned {samples : Tbl K} (ha : Aligned samples) : samples.fnames.Nodup :=
  ha.2.2.1.imp (fun h => ne_of_lt h)

omit [Field K] [LinearOrder K] [IsStrictOrderedRing K] in
theorem removeFeatures_without (samples : Tbl K) (R : List Int) (ha : Aligned samples) (h1 : samples.fnames.length ≠ 1)
    (hR : R.Nodup) (hs : ∀ f ∈ R, f ∈ samples.fnames) : removeFeatures samples R = .ok (Without samples R, true) := by
  obtain ⟨d', e, hal, hf, hr⟩ := Props.C17_remove_partial samples R ha h1 (hR.filter _)
  rw [e]
  congr 2
  have hd : d'.dim = samples.dim - R.length := by
    rw [hal.1, hf, filter_notin_length (nodup_of_aligned ha) hR hs, ha.1]
  cases d' with
  | mk rows fnames dim =>
    simp only at hf hr hd
    subst hf hr hd
    rfl

/-- The kept data. -/
def PartOk (samples : Tbl K) (c : Cfg K) (Q : List Int → Prop) (lool0 : Nat) (part : Tbl K) (lool : Nat) : Prop :=
  ∃ R : List Int, part = Without samples R ∧ R.Nodup ∧ (∀ f ∈ R, f ∈ samples.fnames) ∧ R.length ≤ c.depth ∧
    c.breadth ≤ part.dim ∧ (R = [] ∧ lool = lool0 ∨ R.length = lool ∧ 1 ≤ lool ∧ lool0 < lool ∧ Q R)

/-- Rounds after the first one. -/
theorem searchLoop_inv {lm : Libm K} {c : Cfg K} {srt : List (K × Int) → List (K × Int)}
    {learn : Nat → Tbl K → Bool × List K × K} {samples : Tbl K} {Q : List Int → Prop} {lool0 : Nat}
    (ha : Aligned samples) (hdepth : c.depth ≤ samples.dim - 1)
    (hsrt : ∀ l, (srt l).Perm l) (hQ : ∀ l f, Q l → Q (sortDesc (l ++ [f]))) :
    ∀ {n : Nat} {st : Srch K} {d : Tbl K} {l : Nat}, searchLoop lm c srt learn samples n false st = .ok (d, l) →
      MemOk samples.fnames c.depth Q st.mem → PartOk samples c Q lool0 st.part st.lool → PartOk samples c Q lool0 d l := by
  intro n
  induction n with
  | zero => intro st d l e; cases e
  | succ n ih =>
    intro st d l e hm hp
    rw [searchLoop] at e
    split at e
    · rw [if_pos rfl] at e
      cases e
      exact hp
    · rename_i hs
      obtain ⟨nd, hnd, e⟩ := bind_inv e
      obtain ⟨⟨dd, b⟩, hrem, e⟩ := bind_inv e
      simp only at e
      obtain ⟨q, hq, hmq⟩ := deref_inv hnd
      have hno := hm q nd hmq
      split at e
      · rename_i hstop
        have h1 := hno.trained hstop.2
        have h2 := hno.pos
        omega
      · obtain ⟨st1, hmain, e⟩ := bind_inv e
        have hd : nd.level ≤ c.depth → dd = Without samples nd.fnames := by
          intro hl
          have := removeFeatures_without samples nd.fnames ha (by have := hno.pos; rw [← ha.1]; omega) hno.nodup hno.sub
          rw [this] at hrem
          cases hrem
          rfl
        obtain ⟨nd', hnd', hm1, hpart⟩ := mainLoop_node hmain hs hsrt (by
          intro nd' h' hl f hf
          rw [hnd] at h'
          cases h'
          rw [hd hl] at hf
          have := List.mem_filter.1 hf
          exact ⟨this.1, by simpa using this.2⟩) (fun _ _ _ => le_rfl) hQ hm
        rw [hnd] at hnd'
        cases hnd'
        apply ih e hm1
        rcases hpart with ⟨h1, h2⟩ | ⟨h1, h2, h3, h4, h5, -⟩
        · rw [h1, h2]; exact hp
        · rw [h1, h2]
          refine ⟨nd.fnames, hd h4, hno.nodup, hno.sub, by rw [hno.len]; exact h4, h5, Or.inr ⟨hno.len, hno.pos, ?_, hno.q⟩⟩
          obtain ⟨R, -, -, -, -, -, h⟩ := hp
          rcases h with ⟨-, h⟩ | ⟨-, -, h, -⟩ <;> omega

theorem range_succ_cons (n : Nat) (h : 1 ≤ n) : ∃ l, List.range n = 0 :: l := by
  obtain ⟨m, rfl⟩ : ∃ m, n = m + 1 := ⟨n - 1, by omega⟩
  exact ⟨_, List.range_succ_eq_map⟩

/-- After the first round the queue is not empty. -/
theorem root_nonempty {lm : Libm K} {c : Cfg K} {srt : List (K × Int) → List (K × Int)}
    {learn : Nat → Tbl K → Bool × List K × K} {sample : Tbl K} {st st' : Srch K}
    (e : mainLoop lm c srt learn sample st = .ok st') (hs : st.heap.size = 0) (hb : 1 ≤ c.breadth) (hcap : 1 ≤ c.cap)
    (hh : ∀ b ∈ st.hash.buckets, b = []) (hsrt : ∀ l, (srt l).Perm l) : st'.heap.size ≠ 0 := by
  unfold mainLoop at e
  rw [if_pos hs] at e
  simp only at e
  unfold expand at e
  obtain ⟨st1, h1, e⟩ := bind_inv e
  obtain ⟨ws, hws, e⟩ := bind_inv e
  obtain ⟨l, hl⟩ := range_succ_cons c.breadth hb
  have hst1 : st1.heap.size = 0 ∧ st1.hash = st.hash := by
    unfold closeLevel at h1
    split at h1
    · rw [cutHeap, show ({ st with calls := st.calls + 1 } : Srch K).heap.size = 0 from hs] at h1
      cases h1
      exact ⟨hs, rfl⟩
    · cases h1
      exact ⟨hs, rfl⟩
  rw [hl, List.foldlM_cons] at e
  obtain ⟨st2, hbr, e⟩ := bind_inv e
  have hst2 : 1 ≤ st2.heap.size := by
    unfold branch at hbr
    obtain ⟨wt, _, hbr⟩ := bind_inv hbr
    obtain ⟨tp, _, hbr⟩ := bind_inv hbr
    obtain ⟨old, _, hbr⟩ := bind_inv hbr
    simp only at hbr
    obtain ⟨⟨mem, hash, new⟩, hadd, hbr⟩ := bind_inv hbr
    simp only at hbr
    rw [if_neg (by simp)] at hbr
    have hnew : new = true := by
      cases new with
      | true => rfl
      | false =>
        obtain ⟨bk, hbk, q, hq, _⟩ := (add_inv hadd).2.2.2.2.2 rfl
        rw [hst1.2] at hbk
        rw [hh bk hbk] at hq
        simp at hq
    rw [if_pos hnew] at hbr
    obtain ⟨⟨heap, b⟩, hins, hbr⟩ := bind_inv hbr
    cases hbr
    have := (insert_size hins).2 (by show st1.heap.size ≠ c.cap; omega)
    show 1 ≤ heap.size
    omega
  have := foldlM_inv (fun s => 1 ≤ s.heap.size) e hst2 (by
    intro s i s' _ hs1 hs2
    have : s.heap.size ≤ s'.heap.size := by
      unfold branch at hs2
      obtain ⟨wt, _, hs2⟩ := bind_inv hs2
      obtain ⟨tp, _, hs2⟩ := bind_inv hs2
      obtain ⟨old, _, hs2⟩ := bind_inv hs2
      simp only at hs2
      obtain ⟨⟨mem, hash, new⟩, hadd, hs2⟩ := bind_inv hs2
      simp only at hs2
      split at hs2
      · cases hs2; exact le_rfl
      · split at hs2
        · obtain ⟨⟨heap, b⟩, hins, hs2⟩ := bind_inv hs2
          cases hs2
          exact (insert_size hins).1
        · cases hs2; exact le_rfl
    omega)
  omega

/-- What any completed search returns. -/
theorem aosSelect_inv {lm : Libm K} {breadth finalDim cut : Nat} {gMargin q : K} {cap hlen hwidth : Nat}
    {srt : List (K × Int) → List (K × Int)} {learn : Nat → Tbl K → Bool × List K × K} {samples : Tbl K} {lool n : Nat}
    {d : Tbl K} {l : Nat} (Q : List Int → Prop)
    (e : aosSelect lm breadth finalDim cut gMargin q cap hlen hwidth srt learn samples lool n = .ok (d, l))
    (ha : Aligned samples) (hdim : 1 ≤ samples.dim) (hb : 1 ≤ breadth) (hcap : 1 ≤ cap)
    (hsrt : ∀ l, (srt l).Perm l) (hQ : ∀ l f, Q l → Q (sortDesc (l ++ [f])))
    (hroot : ∀ ws, weightsOf samples (learn 0 samples).2.1 = .ok ws → ∀ i wt, i < min breadth samples.dim →
      vget (srt ws) i = .ok wt → Q [wt.2]) :
    PartOk samples ⟨min breadth samples.dim, min (samples.dim - finalDim) (samples.dim - 1), cut, gMargin, q, cap, hlen, hwidth⟩
      Q lool d l := by
  unfold aosSelect at e
  cases n with
  | zero => cases e
  | succ n =>
    rw [searchLoop, if_pos (by rfl), if_neg (by simp)] at e
    obtain ⟨st1, hmain, e⟩ := bind_inv e
    have hne := root_nonempty hmain rfl (by show 1 ≤ min breadth samples.dim; omega) hcap (by
      intro b hb
      exact List.eq_of_mem_replicate hb) hsrt
    rw [if_neg hne] at e
    obtain ⟨r1, r2, r3, r4⟩ := mainLoop_root (names := samples.fnames)
      (D := min (samples.dim - finalDim) (samples.dim - 1)) (Q := Q) hmain rfl hsrt (fun f hf => hf) hroot (by
        intro p nd hp; simp at hp)
    refine searchLoop_inv (lool0 := lool) ha (by show min _ _ ≤ _; omega) hsrt hQ e r1 ?_
    have hpart : st1.part = samples := by rw [r2]; simp
    rw [hpart, r3]
    exact ⟨[], (without_nil samples ha).symm, List.nodup_nil, by simp, by simp, r4, Or.inl ⟨rfl, rfl⟩⟩

/-! ### What the queue holds -/

omit [IsStrictOrderedRing K] in
theorem up_cont (m : Nodes K) (tok : Nat) (tv : K) (n : Nat) :
    ∀ (fuel i : Nat) (a : Arr), 1 ≤ i → i ≤ n → i < fuel → a 0 = none →
      (∀ j, 1 ≤ j → j ≤ n → j ≠ i → ∃ p, a j = some p ∧ LiveNode m p) →
      ∃ a', up m tok tv fuel a i = .ok a' ∧ a' 0 = none ∧ cont a' 1 n = cont (upd a i (some tok)) 1 n := by
  intro fuel
  induction fuel with
  | zero => intro i a _ _ h; omega
  | succ fuel ih =>
    intro i a h1 h2 hf h0 hg
    have hpar : valueOr0 m (a (i / 2)) = .ok (va m (a (i / 2))) := by
      apply valueOr0_ok
      rcases Nat.eq_zero_or_pos (i / 2) with h | h
      · left; rw [h, h0]
      · right; exact hg _ h (by omega) (by omega)
    rw [up, hpar, Res_bind_ok]
    by_cases hcond : i > 1 ∧ va m (a (i / 2)) < tv
    · rw [if_pos hcond]
      have hk1 : 1 ≤ i / 2 := by omega
      have hki : i / 2 ≠ i := by omega
      obtain ⟨a', e, r1, r4⟩ := ih (i / 2) (upd a i (a (i / 2))) hk1 (by omega) (by omega)
        (by rw [upd_ne _ _ (by omega)]; exact h0)
        (by
          intro j hj1 hj2 hj3
          by_cases hji : j = i
          · rw [hji, upd_same]; exact hg _ hk1 (by omega) hki
          · rw [upd_ne _ _ hji]; exact hg j hj1 hj2 hji)
      refine ⟨a', e, r1, ?_⟩
      rw [r4]
      exact cont_move a 1 n i (i / 2) ⟨h1, h2⟩ ⟨hk1, by omega⟩ (Ne.symm hki) (some tok)
    · rw [if_neg hcond]
      exact ⟨_, rfl, by rw [upd_ne _ _ (by omega)]; exact h0, rfl⟩

omit [LinearOrder K] [Field K] [IsStrictOrderedRing K] in
theorem good_of_live {m : Nodes K} {h : Heap} (hl : ∀ q ∈ queueContents h, ∃ p, q = some p ∧ LiveNode m p) :
    Good m h.elements 1 h.size := fun i h1 h2 => hl _ (mem_cont.2 ⟨i, h1, h2, rfl⟩)

omit [IsStrictOrderedRing K] in
theorem insert_cont {cap : Nat} {m : Nodes K} {h h' : Heap} {tok : Nat} {b : Bool} (hnull : h.elements 0 = none)
    (hl : ∀ q ∈ queueContents h, ∃ p, q = some p ∧ LiveNode m p) (hs : h.size ≠ cap)
    (e : insert cap m h tok = .ok (h', b)) :
    h'.elements 0 = none ∧ queueContents h' = some tok ::ₘ queueContents h := by
  unfold insert at e
  obtain ⟨t, _, e⟩ := bind_inv e
  rw [if_neg hs] at e
  obtain ⟨a', e', r1, r4⟩ := up_cont m tok t.value (h.size + 1) (h.size + 2) (h.size + 1) h.elements
    (by omega) le_rfl (by omega) hnull (fun j h1 h2 h3 => good_of_live hl j h1 (by omega))
  rw [e', Res_bind_ok] at e
  cases e
  refine ⟨r1, ?_⟩
  show cont a' 1 (h.size + 1) = some tok ::ₘ cont h.elements 1 h.size
  rw [r4, cont_succ _ _ _ (by omega), upd_same]
  congr 1
  exact cont_congr (fun i h1 h2 => upd_ne _ _ (by omega))

omit [IsStrictOrderedRing K] in
theorem pop_cont {m : Nodes K} {h h' : Heap} {p : Option Nat} (hnull : h.elements 0 = none)
    (hl : ∀ q ∈ queueContents h, ∃ p, q = some p ∧ LiveNode m p) (hs : h.size ≠ 0) (e : pop m h = .ok (h', p)) :
    h'.elements 0 = none ∧ queueContents h = p ::ₘ queueContents h' := by
  obtain ⟨n, hn⟩ : ∃ n, h.size = n + 1 := ⟨h.size - 1, by omega⟩
  unfold pop at e
  rw [if_neg hs, hn, Nat.add_sub_cancel] at e
  rcases Nat.eq_zero_or_pos n with h0 | h0
  · subst h0
    have e' : percolate m 0 (0 + 1 + 1) h.elements 1 = .ok (upd h.elements 1 (h.elements (0 + 1))) := by
      rw [percolate]; rfl
    rw [e', Res_bind_ok] at e
    cases e
    refine ⟨?_, ?_⟩
    · show upd h.elements 1 (h.elements (0 + 1)) 0 = none
      rw [upd_ne _ _ (by omega)]; exact hnull
    · show cont h.elements 1 h.size = _
      rw [hn, cont_succ _ _ _ (by omega)]
      congr 1
  · obtain ⟨a', e', r1, r2, r3, r4, _⟩ := percolate_cont m n (n + 1 + 1) 1 h.elements le_rfl h0 (by omega)
      (fun j h1 h2 => good_of_live hl j (by omega) (by omega))
    rw [e', Res_bind_ok] at e
    cases e
    refine ⟨by rw [← hnull]; exact r2 0 (by omega), ?_⟩
    show cont h.elements 1 h.size = h.elements 1 ::ₘ cont a' 1 n
    rw [r1, hn, cont_upd _ 1 n 1 le_rfl h0, cont_succ _ _ _ (by omega), cont_erase _ 1 n 1 le_rfl h0, Multiset.cons_swap]

/-- The queue holds live nodes, each once, the table knows no later nodes, and no level is more than one beyond `lool`. -/
structure QInv (st : Srch K) : Prop where
  null : st.heap.elements 0 = none
  live : ∀ q ∈ queueContents st.heap, ∃ p, q = some p ∧ LiveNode st.mem p
  nodup : (queueContents st.heap).Nodup
  hsh : ∀ b ∈ st.hash.buckets, ∀ q ∈ b, q < st.mem.length
  top : ∀ (p : Nat) (nd : Node K), st.mem[p]? = some (some nd) → nd.level ≤ st.lool + 1

/-- The queue holds a node of the level. -/
def Has (st : Srch K) (L : Nat) : Prop :=
  ∃ (p : Nat) (nd : Node K), some p ∈ queueContents st.heap ∧ st.mem[p]? = some (some nd) ∧ nd.level = L

omit [IsStrictOrderedRing K] in
theorem branch_q {lm : Libm K} {c : Cfg K} {dim level : Nat} {ofnames : List Int} {weights : List (K × Int)}
    {wnorm margin : K} {st st' : Srch K} {i : Nat}
    (e : branch lm c dim level ofnames weights wnorm margin st i = .ok st') (hq : QInv st) (hl : level ≤ st.lool)
    (hs : st.heap.size < c.cap) :
    QInv st' ∧ st'.heap.size ≤ st.heap.size + 1 ∧ st'.lool = st.lool ∧ (∀ L, Has st L → Has st' L) ∧
      (i = 0 → (∀ (p : Nat) (nd : Node K), st.mem[p]? = some (some nd) → nd.level ≠ level + 1) → Has st' (level + 1)) := by
  unfold branch at e
  obtain ⟨wt, _, e⟩ := bind_inv e
  obtain ⟨tp, _, e⟩ := bind_inv e
  obtain ⟨old, _, e⟩ := bind_inv e
  simp only at e
  obtain ⟨⟨mem, hash, new⟩, hadd, e⟩ := bind_inv e
  simp only at e
  generalize hnd : (⟨sortDesc (old ++ [wt.2]), level + 1, tp, tp, -1⟩ : Node K) = ndn at hadd
  have hlev : ndn.level = level + 1 := by rw [← hnd]
  obtain ⟨a1, a2, a3, a4, a5, a6⟩ := add_inv hadd
  have hold : ∀ (r : Nat) (nd : Node K), st.mem[r]? = some (some nd) → r < st.mem.length ∧
      ∃ nd', mem[r]? = some (some nd') ∧ SameKey nd' nd := by
    intro r nd hr
    have hlt := (List.getElem?_eq_some_iff.1 hr).1
    refine ⟨hlt, ?_⟩
    apply a2 r nd (by omega)
    rw [List.getElem?_append_left hlt]
    exact hr
  have hback : ∀ (r : Nat) (nd' : Node K), mem[r]? = some (some nd') →
      (∃ nd, st.mem[r]? = some (some nd) ∧ nd'.level = nd.level) ∨ (r = st.mem.length ∧ nd'.level = level + 1) := by
    intro r nd' hr
    obtain ⟨nd, h1, h2⟩ := a1 r nd' hr
    rw [List.getElem?_append] at h1
    split at h1
    · exact Or.inl ⟨nd, h1, h2.2.1⟩
    · rename_i hge
      rw [List.getElem?_singleton] at h1
      split at h1 <;> cases h1
      exact Or.inr ⟨by omega, by rw [h2.2.1, hlev]⟩
  have hlen : mem.length = st.mem.length + 1 := by rw [a3]; simp
  have live' : ∀ q ∈ queueContents st.heap, ∃ p, q = some p ∧ LiveNode mem p ∧ p < st.mem.length := by
    intro q hq'
    obtain ⟨p, rfl, nd, hp⟩ := hq.live q hq'
    obtain ⟨hlt, nd', h', _⟩ := hold p nd hp
    exact ⟨p, rfl, ⟨nd', h'⟩, hlt⟩
  have hsh' : ∀ b ∈ hash.buckets, ∀ q ∈ b, q < mem.length := by
    intro b hb q hqb
    rcases a5 b hb q hqb with h | ⟨bk, h1, h2⟩
    · omega
    · have := hq.hsh bk h1 q h2
      omega
  have top' : ∀ (p : Nat) (nd : Node K), mem[p]? = some (some nd) → nd.level ≤ st.lool + 1 := by
    intro p nd hp
    rcases hback p nd hp with ⟨nd0, h1, h2⟩ | ⟨_, h2⟩
    · rw [h2]; exact hq.top p nd0 h1
    · omega
  have plain : QInv (⟨mem, st.ws ++ [[]], st.heap, hash, st.lool, st.part, st.calls⟩ : Srch K) :=
    ⟨hq.null, fun q hq' => by obtain ⟨p, h1, h2, _⟩ := live' q hq'; exact ⟨p, h1, h2⟩, hq.nodup, hsh', top'⟩
  have has' : ∀ L, Has st L → Has (⟨mem, st.ws ++ [[]], st.heap, hash, st.lool, st.part, st.calls⟩ : Srch K) L := by
    rintro L ⟨p, nd, h1, h2, h3⟩
    obtain ⟨_, nd', h4, h5⟩ := hold p nd h2
    exact ⟨p, nd', h1, h4, by rw [h5.2.1, h3]⟩
  have isnew : (∀ (p : Nat) (nd : Node K), st.mem[p]? = some (some nd) → nd.level ≠ level + 1) → new = true := by
    intro hno
    cases new with
    | true => rfl
    | false =>
      obtain ⟨bk, hbk, q, hqb, nd, other, h1, h2, h3⟩ := a6 rfl
      have hlt := hq.hsh bk hbk q hqb
      rw [List.getElem?_append_left hlt] at h2
      rw [List.getElem?_append_right le_rfl] at h1
      simp only [Nat.sub_self, List.getElem?_cons_zero, Option.some.injEq] at h1
      subst h1
      exact absurd (by rw [← h3, hlev]) (hno q other h2)
  split at e
  · rename_i hpr
    cases e
    exact ⟨plain, by simp, rfl, has', fun h0 => absurd h0 hpr.1⟩
  · split at e
    · rename_i hnw
      obtain ⟨⟨heap, b⟩, hins, e⟩ := bind_inv e
      cases e
      obtain ⟨r1, r2⟩ := insert_cont plain.null plain.live (by show st.heap.size ≠ _; omega) hins
      have hmem := a4 hnw
      have hget : mem[st.mem.length]? = some (some ndn) := by
        rw [hmem]; simp
      refine ⟨⟨r1, ?_, ?_, hsh', top'⟩, ?_, rfl, ?_, ?_⟩
      · intro q hq'
        have hq' : q ∈ queueContents heap := hq'
        rw [r2] at hq'
        rcases Multiset.mem_cons.1 hq' with h | h
        · exact ⟨_, h, ndn, hget⟩
        · exact plain.live q h
      · show (queueContents heap).Nodup
        rw [r2, Multiset.nodup_cons]
        refine ⟨?_, hq.nodup⟩
        intro hin
        obtain ⟨p, h1, _, h2⟩ := live' _ hin
        cases h1
        omega
      · have := (insert_size hins).2 (by show st.heap.size ≠ _; omega)
        have this : heap.size = st.heap.size + 1 := this
        show heap.size ≤ _
        omega
      · intro L hL
        obtain ⟨p, nd, h1, h2, h3⟩ := has' L hL
        refine ⟨p, nd, ?_, h2, h3⟩
        show some p ∈ queueContents heap
        rw [r2]
        exact Multiset.mem_cons_of_mem h1
      · intro _ _
        refine ⟨st.mem.length, ndn, ?_, hget, hlev⟩
        show some _ ∈ queueContents heap
        rw [r2]
        exact Multiset.mem_cons_self _ _
    · rename_i hnw
      cases e
      exact ⟨plain, by simp, rfl, has', fun _ hno => absurd (isnew hno) hnw⟩

omit [IsStrictOrderedRing K] in
theorem branches_q {lm : Libm K} {c : Cfg K} {dim level : Nat} {ofnames : List Int} {weights : List (K × Int)}
    {wnorm margin : K} : ∀ {l : List Nat} {st st' : Srch K},
    l.foldlM (branch lm c dim level ofnames weights wnorm margin) st = .ok st' → QInv st → level ≤ st.lool →
    st.heap.size + l.length ≤ c.cap →
    QInv st' ∧ st'.heap.size ≤ st.heap.size + l.length ∧ st'.lool = st.lool ∧ (∀ L, Has st L → Has st' L) := by
  intro l
  induction l with
  | nil => intro st st' e hq _ _; cases e; exact ⟨hq, by simp, rfl, fun _ h => h⟩
  | cons i l ih =>
    intro st st' e hq hl hs
    rw [List.foldlM_cons] at e
    obtain ⟨s1, h1, e⟩ := bind_inv e
    simp only [List.length_cons] at hs
    obtain ⟨r1, r2, r3, r4, _⟩ := branch_q h1 hq hl (by omega)
    obtain ⟨q1, q2, q3, q4⟩ := ih e r1 (by omega) (by omega)
    exact ⟨q1, by simp only [List.length_cons]; omega, q3.trans r3, fun L h => q4 L (r4 L h)⟩

open Classical in
omit [IsStrictOrderedRing K] in
theorem closeLevel_q {c : Cfg K} {sample : Tbl K} {first : Bool} {st st' : Srch K}
    (e : closeLevel c sample first st = .ok st') (hq : QInv st) :
    QInv st' ∧ st'.heap.size ≤ st.heap.size ∧ st'.lool = st.lool ∧ (∀ L, st.lool ≤ L → Has st L → Has st' L) ∧
      (∀ (p : Nat) (nd : Node K), st'.mem[p]? = some (some nd) → st.mem[p]? = some (some nd)) := by
  unfold closeLevel at e
  split at e
  · obtain ⟨⟨m', h'⟩, hcut, e⟩ := bind_inv e
    cases e
    have hgood := good_of_live hq.live
    obtain ⟨m2, h2, e2, g1, g2, g3, g4, g5⟩ := cutLoop_spec st.lool c.cut ((19 / 20) * c.gMargin) st.heap.size st.mem st.heap
      le_rfl hgood hq.nodup
    rw [cutHeap, e2] at hcut
    cases hcut
    have hback := (cutLoop_inv e2).1
    have hc : queueContents h' = (queueContents st.heap).filter
        (fun p => ¬ prunedAt st.lool c.cut ((19 / 20) * c.gMargin) st.mem p) := by
      have := g3
      rw [cont_empty _ (st.heap.size + 1) _ (by omega), add_zero] at this
      exact this
    have hsub : queueContents h' ≤ queueContents st.heap := by rw [hc]; exact Multiset.filter_le _ _
    refine ⟨⟨by rw [← hq.null]; exact g2, ?_, ?_, ?_, ?_⟩, ?_, rfl, ?_, hback⟩
    · intro q hq'
      obtain ⟨i, h1, h2, h3⟩ := mem_cont.1 hq'
      rw [← h3]
      exact g1 i h1 h2
    · exact Multiset.nodup_of_le hsub hq.nodup
    · intro b hb q hqb
      show q < m'.length
      rw [g4]
      exact hq.hsh b hb q hqb
    · intro p nd hp
      exact hq.top p nd (hback p nd hp)
    · have := Multiset.card_le_card hsub
      unfold queueContents at this
      simpa using this
    · rintro L hL ⟨p, nd, h1, h2, h3⟩
      have hnp : ¬ prunedAt st.lool c.cut ((19 / 20) * c.gMargin) st.mem (some p) := by
        rintro ⟨q, nd', hq', hm', hpr⟩
        cases hq'
        rw [h2] at hm'
        cases hm'
        unfold pruned at hpr
        rw [Bool.and_eq_true, decide_eq_true_eq] at hpr
        omega
      refine ⟨p, nd, ?_, ?_, h3⟩
      · show some p ∈ queueContents h'
        rw [hc, Multiset.mem_filter]
        exact ⟨h1, hnp⟩
      · show m'[p]? = _
        rw [g5 p, if_neg (fun h => hnp h.2)]
        exact h2
  · cases e
    exact ⟨hq, le_rfl, rfl, fun _ _ h => h, fun _ _ h => h⟩

omit [IsStrictOrderedRing K] in
theorem expand_q {lm : Libm K} {c : Cfg K} {srt : List (K × Int) → List (K × Int)} {sample : Tbl K} {w : List K}
    {margin : K} {level : Nat} {ofnames : List Int} {first : Bool} {st st' : Srch K}
    (e : expand lm c srt sample w margin level ofnames first st = .ok st') (hq : QInv st) (hl : level ≤ st.lool)
    (hs : st.heap.size + c.breadth ≤ c.cap) :
    QInv st' ∧ st'.heap.size ≤ st.heap.size + c.breadth ∧ st'.lool = st.lool ∧
      (∀ L, st.lool ≤ L → Has st L → Has st' L) ∧
      (1 ≤ c.breadth → (∀ (p : Nat) (nd : Node K), st.mem[p]? = some (some nd) → nd.level ≤ level) → Has st' (level + 1)) := by
  unfold expand at e
  obtain ⟨st1, h1, e⟩ := bind_inv e
  obtain ⟨ws, hws, e⟩ := bind_inv e
  obtain ⟨r1, r2, r3, r4, r5⟩ := closeLevel_q h1 hq
  obtain ⟨q1, q2, q3, q4⟩ := branches_q e r1 (by omega) (by rw [List.length_range]; omega)
  rw [List.length_range] at q2
  refine ⟨q1, by omega, q3.trans r3, fun L hL h => q4 L (r4 L hL h), ?_⟩
  intro hb hno
  obtain ⟨l, hl'⟩ := range_succ_cons c.breadth hb
  have hlen : l.length + 1 = c.breadth := by
    have := congrArg List.length hl'
    simpa using this.symm
  rw [hl', List.foldlM_cons] at e
  obtain ⟨st2, hbr, e⟩ := bind_inv e
  obtain ⟨b1, b2, b3, _, b5⟩ := branch_q hbr r1 (by omega) (by omega)
  obtain ⟨_, _, _, c4⟩ := branches_q e b1 (by omega) (by omega)
  exact c4 _ (b5 rfl (fun p nd hp => by
    have := hno p nd (r5 p nd hp)
    omega))

omit [IsStrictOrderedRing K] in
theorem root_q {lm : Libm K} {c : Cfg K} {srt : List (K × Int) → List (K × Int)}
    {learn : Nat → Tbl K → Bool × List K × K} {sample : Tbl K} {st st' : Srch K}
    (e : mainLoop lm c srt learn sample st = .ok st') (hs : st.heap.size = 0) (hq : QInv st) (hm : st.mem = [])
    (hlool : st.lool = 0) (hb : 1 ≤ c.breadth) (hcap : c.breadth ≤ c.cap) :
    QInv st' ∧ st'.heap.size ≤ c.breadth ∧ Has st' (st'.lool + 1) := by
  unfold mainLoop at e
  rw [if_pos hs] at e
  simp only at e
  obtain ⟨r1, r2, r3, _, r5⟩ := expand_q e ⟨hq.null, hq.live, hq.nodup, hq.hsh, hq.top⟩ (Nat.zero_le _) (by
    show st.heap.size + _ ≤ _; omega)
  have r2 : st'.heap.size ≤ st.heap.size + c.breadth := r2
  have r3 : st'.lool = st.lool := r3
  refine ⟨r1, by omega, ?_⟩
  rw [r3, hlool]
  exact r5 hb (fun p nd hp => by
    have hp : st.mem[p]? = some (some nd) := hp
    rw [hm] at hp
    simp at hp)

omit [IsStrictOrderedRing K] in
theorem node_q {lm : Libm K} {c : Cfg K} {srt : List (K × Int) → List (K × Int)}
    {learn : Nat → Tbl K → Bool × List K × K} {sample : Tbl K} {st st' : Srch K}
    (e : mainLoop lm c srt learn sample st = .ok st') (hs : st.heap.size ≠ 0) (hq : QInv st)
    (hok : ∀ k s, (learn k s).1 = true) (hb : 1 ≤ c.breadth) (hcap : st.heap.size + c.breadth ≤ c.cap)
    (hnext : st.lool < c.depth → Has st (st.lool + 1)) :
    QInv st' ∧ st'.heap.size ≤ st.heap.size + c.breadth ∧ (st'.lool < c.depth → Has st' (st'.lool + 1)) := by
  unfold mainLoop at e
  rw [if_neg hs] at e
  obtain ⟨⟨heap, p⟩, hpop, e⟩ := bind_inv e
  simp only at e
  obtain ⟨nd, hnd, e⟩ := bind_inv e
  obtain ⟨c1, c2⟩ := pop_cont hq.null hq.live hs hpop
  obtain ⟨-, hsz⟩ := pop_inv hpop hs
  obtain ⟨q, rfl, hmq⟩ := deref_inv hnd
  have hlive : ∀ x ∈ queueContents heap, ∃ p, x = some p ∧ LiveNode st.mem p :=
    fun x hx => hq.live x (by rw [c2]; exact Multiset.mem_cons_of_mem hx)
  have hnd2 := hq.nodup
  rw [c2, Multiset.nodup_cons] at hnd2
  have hlt : q < st.mem.length := (List.getElem?_eq_some_iff.1 hmq).1
  -- the state after the pop, with the node changed in values only
  have key : ∀ (nd' : Node K) (w : List K) (margin : K) (s : Srch K), nd'.level = nd.level →
      ¬ nd.level > c.depth → QInv s → s.lool = st.lool → s.heap.size = st.heap.size - 1 →
      (∀ L, L ≠ nd.level → Has st L → Has s L) →
      expandNode lm c srt sample w margin nd' s = .ok st' →
      QInv st' ∧ st'.heap.size ≤ st.heap.size + c.breadth ∧ (st'.lool < c.depth → Has st' (st'.lool + 1)) := by
    intro nd' w margin s hl hlev hqs hlool hsize hhas he
    have htop := hq.top q nd hmq
    unfold expandNode at he
    rw [hl] at he
    split at he
    · rename_i hgt
      rw [hlool] at hgt
      have hlv : nd.level = st.lool + 1 := by omega
      have hqs' : QInv ({ s with lool := nd.level } : Srch K) :=
        ⟨hqs.null, hqs.live, hqs.nodup, hqs.hsh, fun p nd1 hp => by
          have := hqs.top p nd1 hp
          show nd1.level ≤ nd.level + 1
          omega⟩
      obtain ⟨r1, r2, r3, _, r5⟩ := expand_q he hqs' le_rfl (by show s.heap.size + _ ≤ _; omega)
      have r2 : st'.heap.size ≤ s.heap.size + c.breadth := r2
      have r3 : st'.lool = nd.level := r3
      refine ⟨r1, by omega, fun _ => ?_⟩
      rw [r3]
      apply r5 hb
      intro p nd1 hp
      have := hqs.top p nd1 hp
      omega
    · rename_i hgt
      rw [hlool] at hgt
      obtain ⟨r1, r2, r3, r4, _⟩ := expand_q he hqs (by omega) (by omega)
      refine ⟨r1, by omega, fun hd => ?_⟩
      rw [r3, hlool] at hd ⊢
      exact r4 _ (by omega) (hhas _ (by omega) (hnext hd))
  have hpopped : ∀ L, L ≠ nd.level → Has st L → Has ({ st with heap := heap } : Srch K) L := by
    rintro L hL ⟨p, nd1, h1, h2, h3⟩
    refine ⟨p, nd1, ?_, h2, h3⟩
    rw [c2] at h1
    rcases Multiset.mem_cons.1 h1 with h | h
    · cases h
      rw [hmq] at h2
      cases h2
      exact absurd h3.symm hL
    · exact h
  have hqpop : QInv ({ st with heap := heap } : Srch K) := ⟨c1, hlive, hnd2.2, hq.hsh, hq.top⟩
  split at e
  · rename_i hlev
    cases e
    refine ⟨hqpop, by show heap.size ≤ _; omega, fun hd => ?_⟩
    have hd : st.lool < c.depth := hd
    exact hpopped (st.lool + 1) (by omega) (hnext hd)
  · rename_i hlev
    split at e
    · obtain ⟨w, _, e⟩ := bind_inv e
      exact key nd w nd.rgamma { st with heap := heap } rfl hlev hqpop rfl hsz hpopped e
    · split at e
      · rename_i hf
        rw [hok] at hf
        cases hf
      · obtain ⟨top, _, e⟩ := bind_inv e
        simp only [Option.getD_some] at e
        generalize hnn : ({ nd with value := (learn st.calls sample).2.2, rgamma := (learn st.calls sample).2.2 } : Node K) = ndn at e
        have hlvn : ndn.level = nd.level := by rw [← hnn]
        have hself : (store st.mem q ndn)[q]? = some (some ndn) := List.getElem?_set_self hlt
        have hother : ∀ r, r ≠ q → (store st.mem q ndn)[r]? = st.mem[r]? := fun r hr => List.getElem?_set_ne (Ne.symm hr)
        have hlive2 : ∀ x, (∃ p, x = some p ∧ LiveNode st.mem p) → ∃ p, x = some p ∧ LiveNode (store st.mem q ndn) p := by
          rintro x ⟨p, rfl, nd1, hp⟩
          by_cases hpq : p = q
          · exact ⟨p, rfl, ndn, by rw [hpq]; exact hself⟩
          · exact ⟨p, rfl, nd1, by rw [hother p hpq]; exact hp⟩
        have htop2 : ∀ (p : Nat) (nd1 : Node K), (store st.mem q ndn)[p]? = some (some nd1) → nd1.level ≤ st.lool + 1 := by
          intro p nd1 hp
          by_cases hpq : p = q
          · rw [hpq, hself] at hp
            cases hp
            rw [hlvn]
            exact hq.top q nd hmq
          · rw [hother p hpq] at hp
            exact hq.top p nd1 hp
        have hhash2 : ∀ b ∈ st.hash.buckets, ∀ x ∈ b, x < (store st.mem q ndn).length := by
          intro b hb' x hx
          simpa [store] using hq.hsh b hb' x hx
        have hqst : QInv (⟨store st.mem q ndn, st.ws, heap, st.hash, st.lool, st.part, st.calls + 1⟩ : Srch K) :=
          ⟨c1, fun x hx => hlive2 x (hlive x hx), hnd2.2, hhash2, htop2⟩
        have hhas2 : ∀ L, L ≠ nd.level → Has st L →
            Has (⟨store st.mem q ndn, st.ws, heap, st.hash, st.lool, st.part, st.calls + 1⟩ : Srch K) L := by
          rintro L hL h
          obtain ⟨p, nd1, h1, h2, h3⟩ := hpopped L hL h
          have hpq : p ≠ q := by
            rintro rfl
            exact hnd2.1 h1
          exact ⟨p, nd1, h1, (hother p hpq).trans h2, h3⟩
        split at e
        · obtain ⟨ws, _, e⟩ := bind_inv e
          obtain ⟨⟨h2, b2⟩, hins, e⟩ := bind_inv e
          cases e
          have hne : heap.size ≠ c.cap := by omega
          obtain ⟨i1, i2⟩ := insert_cont hqst.null hqst.live hne hins
          have hsz2 := (insert_size hins).2 hne
          refine ⟨⟨i1, ?_, ?_, hhash2, htop2⟩, by show h2.size ≤ _; omega, fun hd => ?_⟩
          · intro x hx
            have hx : x ∈ queueContents h2 := hx
            rw [i2] at hx
            rcases Multiset.mem_cons.1 hx with h | h
            · exact ⟨q, h, ndn, hself⟩
            · exact hqst.live x h
          · show (queueContents h2).Nodup
            rw [i2, Multiset.nodup_cons]
            exact ⟨hnd2.1, hnd2.2⟩
          · have hd : st.lool < c.depth := hd
            obtain ⟨p, nd1, g1, g2, g3⟩ := hnext hd
            by_cases hpq : p = q
            · subst hpq
              rw [hmq] at g2
              cases g2
              refine ⟨p, ndn, ?_, hself, hlvn.trans g3⟩
              show some p ∈ queueContents h2
              rw [i2]
              exact Multiset.mem_cons_self _ _
            · refine ⟨p, nd1, ?_, (hother p hpq).trans g2, g3⟩
              show some p ∈ queueContents h2
              rw [i2]
              rw [c2] at g1
              exact g1
        · exact key ndn _ _ ⟨store st.mem q ndn, st.ws, heap, st.hash, st.lool, st.part, st.calls + 1⟩ hlvn hlev hqst rfl
            hsz hhas2 e

omit [IsStrictOrderedRing K] in
/-- If every training succeeds, a search that ends has reached the depth. -/
theorem searchLoop_q {lm : Libm K} {c : Cfg K} {srt : List (K × Int) → List (K × Int)}
    {learn : Nat → Tbl K → Bool × List K × K} {samples : Tbl K}
    (hok : ∀ k s, (learn k s).1 = true) (hb : 1 ≤ c.breadth) :
    ∀ {n : Nat} {st : Srch K} {d : Tbl K} {l : Nat}, searchLoop lm c srt learn samples n false st = .ok (d, l) →
      QInv st → st.heap.size + n * c.breadth ≤ c.cap → (st.lool < c.depth → Has st (st.lool + 1)) → c.depth ≤ l := by
  intro n
  induction n with
  | zero => intro st d l e; cases e
  | succ n ih =>
    intro st d l e hq hcap hnext
    rw [Nat.add_mul, Nat.one_mul] at hcap
    rw [searchLoop] at e
    split at e
    · rename_i hs
      rw [if_pos rfl] at e
      cases e
      by_contra hlt
      obtain ⟨p, nd, h1, _⟩ := hnext (by omega)
      obtain ⟨i, h2, h3, _⟩ := mem_cont.1 h1
      omega
    · rename_i hs
      obtain ⟨nd, hnd, e⟩ := bind_inv e
      obtain ⟨⟨dd, b⟩, hrem, e⟩ := bind_inv e
      simp only at e
      split at e
      · rename_i hstop
        omega
      · obtain ⟨st1, hmain, e⟩ := bind_inv e
        obtain ⟨r1, r2, r3⟩ := node_q hmain hs hq hok hb (by omega) hnext
        exact ih e r1 (by omega) r3

/-- If every training succeeds, a search of a new object that ends has reached the depth. -/
theorem aosSelect_q {lm : Libm K} {breadth finalDim cut : Nat} {gMargin q : K} {cap hlen hwidth : Nat}
    {srt : List (K × Int) → List (K × Int)} {learn : Nat → Tbl K → Bool × List K × K} {samples : Tbl K} {n : Nat}
    {d : Tbl K} {l : Nat}
    (e : aosSelect lm breadth finalDim cut gMargin q cap hlen hwidth srt learn samples 0 n = .ok (d, l))
    (hdim : 1 ≤ samples.dim) (hb : 1 ≤ breadth) (hsrt : ∀ l, (srt l).Perm l)
    (hcap : n * min breadth samples.dim ≤ cap) (hok : ∀ k s, (learn k s).1 = true) :
    min (samples.dim - finalDim) (samples.dim - 1) ≤ l := by
  unfold aosSelect at e
  cases n with
  | zero => cases e
  | succ n =>
    rw [Nat.add_mul, Nat.one_mul] at hcap
    rw [searchLoop, if_pos (by rfl), if_neg (by simp)] at e
    obtain ⟨st1, hmain, e⟩ := bind_inv e
    have hb' : 1 ≤ min breadth samples.dim := by omega
    have hne := root_nonempty hmain rfl hb' (by show 1 ≤ cap; omega) (by
      intro b hb
      exact List.eq_of_mem_replicate hb) hsrt
    rw [if_neg hne] at e
    obtain ⟨r1, r2, r3⟩ := root_q hmain rfl ⟨rfl, by
        intro q hq
        obtain ⟨i, h1, h2, _⟩ := mem_cont.1 hq
        have h2 : i ≤ 0 := h2
        omega, by
        show (cont _ 1 0).Nodup
        rw [cont_empty _ 1 0 (by omega)]
        exact Multiset.nodup_zero, by
        intro b hb q hq
        rw [List.eq_of_mem_replicate hb] at hq
        simp at hq, by
        intro p nd hp
        simp at hp⟩ rfl rfl hb' (by show min breadth samples.dim ≤ cap; omega)
    have r2 : st1.heap.size ≤ min breadth samples.dim := r2
    exact searchLoop_q hok hb' e r1 (by show st1.heap.size + n * min breadth samples.dim ≤ cap; omega) (fun _ => r3)

/-- If every training succeeds without a positive margin, the search does not end. -/
theorem searchLoop_z {lm : Libm K} {c : Cfg K} {srt : List (K × Int) → List (K × Int)}
    {learn : Nat → Tbl K → Bool × List K × K} {samples : Tbl K}
    (ha : Aligned samples) (hdepth : c.depth ≤ samples.dim - 1) (hsrt : ∀ l, (srt l).Perm l)
    (hok : ∀ k s, (learn k s).1 = true) (hmar : ∀ k s, (learn k s).2.2 ≤ 0) (hb : 1 ≤ c.breadth) :
    ∀ {n : Nat} {st : Srch K} {r : Tbl K × Nat}, searchLoop lm c srt learn samples n false st = .ok r →
      QInv st → st.heap.size + n * c.breadth ≤ c.cap → st.lool < c.depth → Has st (st.lool + 1) →
      MemOk samples.fnames 0 (fun _ => True) st.mem → False := by
  intro n
  induction n with
  | zero => intro st r e; cases e
  | succ n ih =>
    intro st r e hq hcap hlt hnext hm
    rw [Nat.add_mul, Nat.one_mul] at hcap
    rw [searchLoop] at e
    split at e
    · rename_i hs
      obtain ⟨p, nd, h1, _⟩ := hnext
      obtain ⟨i, h2, h3, _⟩ := mem_cont.1 h1
      omega
    · rename_i hs
      obtain ⟨nd, hnd, e⟩ := bind_inv e
      obtain ⟨⟨dd, b⟩, hrem, e⟩ := bind_inv e
      simp only at e
      obtain ⟨q, hq', hmq⟩ := deref_inv hnd
      have hno := hm q nd hmq
      split at e
      · rename_i hstop
        omega
      · obtain ⟨st1, hmain, e⟩ := bind_inv e
        obtain ⟨r1, r2, r3⟩ := node_q hmain hs hq hok hb (by omega) (fun _ => hnext)
        obtain ⟨nd', hnd', hm1, hpart⟩ := mainLoop_node hmain hs hsrt (by
          intro nd' h' hl f hf
          rw [hnd] at h'
          cases h'
          have := removeFeatures_without samples nd.fnames ha (by have := hno.pos; rw [← ha.1]; omega) hno.nodup hno.sub
          rw [this] at hrem
          cases hrem
          have := List.mem_filter.1 hf
          exact ⟨this.1, by simpa using this.2⟩) (fun k s h => absurd h (not_lt.2 (hmar k s))) (fun _ _ _ => trivial) hm
        rw [hnd] at hnd'
        cases hnd'
        have hlt1 : st1.lool < c.depth := by
          rcases hpart with ⟨-, h2⟩ | ⟨-, h2, -, h4, -, h6⟩
          · omega
          · have : nd.level ≠ c.depth := by
              intro h
              have h7 := hno.trained (h6 h)
              have h8 := hno.pos
              omega
            omega
        exact ih e r1 (by omega) hlt1 (r3 hlt1) hm1

/-- If every training succeeds without a positive margin, the search of a new object does not end. -/
theorem aosSelect_z {lm : Libm K} {breadth finalDim cut : Nat} {gMargin q : K} {cap hlen hwidth : Nat}
    {srt : List (K × Int) → List (K × Int)} {learn : Nat → Tbl K → Bool × List K × K} {samples : Tbl K} {n : Nat}
    {r : Tbl K × Nat}
    (e : aosSelect lm breadth finalDim cut gMargin q cap hlen hwidth srt learn samples 0 n = .ok r)
    (ha : Aligned samples) (hdim : 2 ≤ samples.dim) (hfd : finalDim < samples.dim) (hb : 1 ≤ breadth)
    (hsrt : ∀ l, (srt l).Perm l)
    (hcap : n * min breadth samples.dim ≤ cap) (hok : ∀ k s, (learn k s).1 = true)
    (hmar : ∀ k s, (learn k s).2.2 ≤ 0) : False := by
  unfold aosSelect at e
  cases n with
  | zero => cases e
  | succ n =>
    rw [Nat.add_mul, Nat.one_mul] at hcap
    rw [searchLoop, if_pos (by rfl), if_neg (by simp)] at e
    obtain ⟨st1, hmain, e⟩ := bind_inv e
    have hb' : 1 ≤ min breadth samples.dim := by omega
    have hne := root_nonempty hmain rfl hb' (by show 1 ≤ cap; omega) (by
      intro b hb
      exact List.eq_of_mem_replicate hb) hsrt
    rw [if_neg hne] at e
    obtain ⟨r1, r2, r3⟩ := root_q hmain rfl ⟨rfl, by
        intro q hq
        obtain ⟨i, h1, h2, _⟩ := mem_cont.1 hq
        have h2 : i ≤ 0 := h2
        omega, by
        show (cont _ 1 0).Nodup
        rw [cont_empty _ 1 0 (by omega)]
        exact Multiset.nodup_zero, by
        intro b hb q hq
        rw [List.eq_of_mem_replicate hb] at hq
        simp at hq, by
        intro p nd hp
        simp at hp⟩ rfl rfl hb' (by show min breadth samples.dim ≤ cap; omega)
    have r2 : st1.heap.size ≤ min breadth samples.dim := r2
    obtain ⟨t1, _, t3, _⟩ := mainLoop_root (names := samples.fnames) (D := 0) (Q := fun _ => True) hmain rfl hsrt
      (fun f hf => hf) (fun _ _ _ _ _ _ => trivial) (by intro p nd hp; simp at hp)
    refine searchLoop_z ha ?_ hsrt hok hmar hb' e r1 ?_ ?_ r3 t1
    · show min _ _ ≤ _; omega
    · show st1.heap.size + n * min breadth samples.dim ≤ cap; omega
    · rw [t3]; show 0 < min _ _; omega

end
end MLTK.Aos
