import Verif.Lemmas.AosRun
import Verif.Model.AosAhead
/-!
# Lemmas about the search with look-ahead
-/
namespace MLTK.Aos
open MLTK.Data (Res_bind_ok Res_bind_error Res_pure)
open MLTK.Feat (Tbl removeFeatures)
open MLTK.Perc (Libm)
open MLTK.Spec
open MLTK.Props (Aligned)

section
variable {K : Type} [Field K] [LinearOrder K] [IsStrictOrderedRing K]

omit [IsStrictOrderedRing K] in
theorem leastFeature_mem {stmp : Tbl K} {w : List K} {f : Int} (e : leastFeature stmp w = .ok f) : f ∈ stmp.fnames := by
  unfold leastFeature at e
  obtain ⟨w0, h0, e⟩ := bind_inv e
  obtain ⟨f0, h1, e⟩ := bind_inv e
  obtain ⟨r, h2, e⟩ := bind_inv e
  cases e
  refine foldlM_inv (fun b : K × Int => b.2 ∈ stmp.fnames) h2 (vget_lt_of h1).2 ?_
  intro s i s' _ hs h
  obtain ⟨wi, _, h⟩ := bind_inv h
  split at h
  · obtain ⟨g, hg, h⟩ := bind_inv h
    cases h
    exact (vget_lt_of hg).2
  · cases h
    exact hs

omit [IsStrictOrderedRing K] in
theorem memOk_append {names : List Int} {D : Nat} {Q : List Int → Prop} {m : Nodes K} {nd : Node K}
    (hm : MemOk names D Q m) (hn : NodeOk names D Q nd) : MemOk names D Q (m ++ [some nd]) := by
  intro p nd' h
  rw [List.getElem?_append] at h
  split at h
  · exact hm p nd' h
  · rw [List.getElem?_singleton] at h
    split at h <;> cases h
    exact hn

/-- Looking ahead keeps the nodes in order. -/
theorem aheadLoop_inv {c : Cfg K} {primal : Bool} {learn : Nat → Tbl K → Bool × List K × K} {sample : Tbl K} {level0 : Nat}
    {ofnames names : List Int} (ha : Aligned sample) (hlen : ofnames.length = level0) (hnd : ofnames.Nodup)
    (hsub : ∀ f ∈ ofnames, f ∈ names) (hsam : ∀ f ∈ sample.fnames, f ∈ names ∧ f ∉ ofnames) :
    ∀ {n count : Nat} {feats : List Int} {w : List K} {stmp : Tbl K} {st st' : Srch K} {sol sol' : List K},
      aheadLoop c primal learn sample level0 ofnames n count feats w stmp st sol = .ok (st', sol') →
      feats.length = count → feats.Nodup → (∀ f ∈ feats, f ∈ sample.fnames) →
      stmp.fnames = sample.fnames.filter (fun n => decide (n ∉ feats)) → level0 + count ≤ c.depth →
      MemOk names c.depth (fun _ => True) st.mem →
      MemOk names c.depth (fun _ => True) st'.mem ∧ st'.part = st.part ∧ st'.lool = st.lool ∧
        st.heap.size ≤ st'.heap.size := by
  intro n
  induction n with
  | zero =>
    intro count feats w stmp st st' sol sol' e _ _ _ _ _ hm
    cases e
    exact ⟨hm, rfl, rfl, le_rfl⟩
  | succ n ih =>
    intro count feats w stmp st st' sol sol' e h1 h2 h3 h4 h5 hm
    rw [aheadLoop] at e
    split at e
    · cases e
      exact ⟨hm, rfl, rfl, le_rfl⟩
    · rename_i hstop
      push Not at hstop
      obtain ⟨feat, hf, e⟩ := bind_inv e
      obtain ⟨_, _, e⟩ := bind_inv e
      simp only at e
      obtain ⟨⟨stmp1, b1⟩, hrem, e⟩ := bind_inv e
      obtain ⟨old, hold, e⟩ := bind_inv e
      rw [← hlen, mapM_vget] at hold
      cases hold
      simp only at e
      obtain ⟨⟨mem, hash, new⟩, hadd, e9⟩ := bind_inv e
      simp only at e9
      have hmem := leastFeature_mem hf
      rw [h4, List.mem_filter] at hmem
      have hfn : feat ∉ feats := by simpa using hmem.2
      have g2 : (feats ++ [feat]).Nodup := by
        rw [List.nodup_append]
        refine ⟨h2, by simp, ?_⟩
        intro a ha b hb
        simp only [List.mem_singleton] at hb
        rintro rfl
        exact hfn (hb ▸ ha)
      have g3 : ∀ f ∈ feats ++ [feat], f ∈ sample.fnames := by
        intro f hf
        rcases List.mem_append.1 hf with h | h
        · exact h3 f h
        · simp only [List.mem_singleton] at h; rw [h]; exact hmem.1
      have g1 : (feats ++ [feat]).length = count + 1 := by simp [h1]
      have hle : count + 1 ≤ sample.fnames.length := by
        have := (List.subperm_of_subset g2 g3).length_le
        omega
      have hne1 : sample.fnames.length ≠ 1 := by
        have := ha.1
        omega
      rw [removeFeatures_without sample _ ha hne1 g2 g3] at hrem
      cases hrem
      have hlev : level0 + (count + 1) ≤ c.depth := by omega
      have hperm := sortDesc_perm (ofnames ++ (feats ++ [feat]))
      have hnode : ∀ (v r : K), NodeOk names c.depth (fun _ => True)
          (⟨sortDesc (ofnames ++ (feats ++ [feat])), level0 + count + 1, v, 0, r⟩ : Node K) := by
        intro v r
        refine ⟨?_, ?_, ?_, by simp, fun _ => by show level0 + count + 1 ≤ _; omega, trivial⟩
        · rw [hperm.length_eq, List.length_append, g1, hlen]; rfl
        · rw [hperm.nodup_iff, List.nodup_append]
          refine ⟨hnd, g2, ?_⟩
          intro a ha b hb
          rintro rfl
          exact (hsam _ (g3 _ hb)).2 ha
        · intro f hf
          rcases List.mem_append.1 (hperm.mem_iff.1 hf) with h | h
          · exact hsub f h
          · exact (hsam f (g3 f h)).1
      have hm2 : MemOk names c.depth (fun _ => True) mem :=
        memOk_add (memOk_append hm (hnode (-1) (-1))) (add_inv hadd).1
      by_cases hnew : new = true
      · rw [if_pos hnew] at e9
        by_cases hr : (learn st.calls sample).1 = false
        · rw [if_pos hr] at e9
          cases e9
          exact ⟨hm2, rfl, rfl, le_rfl⟩
        · rw [if_neg hr] at e9
          obtain ⟨nd, hder, e9⟩ := bind_inv e9
          obtain ⟨ws, _, e9⟩ := bind_inv e9
          obtain ⟨⟨heap, b2⟩, hins, e9⟩ := bind_inv e9
          have hok : NodeOk names c.depth (fun _ => True) nd := by
            obtain ⟨q, _, hq⟩ := deref_inv hder
            exact hm2 _ _ hq
          have hlevel : nd.level ≤ c.depth := by
            obtain ⟨q, hq1, hq⟩ := deref_inv hder
            cases hq1
            have := (add_inv hadd).2.2.2.1 hnew
            rw [this] at hq
            simp only [List.getElem?_append_right (le_refl _), Nat.sub_self] at hq
            cases hq
            show level0 + count + 1 ≤ _
            omega
          have hm3 : MemOk names c.depth (fun _ => True) (store mem st.mem.length
              { nd with value := (learn st.calls sample).2.2, rgamma := (learn st.calls sample).2.2 }) :=
            memOk_store hm2 ⟨hok.len, hok.nodup, hok.sub, hok.pos, fun _ => hlevel, trivial⟩
          obtain ⟨r1, r2, r3, r4⟩ := ih e9 g1 g2 g3 rfl hlev hm3
          exact ⟨r1, r2, r3, le_trans (insert_size hins).1 r4⟩
      · rw [if_neg hnew] at e9
        have r := ih (st := ⟨mem, st.ws ++ [[]], st.heap, hash, st.lool, st.part, st.calls⟩)
          (stmp := Without sample (feats ++ [feat])) e9 g1 g2 g3 rfl hlev hm2
        exact r

/-- Expanding with look-ahead. -/
theorem expandA_inv {lm : Libm K} {c : Cfg K} {ahead : Nat} {primal : Bool} {srt : List (K × Int) → List (K × Int)}
    {learn : Nat → Tbl K → Bool × List K × K} {sample : Tbl K} {w : List K}
    {margin : K} {level : Nat} {ofnames : List Int} {first : Bool} {a a' : AState K} {names : List Int}
    (e : expandA lm c ahead primal srt learn sample w margin level ofnames first a = .ok a')
    (hsrt : ∀ l, (srt l).Perm l) (ha : Aligned sample) (hlev : level ≤ c.depth)
    (hlen : ofnames.length = level) (hnd : ofnames.Nodup) (hsub : ∀ f ∈ ofnames, f ∈ names)
    (hsam : ∀ f ∈ sample.fnames, f ∈ names ∧ f ∉ ofnames)
    (hm : MemOk names c.depth (fun _ => True) a.st.mem) :
    MemOk names c.depth (fun _ => True) a'.st.mem ∧ a'.st.part = (if first then sample else a.st.part) ∧
      a'.st.lool = a.st.lool ∧ c.breadth ≤ sample.dim := by
  unfold expandA at e
  obtain ⟨a1, h1, e⟩ := bind_inv e
  obtain ⟨st1, h2, e⟩ := bind_inv e
  cases e
  have h3 : MemOk names c.depth (fun _ => True) a1.st.mem ∧ a1.st.part = a.st.part ∧ a1.st.lool = a.st.lool := by
    unfold lookAhead at h1
    split at h1
    · obtain ⟨⟨st2, sol2⟩, h4, h1⟩ := bind_inv h1
      cases h1
      obtain ⟨r1, r2, r3, -⟩ := aheadLoop_inv ha hlen hnd hsub hsam h4 rfl List.nodup_nil (by simp) (by simp) (by simpa using hlev) hm
      exact ⟨r1, r2, r3⟩
    · cases h1
      exact ⟨hm, rfl, rfl⟩
  obtain ⟨r1, r2, r3, r4⟩ := expand_inv (names := names) (D := c.depth) (Q := fun _ => True) h2 hsrt hlen hnd hsub hsam
    (fun _ _ _ _ _ _ => trivial) h3.1
  refine ⟨r1, ?_, r3.trans h3.2.2, r4⟩
  rw [show (AState.st { st := st1, g := a1.g, sol := a1.sol }).part = st1.part from rfl, r2, h3.2.1]

/-- A later round. -/
theorem mainLoopA_node {lm : Libm K} {c : Cfg K} {ahead : Nat} {primal : Bool} {srt : List (K × Int) → List (K × Int)}
    {learn : Nat → Tbl K → Bool × List K × K} {sample : Tbl K} {a a' : AState K} {names : List Int}
    (e : mainLoopA lm c ahead primal srt learn sample a = .ok a') (hs : a.st.heap.size ≠ 0)
    (hsrt : ∀ l, (srt l).Perm l)
    (hsam : ∀ nd, deref a.st.mem (a.st.heap.elements 1) = .ok nd → nd.level ≤ c.depth →
      Aligned sample ∧ ∀ f ∈ sample.fnames, f ∈ names ∧ f ∉ nd.fnames)
    (hm : MemOk names c.depth (fun _ => True) a.st.mem) :
    ∃ nd, deref a.st.mem (a.st.heap.elements 1) = .ok nd ∧ MemOk names c.depth (fun _ => True) a'.st.mem ∧
      ((a'.st.part = a.st.part ∧ a'.st.lool = a.st.lool) ∨
       (a'.st.part = sample ∧ a'.st.lool = nd.level ∧ a.st.lool < nd.level ∧ nd.level ≤ c.depth ∧
        c.breadth ≤ sample.dim)) := by
  unfold mainLoopA at e
  rw [if_neg hs] at e
  obtain ⟨⟨heap, p⟩, hpop, e⟩ := bind_inv e
  simp only at e
  obtain ⟨nd, hnd, e⟩ := bind_inv e
  obtain ⟨rfl, _⟩ := pop_inv hpop hs
  refine ⟨nd, hnd, ?_⟩
  obtain ⟨q, hq, hmq⟩ := deref_inv hnd
  have hno := hm q nd hmq
  have key : ∀ (nd' : Node K) (w : List K) (margin : K) (s : AState K), nd'.level = nd.level → nd'.fnames = nd.fnames →
      ¬ nd.level > c.depth → MemOk names c.depth (fun _ => True) s.st.mem → s.st.part = a.st.part → s.st.lool = a.st.lool →
      expandNodeA lm c ahead primal srt learn sample w margin nd' s = .ok a' →
      MemOk names c.depth (fun _ => True) a'.st.mem ∧ ((a'.st.part = a.st.part ∧ a'.st.lool = a.st.lool) ∨
       (a'.st.part = sample ∧ a'.st.lool = nd.level ∧ a.st.lool < nd.level ∧ nd.level ≤ c.depth ∧
        c.breadth ≤ sample.dim)) := by
    intro nd' w margin s hl hf hlev hms hpart hlool he
    obtain ⟨hal, hsam'⟩ := hsam nd hnd (by omega)
    unfold expandNodeA at he
    rw [hl, hf] at he
    split at he
    · rename_i hgt
      obtain ⟨r1, r2, r3, r4⟩ := expandA_inv (names := names) he hsrt hal (by omega) hno.len hno.nodup hno.sub hsam' hms
      exact ⟨r1, Or.inr ⟨by simpa using r2, r3, by omega, by omega, r4⟩⟩
    · obtain ⟨r1, r2, r3, r4⟩ := expandA_inv (names := names) he hsrt hal (by omega) hno.len hno.nodup hno.sub hsam' hms
      exact ⟨r1, Or.inl ⟨by simpa [hpart] using r2, by rw [r3, hlool]⟩⟩
  split at e
  · cases e
    exact ⟨hm, Or.inl ⟨rfl, rfl⟩⟩
  · rename_i hlev
    split at e
    · obtain ⟨w, _, e⟩ := bind_inv e
      exact key nd w nd.rgamma { a with st := { a.st with heap := heap } } rfl rfl hlev hm rfl rfl e
    · split at e
      · cases e
        exact ⟨hm, Or.inl ⟨rfl, rfl⟩⟩
      · obtain ⟨top, _, e⟩ := bind_inv e
        have hst : MemOk names c.depth (fun _ => True) (store a.st.mem ((a.st.heap.elements 1).getD 0)
            { nd with value := (learn a.st.calls sample).2.2, rgamma := (learn a.st.calls sample).2.2 }) :=
          memOk_store hm ⟨hno.len, hno.nodup, hno.sub, hno.pos, fun h => by
            show nd.level ≤ _
            omega, hno.q⟩
        split at e
        · obtain ⟨ws, _, e⟩ := bind_inv e
          obtain ⟨⟨h2, b2⟩, _, e⟩ := bind_inv e
          cases e
          exact ⟨hst, Or.inl ⟨rfl, rfl⟩⟩
        · exact key _ _ _ _ (by rfl) (by rfl) hlev (by exact hst) (by rfl) (by rfl) e

omit [Field K] [LinearOrder K] [IsStrictOrderedRing K] in
theorem without_aligned {samples : Tbl K} {R : List Int} (ha : Aligned samples) (h1 : samples.fnames.length ≠ 1)
    (hR : R.Nodup) (hs : ∀ f ∈ R, f ∈ samples.fnames) : Aligned (Without samples R) := by
  obtain ⟨d', e, hal, -, -⟩ := Props.C17_remove_partial samples R ha h1 (hR.filter _)
  rw [removeFeatures_without samples R ha h1 hR hs] at e
  cases e
  exact hal

/-- Rounds after the first one. -/
theorem searchLoopA_inv {lm : Libm K} {c : Cfg K} {ahead : Nat} {primal : Bool} {srt : List (K × Int) → List (K × Int)}
    {learn : Nat → Tbl K → Bool × List K × K} {samples : Tbl K} {lool0 : Nat}
    (ha : Aligned samples) (hdepth : c.depth ≤ samples.dim - 1) (hsrt : ∀ l, (srt l).Perm l) :
    ∀ {n : Nat} {a : AState K} {d : Tbl K} {l : Nat}, searchLoopA lm c ahead primal srt learn samples n false a = .ok (d, l) →
      MemOk samples.fnames c.depth (fun _ => True) a.st.mem → PartOk samples c (fun _ => True) lool0 a.st.part a.st.lool →
      PartOk samples c (fun _ => True) lool0 d l := by
  intro n
  induction n with
  | zero => intro a d l e; cases e
  | succ n ih =>
    intro a d l e hm hp
    rw [searchLoopA] at e
    split at e
    · rw [if_pos rfl] at e
      cases e
      exact hp
    · rename_i hs
      obtain ⟨nd, hnd, e⟩ := bind_inv e
      obtain ⟨⟨dd, b⟩, hrem, e⟩ := bind_inv e
      simp only at e
      obtain ⟨q, hq, hmq⟩ := deref_inv hnd
      have hno := hm q nd hmq
      split at e
      · rename_i hstop
        have h1 := hno.trained hstop.2
        have h2 := hno.pos
        omega
      · obtain ⟨a1, hmain, e⟩ := bind_inv e
        have hne : nd.level ≤ c.depth → samples.fnames.length ≠ 1 := by
          intro hl
          have := hno.pos
          rw [← ha.1]
          omega
        have hd : nd.level ≤ c.depth → dd = Without samples nd.fnames := by
          intro hl
          have := removeFeatures_without samples nd.fnames ha (hne hl) hno.nodup hno.sub
          rw [this] at hrem
          cases hrem
          rfl
        obtain ⟨nd', hnd', hm1, hpart⟩ := mainLoopA_node hmain hs hsrt (by
          intro nd' h' hl
          rw [hnd] at h'
          cases h'
          rw [hd hl]
          refine ⟨without_aligned ha (hne hl) hno.nodup hno.sub, ?_⟩
          intro f hf
          have := List.mem_filter.1 hf
          exact ⟨this.1, by simpa using this.2⟩) hm
        rw [hnd] at hnd'
        cases hnd'
        apply ih e hm1
        rcases hpart with ⟨h1, h2⟩ | ⟨h1, h2, h3, h4, h5⟩
        · rw [h1, h2]; exact hp
        · rw [h1, h2]
          refine ⟨nd.fnames, hd h4, hno.nodup, hno.sub, by rw [hno.len]; exact h4, h5, Or.inr ⟨hno.len, hno.pos, ?_, hno.q⟩⟩
          obtain ⟨R, -, -, -, -, -, h⟩ := hp
          rcases h with ⟨-, h⟩ | ⟨-, -, h, -⟩ <;> omega

omit [Field K] [IsStrictOrderedRing K] in
theorem cutLoop_zero {cut : Nat} {thr : K} : ∀ {i : Nat} {m m' : Nodes K} {h h' : Heap},
    cutLoop 0 cut thr i m h = .ok (m', h') → m' = m ∧ h' = h := by
  intro i
  induction i with
  | zero => intro m m' h h' e; cases e; exact ⟨rfl, rfl⟩
  | succ i ih =>
    intro m m' h h' e
    rw [cutLoop] at e
    obtain ⟨nd, _, e⟩ := bind_inv e
    rw [if_neg (by simp [pruned])] at e
    exact ih e

omit [IsStrictOrderedRing K] in
theorem branch_size {lm : Libm K} {c : Cfg K} {dim level : Nat} {ofnames : List Int} {weights : List (K × Int)}
    {wnorm margin : K} {s s' : Srch K} {i : Nat}
    (hs2 : branch lm c dim level ofnames weights wnorm margin s i = .ok s') : s.heap.size ≤ s'.heap.size := by
  unfold branch at hs2
  obtain ⟨wt, _, hs2⟩ := bind_inv hs2
  obtain ⟨tp, _, hs2⟩ := bind_inv hs2
  obtain ⟨old, _, hs2⟩ := bind_inv hs2
  simp only at hs2
  obtain ⟨⟨mem, hash, new⟩, hadd, hs2⟩ := bind_inv hs2
  simp only at hs2
  split at hs2
  · cases hs2; exact le_rfl
  · split at hs2
    · obtain ⟨⟨heap, b⟩, hins, hs2⟩ := bind_inv hs2
      cases hs2
      exact (insert_size hins).1
    · cases hs2; exact le_rfl

omit [IsStrictOrderedRing K] in
/-- Expanding the root leaves something in the queue. -/
theorem expand_nonempty {lm : Libm K} {c : Cfg K} {srt : List (K × Int) → List (K × Int)} {sample : Tbl K} {w : List K}
    {margin : K} {first : Bool} {st st' : Srch K}
    (e : expand lm c srt sample w margin 0 [] first st = .ok st') (hl : first = true → st.lool = 0)
    (hb : 1 ≤ c.breadth) (hcap : 1 ≤ c.cap)
    (hh : 1 ≤ st.heap.size ∨ st.heap.size = 0 ∧ ∀ b ∈ st.hash.buckets, b = []) : 1 ≤ st'.heap.size := by
  unfold expand at e
  obtain ⟨st1, h1, e⟩ := bind_inv e
  obtain ⟨ws, hws, e⟩ := bind_inv e
  have hst1 : st1.heap = st.heap ∧ st1.hash = st.hash := by
    unfold closeLevel at h1
    split at h1
    · rename_i hf
      obtain ⟨⟨m, h⟩, hc, h1⟩ := bind_inv h1
      cases h1
      rw [cutHeap, hl hf] at hc
      exact ⟨(cutLoop_zero hc).2, rfl⟩
    · cases h1
      exact ⟨rfl, rfl⟩
  obtain ⟨l, hll⟩ := range_succ_cons c.breadth hb
  rw [hll, List.foldlM_cons] at e
  obtain ⟨st2, hbr, e⟩ := bind_inv e
  have hst2 : 1 ≤ st2.heap.size := by
    rcases hh with hh | ⟨h0, hh⟩
    · have := branch_size hbr
      rw [hst1.1] at this
      omega
    unfold branch at hbr
    obtain ⟨wt, _, hbr⟩ := bind_inv hbr
    obtain ⟨tp, _, hbr⟩ := bind_inv hbr
    obtain ⟨old, _, hbr⟩ := bind_inv hbr
    simp only at hbr
    obtain ⟨⟨mem, hash, new⟩, hadd, hbr⟩ := bind_inv hbr
    simp only at hbr
    rw [if_neg (by simp)] at hbr
    have hnew : new = true := by
      cases new with
      | true => rfl
      | false =>
        obtain ⟨bk, hbk, q, hq, _⟩ := (add_inv hadd).2.2.2.2.2 rfl
        rw [hst1.2] at hbk
        rw [hh bk hbk] at hq
        simp at hq
    rw [if_pos hnew] at hbr
    obtain ⟨⟨heap, b⟩, hins, hbr⟩ := bind_inv hbr
    cases hbr
    have := (insert_size hins).2 (by show st1.heap.size ≠ c.cap; rw [hst1.1]; omega)
    show 1 ≤ heap.size
    omega
  exact foldlM_inv (fun s => 1 ≤ s.heap.size) e hst2 (fun s i s' _ h1 h2 => le_trans h1 (branch_size h2))

omit [IsStrictOrderedRing K] in
/-- Looking ahead from the root, all trainings succeeding: nothing happens or the queue gets a node. -/
theorem aheadLoop_root {c : Cfg K} {primal : Bool} {learn : Nat → Tbl K → Bool × List K × K} {sample : Tbl K}
    (hcap : 1 ≤ c.cap) (hok : ∀ k, (learn k sample).1 = true)
    {n : Nat} {w : List K} {st st' : Srch K} {sol sol' : List K}
    (e : aheadLoop c primal learn sample 0 [] n 0 [] w sample st sol = .ok (st', sol'))
    (h0 : st.heap.size = 0) (hh : ∀ b ∈ st.hash.buckets, b = []) : st' = st ∨ 1 ≤ st'.heap.size := by
  cases n with
  | zero => cases e; exact Or.inl rfl
  | succ n =>
    have e0 := e
    rw [aheadLoop] at e
    split at e
    · cases e
      exact Or.inl rfl
    · rename_i hstop
      push Not at hstop
      right
      obtain ⟨feat, hf, e⟩ := bind_inv e
      obtain ⟨_, _, e⟩ := bind_inv e
      simp only [List.nil_append] at e
      obtain ⟨⟨stmp1, b1⟩, hrem, e⟩ := bind_inv e
      obtain ⟨old, hold, e⟩ := bind_inv e
      cases hold
      simp only at e
      obtain ⟨⟨mem, hash, new⟩, hadd, e⟩ := bind_inv e
      simp only at e
      have hnew : new = true := by
        cases new with
        | true => rfl
        | false =>
          obtain ⟨bk, hbk, q, hq, _⟩ := (add_inv hadd).2.2.2.2.2 rfl
          rw [hh bk hbk] at hq
          simp at hq
      rw [if_pos hnew, if_neg (by simp [hok])] at e
      obtain ⟨nd, hder, e⟩ := bind_inv e
      obtain ⟨ws, _, e⟩ := bind_inv e
      obtain ⟨⟨heap, b2⟩, hins, e⟩ := bind_inv e
      have h2 := (insert_size hins).2 (by show st.heap.size ≠ c.cap; omega)
      -- the rest only adds
      have mono : ∀ {n count : Nat} {feats : List Int} {w : List K} {stmp : Tbl K} {st st' : Srch K} {sol sol' : List K},
          aheadLoop c primal learn sample 0 [] n count feats w stmp st sol = .ok (st', sol') →
          st.heap.size ≤ st'.heap.size := by
        intro n
        induction n with
        | zero => intro _ _ _ _ _ _ _ _ e; cases e; exact le_rfl
        | succ n ih =>
          intro count feats w stmp st st' sol sol' e
          rw [aheadLoop] at e
          split at e
          · cases e; exact le_rfl
          · obtain ⟨feat, hf, e⟩ := bind_inv e
            obtain ⟨_, _, e⟩ := bind_inv e
            simp only at e
            obtain ⟨⟨stmp1, b1⟩, hrem, e⟩ := bind_inv e
            obtain ⟨old, hold, e⟩ := bind_inv e
            simp only at e
            obtain ⟨⟨mem, hash, new⟩, hadd, e⟩ := bind_inv e
            simp only at e
            by_cases hnew : new = true
            · rw [if_pos hnew] at e
              by_cases hr : (learn st.calls sample).1 = false
              · rw [if_pos hr] at e
                cases e; exact le_rfl
              · rw [if_neg hr] at e
                obtain ⟨nd, hder, e⟩ := bind_inv e
                obtain ⟨ws, _, e⟩ := bind_inv e
                obtain ⟨⟨heap, b2⟩, hins, e⟩ := bind_inv e
                have h6 := ih e
                exact le_trans (insert_size hins).1 h6
            · rw [if_neg hnew] at e
              have h6 := ih e
              exact h6
      have h3 := mono e
      have h4 : heap.size ≤ st'.heap.size := h3
      have h5 : heap.size = st.heap.size + 1 := h2
      omega

/-- What any completed search returns. -/
theorem aosSelectA_inv {lm : Libm K} {breadth finalDim ahead cut : Nat} {gMargin q : K} {cap hlen hwidth : Nat}
    {primal : Bool} {srt : List (K × Int) → List (K × Int)} {learn : Nat → Tbl K → Bool × List K × K} {samples : Tbl K}
    {lool n : Nat} {d : Tbl K} {l : Nat}
    (e : aosSelectA lm breadth finalDim ahead cut gMargin q cap hlen hwidth primal srt learn samples lool n = .ok (d, l))
    (ha : Aligned samples) (hdim : 1 ≤ samples.dim) (hb : 1 ≤ breadth) (hcap : 1 ≤ cap)
    (hsrt : ∀ l, (srt l).Perm l) (hok : ∀ k, (learn k samples).1 = true) :
    PartOk samples ⟨min breadth samples.dim, min (samples.dim - finalDim) (samples.dim - 1), cut, gMargin, q, cap, hlen, hwidth⟩
      (fun _ => True) lool d l := by
  unfold aosSelectA at e
  set c : Cfg K := ⟨min breadth samples.dim, min (samples.dim - finalDim) (samples.dim - 1), cut, gMargin, q, cap, hlen, hwidth⟩
    with hc
  cases n with
  | zero => cases e
  | succ n =>
    rw [searchLoopA, if_pos (by rfl), if_neg (by simp)] at e
    obtain ⟨a1, hmain, e⟩ := bind_inv e
    unfold mainLoopA at hmain
    rw [if_pos (by rfl)] at hmain
    have hm0 : MemOk samples.fnames c.depth (fun _ => True) ([] : Nodes K) := by intro p nd hp; simp at hp
    obtain ⟨r1, r2, r3, r4⟩ := expandA_inv (names := samples.fnames) hmain hsrt ha (Nat.zero_le _) rfl List.nodup_nil (by simp)
      (fun f hf => ⟨hf, by simp⟩) hm0
    have hne : 1 ≤ a1.st.heap.size := by
      unfold expandA at hmain
      obtain ⟨a2, h1, hmain⟩ := bind_inv hmain
      obtain ⟨st1, h2, hmain⟩ := bind_inv hmain
      cases hmain
      have hbk : ∀ b ∈ (Hash.new hlen hwidth).buckets, b = [] := fun b hb => List.eq_of_mem_replicate hb
      have hlool : (decide (lool = 0)) = true → a2.st.lool = 0 := by
        intro h
        unfold lookAhead at h1
        split at h1
        · obtain ⟨⟨st3, sol3⟩, h3, h1⟩ := bind_inv h1
          cases h1
          have := (aheadLoop_inv ha rfl List.nodup_nil (by simp) (fun f hf => ⟨hf, by simp⟩) h3 rfl List.nodup_nil (by simp) (by simp)
            (Nat.zero_le _) hm0).2.2.1
          exact this.trans (by simpa using h)
        · cases h1
          simpa using h
      refine expand_nonempty h2 hlool (by show 1 ≤ min breadth samples.dim; omega) hcap ?_
      unfold lookAhead at h1
      split at h1
      · obtain ⟨⟨st3, sol3⟩, h3, h1⟩ := bind_inv h1
        cases h1
        rcases aheadLoop_root hcap hok h3 rfl hbk with h | h
        · rw [h]; exact Or.inr ⟨rfl, hbk⟩
        · exact Or.inl h
      · cases h1
        exact Or.inr ⟨rfl, hbk⟩
    rw [if_neg (by omega)] at e
    refine searchLoopA_inv (lool0 := lool) ha (by show min _ _ ≤ _; omega) hsrt e r1 ?_
    have hpart : a1.st.part = samples := by rw [r2]; simp
    rw [hpart, r3]
    exact ⟨[], (without_nil samples ha).symm, List.nodup_nil, by simp, by simp, r4, Or.inl ⟨rfl, rfl⟩⟩

/-! ### Trained nodes -/

/-- Every live node with a real margin satisfies `P`. -/
def MemT (P : List Int → K → Prop) (m : Nodes K) : Prop :=
  ∀ (p : Nat) (nd : Node K), m[p]? = some (some nd) → nd.rgamma > 0 → P nd.fnames nd.rgamma

omit [IsStrictOrderedRing K] in
theorem memT_add {P : List Int → K → Prop} {m m' : Nodes K} (hm : MemT P m)
    (h : ∀ (q : Nat) (nd' : Node K), m'[q]? = some (some nd') → ∃ nd, m[q]? = some (some nd) ∧ SameKey nd' nd) :
    MemT P m' := by
  intro p nd hp hr
  obtain ⟨nd0, h0, h1, h2, h3⟩ := h p nd hp
  rw [h1, h3]
  rw [h3] at hr
  exact hm p nd0 h0 hr

omit [IsStrictOrderedRing K] in
theorem memT_store {P : List Int → K → Prop} {m : Nodes K} {p : Nat} {nd : Node K} (hm : MemT P m)
    (hn : nd.rgamma > 0 → P nd.fnames nd.rgamma) : MemT P (store m p nd) := by
  intro q nd' hq hr
  rw [store, List.getElem?_set] at hq
  split at hq
  · split at hq <;> cases hq
    exact hn hr
  · exact hm q nd' hq hr

theorem branch_t {lm : Libm K} {c : Cfg K} {dim level : Nat} {ofnames : List Int} {weights : List (K × Int)}
    {wnorm margin : K} {st st' : Srch K} {i : Nat} {P : List Int → K → Prop}
    (e : branch lm c dim level ofnames weights wnorm margin st i = .ok st') (hm : MemT P st.mem) : MemT P st'.mem := by
  unfold branch at e
  obtain ⟨wt, hwt, e⟩ := bind_inv e
  obtain ⟨tp, _, e⟩ := bind_inv e
  obtain ⟨old, hold, e⟩ := bind_inv e
  simp only at e
  obtain ⟨⟨mem, hash, new⟩, hadd, e⟩ := bind_inv e
  have hm1 : MemT P (st.mem ++ [some ⟨sortDesc (old ++ [wt.2]), level + 1, tp, tp, -1⟩]) := by
    intro p nd hnd hr
    rw [List.getElem?_append] at hnd
    split at hnd
    · exact hm p nd hnd hr
    · rw [List.getElem?_singleton] at hnd
      split at hnd <;> cases hnd
      have : (-1 : K) < 0 := by simp
      exact absurd hr (not_lt.2 this.le)
  have hm2 := memT_add hm1 (add_inv hadd).1
  simp only at e
  split at e
  · cases e; exact hm2
  · split at e
    · obtain ⟨⟨heap, b⟩, hins, e⟩ := bind_inv e
      cases e
      exact hm2
    · cases e; exact hm2

theorem expand_t {lm : Libm K} {c : Cfg K} {srt : List (K × Int) → List (K × Int)} {sample : Tbl K} {w : List K}
    {margin : K} {level : Nat} {ofnames : List Int} {first : Bool} {st st' : Srch K} {P : List Int → K → Prop}
    (e : expand lm c srt sample w margin level ofnames first st = .ok st') (hm : MemT P st.mem) :
    MemT P st'.mem ∧ (st'.part = st.part ∨ st'.part = sample) := by
  unfold expand at e
  obtain ⟨st1, h1, e⟩ := bind_inv e
  obtain ⟨ws, hws, e⟩ := bind_inv e
  have hst1 : MemT P st1.mem ∧ (st1.part = st.part ∨ st1.part = sample) := by
    unfold closeLevel at h1
    split at h1
    · obtain ⟨⟨mem, heap⟩, hcut, h1⟩ := bind_inv h1
      cases h1
      refine ⟨?_, Or.inr rfl⟩
      intro p nd hp hr
      exact hm p nd ((cutLoop_inv hcut).1 p nd hp) hr
    · cases h1
      exact ⟨hm, Or.inl rfl⟩
  have hpart : st'.part = st1.part := by
    refine foldlM_inv (fun s => s.part = st1.part) e rfl ?_
    intro s i s' _ hs h
    rw [← hs]
    unfold branch at h
    obtain ⟨wt, _, h⟩ := bind_inv h
    obtain ⟨tp, _, h⟩ := bind_inv h
    obtain ⟨old, _, h⟩ := bind_inv h
    simp only at h
    obtain ⟨⟨mem, hash, new⟩, _, h⟩ := bind_inv h
    simp only at h
    split at h
    · cases h; rfl
    · split at h
      · obtain ⟨⟨heap, b⟩, _, h⟩ := bind_inv h
        cases h; rfl
      · cases h; rfl
  rw [hpart]
  exact ⟨foldlM_inv (fun s => MemT P s.mem) e hst1.1 (fun s i s' _ hs h => branch_t h hs), hst1.2⟩

theorem expandNode_t {lm : Libm K} {c : Cfg K} {srt : List (K × Int) → List (K × Int)} {sample : Tbl K} {w : List K}
    {margin : K} {nd : Node K} {st st' : Srch K} {P : List Int → K → Prop}
    (e : expandNode lm c srt sample w margin nd st = .ok st') (hm : MemT P st.mem) :
    MemT P st'.mem ∧ (st'.part = st.part ∨ st'.part = sample) := by
  unfold expandNode at e
  split at e
  · have r := expand_t (P := P) e hm
    exact r
  · exact expand_t e hm

/-- A later round: a trained node keeps the margin of a successful training on its data. -/
theorem mainLoop_t {lm : Libm K} {c : Cfg K} {srt : List (K × Int) → List (K × Int)}
    {learn : Nat → Tbl K → Bool × List K × K} {samples sample : Tbl K} {st st' : Srch K}
    (e : mainLoop lm c srt learn sample st = .ok st') (hs : st.heap.size ≠ 0)
    (hsam : ∀ nd, deref st.mem (st.heap.elements 1) = .ok nd → nd.level ≤ c.depth → sample = Without samples nd.fnames)
    (hm : MemT (fun fs r => ∃ k w, learn k (Without samples fs) = (true, w, r)) st.mem)
    (hp : st.part = samples ∨ ∃ k, (learn k st.part).1 = true) :
    MemT (fun fs r => ∃ k w, learn k (Without samples fs) = (true, w, r)) st'.mem ∧
      (st'.part = samples ∨ ∃ k, (learn k st'.part).1 = true) := by
  unfold mainLoop at e
  rw [if_neg hs] at e
  obtain ⟨⟨heap, p⟩, hpop, e⟩ := bind_inv e
  simp only at e
  obtain ⟨nd, hnd, e⟩ := bind_inv e
  obtain ⟨rfl, _⟩ := pop_inv hpop hs
  obtain ⟨q, hq, hmq⟩ := deref_inv hnd
  split at e
  · cases e
    exact ⟨hm, hp⟩
  · rename_i hlev
    have hsam' := hsam nd hnd (by omega)
    split at e
    · rename_i hr
      obtain ⟨w, _, e⟩ := bind_inv e
      obtain ⟨r1, r2⟩ := expandNode_t (P := fun fs r => ∃ k w, learn k (Without samples fs) = (true, w, r)) e hm
      refine ⟨r1, ?_⟩
      rcases r2 with h | h
      · rw [h]; exact hp
      · obtain ⟨k, w, hk⟩ := hm q nd hmq hr
        right
        refine ⟨k, ?_⟩
        rw [h, hsam', hk]
    · split at e
      · cases e
        exact ⟨hm, hp⟩
      · rename_i hok
        obtain ⟨top, _, e⟩ := bind_inv e
        have hok' : (learn st.calls sample).1 = true := by simpa using hok
        have hst : MemT (fun fs r => ∃ k w, learn k (Without samples fs) = (true, w, r))
            (store st.mem ((st.heap.elements 1).getD 0)
            { nd with value := (learn st.calls sample).2.2, rgamma := (learn st.calls sample).2.2 }) := by
          refine memT_store hm (fun _ => ⟨st.calls, (learn st.calls sample).2.1, ?_⟩)
          show learn st.calls (Without samples nd.fnames) = _
          rw [← hsam']
          ext1
          · exact hok'
          · rfl
        split at e
        · obtain ⟨ws, _, e⟩ := bind_inv e
          obtain ⟨⟨h2, b2⟩, _, e⟩ := bind_inv e
          cases e
          exact ⟨hst, hp⟩
        · obtain ⟨r1, r2⟩ := expandNode_t (P := fun fs r => ∃ k w, learn k (Without samples fs) = (true, w, r)) e hst
          refine ⟨r1, ?_⟩
          rcases r2 with h | h
          · rw [h]; exact hp
          · exact Or.inr ⟨st.calls, by rw [h]; exact hok'⟩

theorem searchLoop_t {lm : Libm K} {c : Cfg K} {srt : List (K × Int) → List (K × Int)}
    {learn : Nat → Tbl K → Bool × List K × K} {samples : Tbl K}
    (ha : Aligned samples) (hdepth : c.depth ≤ samples.dim - 1) (hsrt : ∀ l, (srt l).Perm l) :
    ∀ {n : Nat} {st : Srch K} {d : Tbl K} {l : Nat}, searchLoop lm c srt learn samples n false st = .ok (d, l) →
      MemOk samples.fnames c.depth (fun _ => True) st.mem →
      MemT (fun fs r => ∃ k w, learn k (Without samples fs) = (true, w, r)) st.mem →
      (st.part = samples ∨ ∃ k, (learn k st.part).1 = true) → (d = samples ∨ ∃ k, (learn k d).1 = true) := by
  intro n
  induction n with
  | zero => intro st d l e; cases e
  | succ n ih =>
    intro st d l e hm ht hp
    rw [searchLoop] at e
    split at e
    · rw [if_pos rfl] at e
      cases e
      exact hp
    · rename_i hs
      obtain ⟨nd, hnd, e⟩ := bind_inv e
      obtain ⟨⟨dd, b⟩, hrem, e⟩ := bind_inv e
      simp only at e
      obtain ⟨q, hq, hmq⟩ := deref_inv hnd
      have hno := hm q nd hmq
      split at e
      · rename_i hstop
        have h1 := hno.trained hstop.2
        have h2 := hno.pos
        omega
      · obtain ⟨st1, hmain, e⟩ := bind_inv e
        have hd : nd.level ≤ c.depth → dd = Without samples nd.fnames := by
          intro hl
          have := removeFeatures_without samples nd.fnames ha (by have := hno.pos; rw [← ha.1]; omega) hno.nodup hno.sub
          rw [this] at hrem
          cases hrem
          rfl
        obtain ⟨nd', hnd', hm1, -⟩ := mainLoop_node hmain hs hsrt (by
          intro nd' h' hl f hf
          rw [hnd] at h'
          cases h'
          rw [hd hl] at hf
          have := List.mem_filter.1 hf
          exact ⟨this.1, by simpa using this.2⟩) (fun _ _ _ => le_rfl) (fun _ _ _ => trivial) hm
        obtain ⟨t1, t2⟩ := mainLoop_t hmain hs (by
          intro nd' h' hl
          rw [hnd] at h'
          cases h'
          exact hd hl) ht hp
        exact ih e hm1 t1 t2

end
end MLTK.Aos
