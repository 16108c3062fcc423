import Verif.Model.AosOwn
import Verif.Lemmas.AosRun
/-!
# Lemmas about the nodes a search leaves behind
-/
namespace MLTK.Aos
open MLTK.Feat (Tbl removeFeatures)
open MLTK.Perc (Libm)
open MLTK.Spec
open MLTK.Data (Res_bind_ok Res_bind_error Res_pure)

section
variable {K : Type} [Field K] [LinearOrder K]

/-- A live node of the level that is not in the queue. -/
def Out (st : Srch K) (L : Nat) : Prop :=
  ∃ (p : Nat) (nd : Node K), st.mem[p]? = some (some nd) ∧ nd.level = L ∧ some p ∉ queueContents st.heap

/-- Insertion, also into a full queue. -/
theorem insert_sub {cap : Nat} {m : Nodes K} {h h' : Heap} {tok : Nat} {b : Bool} (hnull : h.elements 0 = none)
    (hl : ∀ q ∈ queueContents h, ∃ p, q = some p ∧ LiveNode m p)
    (e : insert cap m h tok = .ok (h', b)) :
    h'.elements 0 = none ∧ queueContents h' ≤ some tok ::ₘ queueContents h := by
  by_cases hs : h.size = cap
  · unfold insert at e
    obtain ⟨t, _, e⟩ := bind_inv e
    rw [if_pos hs] at e
    obtain ⟨l, hlast, e⟩ := bind_inv e
    split at e
    · have h1 : 1 ≤ cap := by
        rcases Nat.eq_zero_or_pos cap with h0 | h0
        · subst h0; rw [hnull] at hlast; cases hlast
        · exact h0
      obtain ⟨a', e', r1, r4⟩ := up_cont m tok t.value cap (cap + 1) cap h.elements h1 le_rfl (by omega) hnull
        (fun j h1 h2 h3 => good_of_live hl j h1 (by omega))
      rw [e', Res_bind_ok] at e
      cases e
      refine ⟨r1, ?_⟩
      show cont a' 1 h.size ≤ some tok ::ₘ cont h.elements 1 h.size
      rw [hs, r4, cont_upd _ 1 cap cap h1 le_rfl, cont_erase h.elements 1 cap cap h1 le_rfl]
      exact Multiset.cons_le_cons _ (Multiset.le_cons_self _ _)
    · cases e
      exact ⟨hnull, Multiset.le_cons_self _ _⟩
  · obtain ⟨h1, h2⟩ := insert_cont hnull hl hs e
    exact ⟨h1, h2.le⟩

theorem branch_o {lm : Libm K} {c : Cfg K} {dim level : Nat} {ofnames : List Int} {weights : List (K × Int)}
    {wnorm margin : K} {st st' : Srch K} {i : Nat}
    (e : branch lm c dim level ofnames weights wnorm margin st i = .ok st') (hq : QInv st) (hl : level ≤ st.lool) :
    QInv st' ∧ st'.lool = st.lool ∧ (∀ L, Out st L → Out st' L) := by
  unfold branch at e
  obtain ⟨wt, _, e⟩ := bind_inv e
  obtain ⟨tp, _, e⟩ := bind_inv e
  obtain ⟨old, _, e⟩ := bind_inv e
  simp only at e
  obtain ⟨⟨mem, hash, new⟩, hadd, e⟩ := bind_inv e
  simp only at e
  generalize hnd : (⟨sortDesc (old ++ [wt.2]), level + 1, tp, tp, -1⟩ : Node K) = ndn at hadd
  have hlev : ndn.level = level + 1 := by rw [← hnd]
  obtain ⟨a1, a2, a3, a4, a5, a6⟩ := add_inv hadd
  have hold : ∀ (r : Nat) (nd : Node K), st.mem[r]? = some (some nd) → r < st.mem.length ∧
      ∃ nd', mem[r]? = some (some nd') ∧ SameKey nd' nd := by
    intro r nd hr
    have hlt := (List.getElem?_eq_some_iff.1 hr).1
    refine ⟨hlt, ?_⟩
    apply a2 r nd (by omega)
    rw [List.getElem?_append_left hlt]
    exact hr
  have hback : ∀ (r : Nat) (nd' : Node K), mem[r]? = some (some nd') →
      (∃ nd, st.mem[r]? = some (some nd) ∧ nd'.level = nd.level) ∨ (r = st.mem.length ∧ nd'.level = level + 1) := by
    intro r nd' hr
    obtain ⟨nd, h1, h2⟩ := a1 r nd' hr
    rw [List.getElem?_append] at h1
    split at h1
    · exact Or.inl ⟨nd, h1, h2.2.1⟩
    · rename_i hge
      rw [List.getElem?_singleton] at h1
      split at h1 <;> cases h1
      exact Or.inr ⟨by omega, by rw [h2.2.1, hlev]⟩
  have hlen : mem.length = st.mem.length + 1 := by rw [a3]; simp
  have live' : ∀ q ∈ queueContents st.heap, ∃ p, q = some p ∧ LiveNode mem p ∧ p < st.mem.length := by
    intro q hq'
    obtain ⟨p, rfl, nd, hp⟩ := hq.live q hq'
    obtain ⟨hlt, nd', h', _⟩ := hold p nd hp
    exact ⟨p, rfl, ⟨nd', h'⟩, hlt⟩
  have hsh' : ∀ b ∈ hash.buckets, ∀ q ∈ b, q < mem.length := by
    intro b hb q hqb
    rcases a5 b hb q hqb with h | ⟨bk, h1, h2⟩
    · omega
    · have := hq.hsh bk h1 q h2
      omega
  have top' : ∀ (p : Nat) (nd : Node K), mem[p]? = some (some nd) → nd.level ≤ st.lool + 1 := by
    intro p nd hp
    rcases hback p nd hp with ⟨nd0, h1, h2⟩ | ⟨_, h2⟩
    · rw [h2]; exact hq.top p nd0 h1
    · omega
  have plain : QInv (⟨mem, st.ws ++ [[]], st.heap, hash, st.lool, st.part, st.calls⟩ : Srch K) :=
    ⟨hq.null, fun q hq' => by obtain ⟨p, h1, h2, _⟩ := live' q hq'; exact ⟨p, h1, h2⟩, hq.nodup, hsh', top'⟩
  have out' : ∀ (h : Heap), queueContents h ≤ some st.mem.length ::ₘ queueContents st.heap → ∀ L, Out st L →
      Out (⟨mem, st.ws ++ [[]], h, hash, st.lool, st.part, st.calls⟩ : Srch K) L := by
    rintro h hsub L ⟨p, nd, h1, h2, h3⟩
    obtain ⟨hlt, nd', h4, h5⟩ := hold p nd h1
    refine ⟨p, nd', h4, by rw [h5.2.1, h2], fun hin => ?_⟩
    rcases Multiset.mem_cons.1 (Multiset.mem_of_le hsub hin) with h | h
    · cases h; omega
    · exact h3 h
  split at e
  · cases e
    exact ⟨plain, rfl, out' _ (Multiset.le_cons_self _ _)⟩
  · split at e
    · rename_i hnw
      obtain ⟨⟨heap, b⟩, hins, e⟩ := bind_inv e
      cases e
      obtain ⟨r1, r2⟩ := insert_sub plain.null plain.live hins
      have hmem := a4 hnw
      have hget : mem[st.mem.length]? = some (some ndn) := by
        rw [hmem]; simp
      refine ⟨⟨r1, ?_, ?_, hsh', top'⟩, rfl, out' _ r2⟩
      · intro q hq'
        rcases Multiset.mem_cons.1 (Multiset.mem_of_le r2 hq') with h | h
        · exact ⟨_, h, ndn, hget⟩
        · exact plain.live q h
      · refine Multiset.nodup_of_le r2 (Multiset.nodup_cons.2 ⟨?_, hq.nodup⟩)
        intro hin
        obtain ⟨p, h1, _, h2⟩ := live' _ hin
        cases h1
        omega
    · cases e
      exact ⟨plain, rfl, out' _ (Multiset.le_cons_self _ _)⟩

theorem branches_o {lm : Libm K} {c : Cfg K} {dim level : Nat} {ofnames : List Int} {weights : List (K × Int)}
    {wnorm margin : K} : ∀ {l : List Nat} {st st' : Srch K},
    l.foldlM (branch lm c dim level ofnames weights wnorm margin) st = .ok st' → QInv st → level ≤ st.lool →
    QInv st' ∧ st'.lool = st.lool ∧ (∀ L, Out st L → Out st' L) := by
  intro l
  induction l with
  | nil => intro st st' e hq _; cases e; exact ⟨hq, rfl, fun _ h => h⟩
  | cons i l ih =>
    intro st st' e hq hl
    rw [List.foldlM_cons] at e
    obtain ⟨s1, h1, e⟩ := bind_inv e
    obtain ⟨r1, r3, r4⟩ := branch_o h1 hq hl
    obtain ⟨q1, q3, q4⟩ := ih e r1 (by omega)
    exact ⟨q1, q3.trans r3, fun L h => q4 L (r4 L h)⟩

open Classical in
theorem closeLevel_o {c : Cfg K} {sample : Tbl K} {first : Bool} {st st' : Srch K}
    (e : closeLevel c sample first st = .ok st') (hq : QInv st) : ∀ L, Out st L → Out st' L := by
  unfold closeLevel at e
  split at e
  · obtain ⟨⟨m', h'⟩, hcut, e⟩ := bind_inv e
    cases e
    obtain ⟨m2, h2, e2, g1, g2, g3, g4, g5⟩ := cutLoop_spec st.lool c.cut ((19 / 20) * c.gMargin) st.heap.size st.mem st.heap
      le_rfl (good_of_live hq.live) hq.nodup
    rw [cutHeap, e2] at hcut
    cases hcut
    have hc : queueContents h' = (queueContents st.heap).filter
        (fun p => ¬ prunedAt st.lool c.cut ((19 / 20) * c.gMargin) st.mem p) := by
      have := g3
      rw [cont_empty _ (st.heap.size + 1) _ (by omega), add_zero] at this
      exact this
    rintro L ⟨p, nd, h1, h2, h3⟩
    refine ⟨p, nd, ?_, h2, ?_⟩
    · show m'[p]? = _
      rw [g5 p, if_neg (fun h => h3 h.1)]
      exact h1
    · show some p ∉ queueContents h'
      rw [hc, Multiset.mem_filter]
      exact fun h => h3 h.1
  · cases e
    exact fun _ h => h

theorem expand_o {lm : Libm K} {c : Cfg K} {srt : List (K × Int) → List (K × Int)} {sample : Tbl K} {w : List K}
    {margin : K} {level : Nat} {ofnames : List Int} {first : Bool} {st st' : Srch K}
    (e : expand lm c srt sample w margin level ofnames first st = .ok st') (hq : QInv st) (hl : level ≤ st.lool) :
    QInv st' ∧ st'.lool = st.lool ∧ (∀ L, Out st L → Out st' L) := by
  unfold expand at e
  obtain ⟨st1, h1, e⟩ := bind_inv e
  obtain ⟨ws, hws, e⟩ := bind_inv e
  obtain ⟨r1, r2, r3, _, _⟩ := closeLevel_q h1 hq
  obtain ⟨q1, q3, q4⟩ := branches_o e r1 (by omega)
  exact ⟨q1, q3.trans r3, fun L h => q4 L (closeLevel_o h1 hq L h)⟩

/-- One round: the queue stays one of distinct live nodes, and of every level reached a node is outside of it. -/
theorem mainLoop_o {lm : Libm K} {c : Cfg K} {srt : List (K × Int) → List (K × Int)}
    {learn : Nat → Tbl K → Bool × List K × K} {sample : Tbl K} {st st' : Srch K} {l0 : Nat}
    (e : mainLoop lm c srt learn sample st = .ok st') (hq : QInv st) (ho : ∀ L, l0 < L → L ≤ st.lool → Out st L) :
    QInv st' ∧ (∀ L, l0 < L → L ≤ st'.lool → Out st' L) := by
  unfold mainLoop at e
  split at e
  · simp only at e
    obtain ⟨r1, r3, r4⟩ := expand_o e ⟨hq.null, hq.live, hq.nodup, hq.hsh, hq.top⟩ (Nat.zero_le _)
    refine ⟨r1, fun L h1 h2 => r4 L ?_⟩
    have r3 : st'.lool = st.lool := r3
    exact ho L h1 (by omega)
  rename_i hs
  obtain ⟨⟨heap, p⟩, hpop, e⟩ := bind_inv e
  simp only at e
  obtain ⟨nd, hnd, e⟩ := bind_inv e
  obtain ⟨c1, c2⟩ := pop_cont hq.null hq.live hs hpop
  obtain ⟨q, rfl, hmq⟩ := deref_inv hnd
  have hlive : ∀ x ∈ queueContents heap, ∃ p, x = some p ∧ LiveNode st.mem p :=
    fun x hx => hq.live x (by rw [c2]; exact Multiset.mem_cons_of_mem hx)
  have hnd2 := hq.nodup
  rw [c2, Multiset.nodup_cons] at hnd2
  have hlt : q < st.mem.length := (List.getElem?_eq_some_iff.1 hmq).1
  have htop := hq.top q nd hmq
  have key : ∀ (nd' : Node K) (w : List K) (margin : K) (s : Srch K), nd'.level = nd.level → QInv s → s.lool = st.lool →
      (∀ L, l0 < L → L ≤ st.lool → Out s L) → Out s nd.level →
      expandNode lm c srt sample w margin nd' s = .ok st' →
      QInv st' ∧ (∀ L, l0 < L → L ≤ st'.lool → Out st' L) := by
    intro nd' w margin s hl hqs hlool hout hself he
    unfold expandNode at he
    rw [hl] at he
    split at he
    · rename_i hgt
      rw [hlool] at hgt
      have hqs' : QInv ({ s with lool := nd.level } : Srch K) :=
        ⟨hqs.null, hqs.live, hqs.nodup, hqs.hsh, fun p nd1 hp => by
          have := hqs.top p nd1 hp
          show nd1.level ≤ nd.level + 1
          omega⟩
      obtain ⟨r1, r3, r4⟩ := expand_o he hqs' le_rfl
      have r3 : st'.lool = nd.level := r3
      refine ⟨r1, fun L h1 h2 => r4 L ?_⟩
      show Out s L
      by_cases hL : L ≤ st.lool
      · exact hout L h1 hL
      · have : L = nd.level := by omega
        rw [this]; exact hself
    · rename_i hgt
      rw [hlool] at hgt
      obtain ⟨r1, r3, r4⟩ := expand_o he hqs (by omega)
      exact ⟨r1, fun L h1 h2 => r4 L (hout L h1 (by omega))⟩
  have hqpop : QInv ({ st with heap := heap } : Srch K) := ⟨c1, hlive, hnd2.2, hq.hsh, hq.top⟩
  have hopop : ∀ L, Out st L → Out ({ st with heap := heap } : Srch K) L := by
    rintro L ⟨p, nd1, h1, h2, h3⟩
    exact ⟨p, nd1, h1, h2, fun h => h3 (by rw [c2]; exact Multiset.mem_cons_of_mem h)⟩
  split at e
  · cases e
    exact ⟨hqpop, fun L h1 h2 => hopop L (ho L h1 h2)⟩
  · split at e
    · obtain ⟨w, _, e⟩ := bind_inv e
      exact key nd w nd.rgamma { st with heap := heap } rfl hqpop rfl (fun L h1 h2 => hopop L (ho L h1 h2))
        ⟨q, nd, hmq, rfl, hnd2.1⟩ e
    · split at e
      · cases e
        exact ⟨⟨c1, hlive, hnd2.2, hq.hsh, hq.top⟩, fun L h1 h2 => hopop L (ho L h1 h2)⟩
      · obtain ⟨top, _, e⟩ := bind_inv e
        simp only [Option.getD_some] at e
        generalize hnn : ({ nd with value := (learn st.calls sample).2.2, rgamma := (learn st.calls sample).2.2 } : Node K) = ndn at e
        have hlvn : ndn.level = nd.level := by rw [← hnn]
        have hself : (store st.mem q ndn)[q]? = some (some ndn) := List.getElem?_set_self hlt
        have hother : ∀ r, r ≠ q → (store st.mem q ndn)[r]? = st.mem[r]? := fun r hr => List.getElem?_set_ne (Ne.symm hr)
        have hlive2 : ∀ x, (∃ p, x = some p ∧ LiveNode st.mem p) → ∃ p, x = some p ∧ LiveNode (store st.mem q ndn) p := by
          rintro x ⟨p, rfl, nd1, hp⟩
          by_cases hpq : p = q
          · exact ⟨p, rfl, ndn, by rw [hpq]; exact hself⟩
          · exact ⟨p, rfl, nd1, by rw [hother p hpq]; exact hp⟩
        have htop2 : ∀ (p : Nat) (nd1 : Node K), (store st.mem q ndn)[p]? = some (some nd1) → nd1.level ≤ st.lool + 1 := by
          intro p nd1 hp
          by_cases hpq : p = q
          · rw [hpq, hself] at hp
            cases hp
            rw [hlvn]
            exact hq.top q nd hmq
          · rw [hother p hpq] at hp
            exact hq.top p nd1 hp
        have hhash2 : ∀ b ∈ st.hash.buckets, ∀ x ∈ b, x < (store st.mem q ndn).length := by
          intro b hb' x hx
          simpa [store] using hq.hsh b hb' x hx
        have hqst : QInv (⟨store st.mem q ndn, st.ws, heap, st.hash, st.lool, st.part, st.calls + 1⟩ : Srch K) :=
          ⟨c1, fun x hx => hlive2 x (hlive x hx), hnd2.2, hhash2, htop2⟩
        -- a node outside of the queue before the pop is not the popped one
        have hout2 : ∀ (h2 : Heap), queueContents h2 ≤ some q ::ₘ queueContents heap → ∀ (ws : List (List K)) L, Out st L →
            Out (⟨store st.mem q ndn, ws, h2, st.hash, st.lool, st.part, st.calls + 1⟩ : Srch K) L := by
          rintro h2 hsub ws L ⟨p, nd1, h1, h2', h3⟩
          rw [c2] at h3
          have hpq : p ≠ q := by
            rintro rfl
            exact h3 (Multiset.mem_cons_self _ _)
          exact ⟨p, nd1, (hother p hpq).trans h1, h2', fun h => h3 (Multiset.mem_of_le hsub h)⟩
        split at e
        · obtain ⟨ws, _, e⟩ := bind_inv e
          obtain ⟨⟨h2, b2⟩, hins, e⟩ := bind_inv e
          cases e
          obtain ⟨i1, i2⟩ := insert_sub hqst.null hqst.live hins
          refine ⟨⟨i1, ?_, ?_, hhash2, htop2⟩, fun L h1 h2 => hout2 _ i2 ws L (ho L h1 h2)⟩
          · intro x hx
            rcases Multiset.mem_cons.1 (Multiset.mem_of_le i2 hx) with h | h
            · exact ⟨q, h, ndn, hself⟩
            · exact hqst.live x h
          · exact Multiset.nodup_of_le i2 (Multiset.nodup_cons.2 ⟨hnd2.1, hnd2.2⟩)
        · exact key ndn _ _ ⟨store st.mem q ndn, st.ws, heap, st.hash, st.lool, st.part, st.calls + 1⟩ hlvn hqst rfl
            (fun L h1 h2 => hout2 heap (Multiset.le_cons_self _ _) st.ws L (ho L h1 h2)) ⟨q, ndn, hself, hlvn, hnd2.1⟩ e

theorem searchEnd_o {lm : Libm K} {c : Cfg K} {srt : List (K × Int) → List (K × Int)}
    {learn : Nat → Tbl K → Bool × List K × K} {samples : Tbl K} {l0 : Nat} :
    ∀ {n : Nat} {f : Bool} {st st' : Srch K} {d : Tbl K}, searchEnd lm c srt learn samples n f st = .ok (d, st') →
      QInv st → (∀ L, l0 < L → L ≤ st.lool → Out st L) → QInv st' ∧ (∀ L, l0 < L → L ≤ st'.lool → Out st' L) := by
  intro n
  induction n with
  | zero => intro f st st' d e; cases e
  | succ n ih =>
    intro f st st' d e hq ho
    rw [searchEnd] at e
    split at e
    · split at e
      · cases e; exact ⟨hq, ho⟩
      · obtain ⟨s1, h1, e⟩ := bind_inv e
        obtain ⟨r1, r2⟩ := mainLoop_o h1 hq ho
        split at e
        · cases e; exact ⟨r1, r2⟩
        · exact ih e r1 r2
    · obtain ⟨nd, hnd, e⟩ := bind_inv e
      obtain ⟨⟨dd, b⟩, hrem, e⟩ := bind_inv e
      simp only at e
      split at e
      · cases e; exact ⟨hq, ho⟩
      · obtain ⟨s1, h1, e⟩ := bind_inv e
        obtain ⟨r1, r2⟩ := mainLoop_o h1 hq ho
        exact ih e r1 r2

omit [Field K] [LinearOrder K] in
theorem freeFrom_ok (a : Arr) : ∀ (n i : Nat) (m : Nodes K), (∀ j, i ≤ j → j < i + n → ∃ p, a j = some p ∧ LiveNode m p) →
    (∀ j k, i ≤ j → j < i + n → i ≤ k → k < i + n → a j = a k → j = k) →
    ∃ m', freeFrom a n i m = .ok m' ∧ m'.length = m.length ∧
      (∀ j, i ≤ j → j < i + n → ∀ p, a j = some p → m'[p]? = some none) ∧
      (∀ p : Nat, (∀ j, i ≤ j → j < i + n → a j ≠ some p) → m'[p]? = m[p]?) := by
  intro n
  induction n with
  | zero => intro i m _ _; exact ⟨m, rfl, rfl, fun j _ _ => by omega, fun _ _ => rfl⟩
  | succ n ih =>
    intro i m hl hn
    obtain ⟨p, hp, hlive⟩ := hl i le_rfl (by omega)
    have hplt : p < m.length := by
      obtain ⟨nd, h⟩ := hlive
      exact (List.getElem?_eq_some_iff.1 h).1
    obtain ⟨m', e, r1, r2, r3⟩ := ih (i + 1) (m.set p none) (by
      intro j h1 h2
      obtain ⟨q, hq, nd, hnd⟩ := hl j (by omega) (by omega)
      refine ⟨q, hq, nd, ?_⟩
      have : p ≠ q := by
        rintro rfl
        have := hn i j le_rfl (by omega) (by omega) (by omega) (hp.trans hq.symm)
        omega
      rw [List.getElem?_set_ne this, hnd]) (fun j k h1 h2 h3 h4 h5 => hn j k (by omega) (by omega) (by omega) (by omega) h5)
    refine ⟨m', ?_, by rw [r1, List.length_set], ?_, ?_⟩
    · rw [freeFrom, hp, free_ok hlive, Res_bind_ok, e]
    · intro j h1 h2 q hq
      by_cases hj : j = i
      · subst hj
        rw [hp] at hq
        cases hq
        rw [r3 p, List.getElem?_set_self hplt]
        intro k h3 h4 h5
        have := hn j k le_rfl (by omega) (by omega) (by omega) (hp.trans h5.symm)
        omega
      · exact r2 j (by omega) (by omega) q hq
    · intro q hq
      rw [r3 q (fun j h1 h2 => hq j (by omega) (by omega)), List.getElem?_set_ne]
      rintro rfl
      exact hq i le_rfl (by omega) hp

omit [Field K] [LinearOrder K] in
theorem cont_inj {a : Arr} {n : Nat} (h : (cont a 1 n).Nodup) : ∀ j k, 1 ≤ j → j ≤ n → 1 ≤ k → k ≤ n → a j = a k → j = k := by
  intro j k h1 h2 h3 h4 h5
  exact Multiset.inj_on_of_nodup_map h j (Finset.mem_Icc.2 ⟨h1, h2⟩) k (Finset.mem_Icc.2 ⟨h3, h4⟩) h5

end
end MLTK.Aos
