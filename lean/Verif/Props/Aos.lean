import Mathlib.Data.List.Sort
import Mathlib.Algebra.Order.Field.Rat
import Mathlib.Tactic.Ring
import Verif.Lemmas.Aos
/-!
# Properties of the search structures of the ordered feature selection (C56-C58, C88-C90)
-/
namespace MLTK.Props
open MLTK.Aos
open MLTK.Spec
open MLTK.Data (Res_bind_ok Res_bind_error Res_pure)

section
variable {K : Type} [Field K] [LinearOrder K]

/-! ### C56 -/

theorem run_queue_history (cap : Nat) (m : Nodes K) :
    ∀ (ops : List QOp) (h : Heap) (pending : Multiset Nat), Inv m h → queueContents h = pending.map some →
      BelowCapacity cap h.size ops → (∀ p, QOp.insert p ∈ ops → LiveNode m p) →
      ∃ h' es final, runQueue cap m h ops = .ok (h', es) ∧ es.map QEvent.op = ops ∧
        QHistory (nodeValue m) pending es final ∧ queueContents h' = final.map some ∧ Inv m h' := by
  intro ops
  induction ops with
  | nil => intro h pending hI hp _ _; exact ⟨h, [], pending, rfl, rfl, .done _, hp, hI⟩
  | cons op ops ih =>
    intro h pending hI hp hb hl
    cases op with
    | insert p =>
      obtain ⟨h1, e1, s1, I1, c1⟩ := insert_spec cap m h hI p (hl p (by simp)) (by have := hb.1; omega)
      obtain ⟨h', es, final, e2, o2, q2, c2, I2⟩ := ih h1 (p ::ₘ pending) I1
        (by rw [c1, hp, Multiset.map_cons]) (by rw [s1]; exact hb.2) (fun q hq => hl q (by simp [hq]))
      refine ⟨h', .inserted p :: es, final, ?_, by simp [o2, QEvent.op], .insert p _ _ _ q2, c2, I2⟩
      rw [runQueue, e1]
      simp only [e2]
    | pop =>
      by_cases h0 : h.size = 0
      · have hpend : pending = 0 := by
          have h1 : cont h.elements 1 h.size = pending.map some := hp
          rw [h0, cont_empty _ _ _ (by omega)] at h1
          exact Multiset.map_eq_zero.mp h1.symm
        subst hpend
        have e1 : pop m h = .ok (h, none) := by unfold pop; rw [if_pos h0]
        obtain ⟨h', es, final, e2, o2, q2, c2, I2⟩ := ih h 0 hI hp
          (by have hb' : BelowCapacity cap (h.size - 1) ops := hb
              rw [h0] at hb' ⊢; exact hb') (fun q hq => hl q (by simp [hq]))
        refine ⟨h', .popped none :: es, final, ?_, by simp [o2, QEvent.op], .popEmpty _ _ q2, c2, I2⟩
        rw [runQueue, e1]
        simp only [e2]
      · obtain ⟨h1, p, e1, s1, I1, c1, mx⟩ := pop_spec m h hI h0
        have hmem : some p ∈ pending.map some := by rw [← hp, c1]; exact Multiset.mem_cons_self _ _
        obtain ⟨p', hp', hpe⟩ := Multiset.mem_map.mp hmem
        cases hpe
        obtain ⟨rest, hrest⟩ := Multiset.exists_cons_of_mem hp'
        subst hrest
        have hc : queueContents h1 = rest.map some := by
          have h2 := c1
          rw [hp, Multiset.map_cons] at h2
          exact ((Multiset.cons_inj_right _).mp h2).symm
        obtain ⟨h', es, final, e2, o2, q2, c2, I2⟩ := ih h1 rest I1 hc
          (by rw [s1]; exact hb) (fun q hq => hl q (by simp [hq]))
        refine ⟨h', .popped (some p) :: es, final, ?_, by simp [o2, QEvent.op], .pop p _ _ _ ?_ q2, c2, I2⟩
        · rw [runQueue, e1]
          simp only [e2]
        · intro q hq
          apply mx q
          rw [hp]
          exact Multiset.mem_map_of_mem some hq

/-- C56: every sequence of inserts of live nodes and pops that starts with the empty queue and stays below
capacity runs without fault; each pop returns a node of maximal value among those inserted and not yet
popped (null when there is none), and at the end the queue holds exactly those that remain. -/
theorem C56_priority_queue (cap : Nat) (m : Nodes K) (ops : List QOp) (hb : BelowCapacity cap 0 ops)
    (hl : ∀ p, QOp.insert p ∈ ops → LiveNode m p) :
    ∃ h es final, runQueue cap m Heap.new ops = .ok (h, es) ∧ es.map QEvent.op = ops ∧
      QHistory (nodeValue m) 0 es final ∧ queueContents h = final.map some := by
  obtain ⟨h, es, final, e, o, q, c, _⟩ := run_queue_history cap m ops Heap.new 0 (inv_new m) rfl hb hl
  exact ⟨h, es, final, e, o, q, c⟩

theorem reached_inv {cap : Nat} {m : Nodes K} {h : Heap} (hr : ReachedQueue cap m h) : Inv m h := by
  obtain ⟨ops, es, hb, hl, e⟩ := hr
  obtain ⟨h', es', _, e', _, _, _, hI⟩ := run_queue_history cap m ops Heap.new 0 (inv_new m) rfl hb hl
  rw [e] at e'
  cases e'
  exact hI

theorem inv_contents {m : Nodes K} {h : Heap} (hI : Inv m h) : ∃ pending : Multiset Nat, queueContents h = pending.map some := by
  refine ⟨(queueContents h).map (fun q => q.getD 0), ?_⟩
  rw [Multiset.map_map]
  conv_lhs => rw [← Multiset.map_id (queueContents h)]
  apply Multiset.map_congr rfl
  intro q hq
  obtain ⟨i, h1, h2, h3⟩ := mem_cont.mp hq
  obtain ⟨p, hp, _⟩ := hI.good i h1 h2
  rw [h3] at hp
  subst hp
  rfl

theorem inv_priority (cap : Nat) {m : Nodes K} {h : Heap} (hI : Inv m h) : PriorityQueue cap m h := by
  obtain ⟨pending, hp⟩ := inv_contents hI
  refine ⟨pending, hp, ?_⟩
  intro ops hb hl
  obtain ⟨h', es, final, e, o, q, c, _⟩ := run_queue_history cap m ops h pending hI hp hb hl
  exact ⟨h', es, final, e, o, q, c⟩

omit [LinearOrder K] in
theorem live_good {m : Nodes K} {h : Heap} (hl : LiveQueue m h) : Good m h.elements 1 h.size :=
  fun i h1 h2 => hl.1 _ (mem_cont.mpr ⟨i, h1, h2, rfl⟩)

end

/-- A node with the given level, names and value. -/
def mkNode (level : Nat) (fnames : List Int) (value : ℚ) : Option (Node ℚ) :=
  some { fnames := fnames, level := level, value := value, pgamma := value, rgamma := -1 }

/-- Four nodes of values 3, 9, 5 and 9. -/
def fourNodes : Nodes ℚ := [mkNode 1 [1] 3, mkNode 1 [2] 9, mkNode 1 [3] 5, mkNode 1 [4] 9]

/-- Calls on them. -/
def someCalls : List QOp := [.insert 0, .insert 1, .pop, .insert 2, .insert 3, .pop, .pop, .pop, .pop]

example : BelowCapacity 3 0 someCalls ∧ (∀ p, QOp.insert p ∈ someCalls → LiveNode fourNodes p) ∧
    (runQueue 3 fourNodes Heap.new someCalls).map (·.2) = .ok [.inserted 0, .inserted 1, .popped (some 1),
      .inserted 2, .inserted 3, .popped (some 3), .popped (some 2), .popped (some 0), .popped none] := by
  refine ⟨by simp [BelowCapacity, someCalls], ?_, by decide +kernel⟩
  intro p hp
  simp only [someCalls, List.mem_cons, QOp.insert.injEq, reduceCtorEq, List.not_mem_nil, or_false, false_or] at hp
  rcases hp with rfl | rfl | rfl | rfl <;> exact ⟨_, rfl⟩

section
variable {K : Type} [Field K] [LinearOrder K]

/-! ### C90 -/

/-- C90: inserting into a full queue keeps it a priority queue; the node goes in exactly when its value is
above that of the node in the last position, which it replaces. -/
theorem C90_full_queue_partial (cap : Nat) (m : Nodes K) (h : Heap) (hR : ReachedQueue cap m h) (p : Nat)
    (hp : LiveNode m p) (hs : h.size = cap) (hc : 0 < cap) :
    ∃ h' b last, insert cap m h p = .ok (h', b) ∧ h'.size = cap ∧ PriorityQueue cap m h' ∧ some last ∈ queueContents h ∧
      (b = true ↔ nodeValue m last < nodeValue m p) ∧ (b = false → h' = h) ∧
      (b = true → some last ::ₘ queueContents h' = some p ::ₘ queueContents h) := by
  have hI := reached_inv hR
  obtain ⟨last, hlast, _⟩ := hI.good cap hc (by omega)
  obtain ⟨h', b, e, s, I, h1, h2, h3⟩ := insert_full cap m h hI p hp hs hc
  rw [hlast] at h1 h3
  refine ⟨h', b, last, e, s, inv_priority cap I, mem_cont.mpr ⟨cap, hc, by omega, hlast⟩, h1, h2, ?_⟩
  intro hb
  rw [← h3 hb, ← Multiset.singleton_add, add_comm]

end

/-- Three nodes of values 9, 1, 5 in a full queue, and one of value 6. -/
def fullNodes : Nodes ℚ := [mkNode 1 [1] 9, mkNode 1 [2] 1, mkNode 1 [3] 5, mkNode 1 [4] 6]

/-- C90 refuted: the node that is dropped need not be the worst one: here the node of value 5 is dropped
while the one of value 1 stays. -/
theorem C90_worst_dropped_refuted :
    ∃ (m : Nodes ℚ) (h h' : Heap) (es : List QEvent), runQueue 3 m Heap.new [.insert 0, .insert 1, .insert 2] = .ok (h, es) ∧
      insert 3 m h 3 = .ok (h', true) ∧ nodeValue m 1 < nodeValue m 2 ∧
      some 2 ∉ queueContents h' ∧ some 1 ∈ queueContents h' := by
  refine ⟨fullNodes, _, _, _, rfl, rfl, by decide +kernel, by decide +kernel, by decide +kernel⟩

/-! ### C57 -/

section
variable {K : Type} [Field K] [LinearOrder K]

open Classical in
/-- C57: cutting a queue of distinct live nodes removes and deletes exactly the nodes below the level that are
under the threshold or too far above, and leaves all others in the queue.  (The order is lost, see below.) -/
theorem C57_contents_partial (levelat cut : Nat) (thr : K) (m : Nodes K) (h : Heap) (hq : LiveQueue m h) :
    ∃ m' h', cutHeap levelat cut thr m h = .ok (m', h') ∧ m'.length = m.length ∧
      (∀ p, some p ∈ queueContents h' ↔ some p ∈ queueContents h ∧ ∃ nd, m[p]? = some (some nd) ∧
        ¬ (nd.level < levelat ∧ (nd.value < thr ∨ cut ≤ levelat - nd.level))) ∧
      LiveQueue m' h' ∧
      (∀ p nd, some p ∈ queueContents h → m[p]? = some (some nd) →
        nd.level < levelat → (nd.value < thr ∨ cut ≤ levelat - nd.level) → m'[p]? = some none) ∧
      (∀ p, some p ∈ queueContents h' ∨ some p ∉ queueContents h → m'[p]? = m[p]?) := by
  have hdec : ∀ nd : Node K, pruned levelat cut thr nd = true ↔
      nd.level < levelat ∧ (nd.value < thr ∨ cut ≤ levelat - nd.level) := by
    intro nd
    simp [pruned]
  have hgood := live_good hq
  have hn := hq.2
  obtain ⟨m', h', e, hg, _, hc, hlen, hm⟩ := cutLoop_spec levelat cut thr h.size m h le_rfl hgood hn
  rw [cont_empty h.elements (h.size + 1) h.size (by omega), add_zero] at hc
  have hmem : ∀ p, some p ∈ queueContents h' ↔ some p ∈ queueContents h ∧ ¬ prunedAt levelat cut thr m (some p) := by
    intro p
    show some p ∈ cont h'.elements 1 h'.size ↔ some p ∈ cont h.elements 1 h.size ∧ _
    rw [hc, Multiset.mem_filter]
  have hlive : ∀ p, some p ∈ queueContents h → ∃ nd, m[p]? = some (some nd) := by
    intro p hp
    obtain ⟨i, h1, h2, h3⟩ := mem_cont.mp hp
    obtain ⟨q, hq, nd, hnd⟩ := hgood i h1 h2
    rw [h3] at hq
    cases hq
    exact ⟨nd, hnd⟩
  refine ⟨m', h', e, hlen, ?_, ?_, ?_, ?_⟩
  · intro p
    rw [hmem p]
    constructor
    · rintro ⟨h1, h2⟩
      obtain ⟨nd, hnd⟩ := hlive p h1
      exact ⟨h1, nd, hnd, fun hcon => h2 ⟨p, nd, rfl, hnd, (hdec nd).mpr hcon⟩⟩
    · rintro ⟨h1, nd, hnd, h2⟩
      refine ⟨h1, ?_⟩
      rintro ⟨q, nq, h3, h4, h5⟩
      cases h3
      rw [hnd] at h4
      cases h4
      exact h2 ((hdec nd).mp h5)
  · refine ⟨?_, ?_⟩
    · intro q hq'
      obtain ⟨i, h1, h2, h3⟩ := mem_cont.mp hq'
      rw [← h3]
      exact hg i h1 h2
    · show (cont h'.elements 1 h'.size).Nodup
      rw [hc]
      exact hn.filter _
  · intro p nd hp hnd h1 h2
    rw [hm p, if_pos ⟨hp, p, nd, rfl, hnd, (hdec nd).mpr ⟨h1, h2⟩⟩]
  · intro p hp
    rw [hm p, if_neg]
    rintro ⟨h1, h2⟩
    rcases hp with hp | hp
    · exact ((hmem p).mp hp).2 h2
    · exact hp h1

end

/-- Seven nodes; the one of value 40 is of the level above. -/
def cutNodes : Nodes ℚ := [mkNode 2 [2, 1] 100, mkNode 2 [3, 1] 50, mkNode 2 [4, 1] 90, mkNode 1 [1] 40, mkNode 2 [5, 1] 45,
  mkNode 2 [6, 1] 80, mkNode 2 [7, 1] 85]

/-- The calls that put them into the queue. -/
def cutCalls : List QOp := [.insert 0, .insert 1, .insert 2, .insert 3, .insert 4, .insert 5, .insert 6]

/-- C57 refuted: cutting one node moves the node of value 85 under that of value 50; the first two pops return
100 and 90, the third returns 80 although 85 is still there. -/
theorem C57_order_refuted :
    ∃ (m m' : Nodes ℚ) (h h' h1 h2 h3 : Heap) (es : List QEvent) (p1 p2 p3 q : Nat),
      runQueue 10 m Heap.new cutCalls = .ok (h, es) ∧ cutHeap 2 1 0 m h = .ok (m', h') ∧
      pop m' h' = .ok (h1, some p1) ∧ pop m' h1 = .ok (h2, some p2) ∧ pop m' h2 = .ok (h3, some p3) ∧
      some q ∈ queueContents h3 ∧ nodeValue m' p3 < nodeValue m' q := by
  refine ⟨cutNodes, _, _, _, _, _, _, _, 0, 2, 5, 6, rfl, rfl, rfl, rfl, rfl, by decide +kernel, by decide +kernel⟩

example : ∃ (m' : Nodes ℚ) (h h' : Heap) (es : List QEvent),
    runQueue 10 cutNodes Heap.new cutCalls = .ok (h, es) ∧ cutHeap 2 1 0 cutNodes h = .ok (m', h') ∧
      h.size = 7 ∧ h'.size = 6 ∧ m'[3]? = some none :=
  ⟨_, _, _, _, rfl, rfl, rfl, rfl, by decide +kernel⟩

/-! ### C58 -/

section
variable {K : Type} [Field K] [LinearOrder K]

theorem hinv_new (m : Nodes K) (length width : Nat) : HInv m (Hash.new length width) := by
  intro idx b hb q hq
  have : b ∈ (Hash.new length width).buckets := List.mem_of_getElem? hb
  simp only [Hash.new, List.mem_replicate] at this
  rw [this.2] at hq
  cases hq

theorem inTable_new (m : Nodes K) (length width : Nat) (k : Key) : ¬ InTable m (Hash.new length width) k := by
  rintro ⟨idx, b, q, hb, hq, _⟩
  have : b ∈ (Hash.new length width).buckets := List.mem_of_getElem? hb
  simp only [Hash.new, List.mem_replicate] at this
  rw [this.2] at hq
  cases hq

omit [Field K] [LinearOrder K] in
theorem same_state_iff (a b : Node K) (ha : WellFormed a) (hb : WellFormed b) : sameState a b ↔ key a = key b := by
  unfold sameState key
  rw [Prod.mk.injEq]
  constructor
  · rintro ⟨h1, h2⟩
    refine ⟨h1, ?_⟩
    exact ha.2.eq_of_mem_iff hb.2 (fun {x} => h2 x)
  · rintro ⟨h1, h2⟩
    exact ⟨h1, fun f => by rw [h2]⟩

/-- C58: whatever states are added to an empty table, one after the other, each in its own new node whose
features are in decreasing order (as the search makes them): either some bucket was full and the program
exited, which needs more than `width` additions, or each addition reported the state as new exactly when no
state with the same features and level was added before. -/
theorem C58_visited_partial (m : Nodes K) (length width : Nat) (hL : 0 < length) (ps : List Nat) (hnd : ps.Nodup)
    (nodes : List (Node K)) (hp : ps.map (fun p => m[p]?) = nodes.map (fun nd => some (some nd)))
    (hw : ∀ nd ∈ nodes, WellFormed nd) :
    (∃ m' h' flags, addStates m (Hash.new length width) ps = .ok (m', h', flags) ∧ flags.length = ps.length ∧
      ∀ (i : Nat) (nd : Node K), nodes[i]? = some nd →
        (flags[i]? = some true ↔ ∀ (j : Nat) (nd' : Node K), j < i → nodes[j]? = some nd' → ¬ sameState nd' nd)) ∨
    (addStates m (Hash.new length width) ps = .error .exit1 ∧ width < ps.length) := by
  have hlen : ps.length = nodes.length := by
    have := congrArg List.length hp
    simpa using this
  rcases addStates_ok ps m (Hash.new length width) (nodes.map key) (fun _ => False) 0 (hinv_new m length width)
    (by simpa [Hash.new] using hL) (fun k => by simp [inTable_new]) hnd
    (by
      intro p _ b hb
      simp only [Hash.new, List.mem_replicate] at hb
      rw [hb.2]; simp)
    (by
      intro b hb
      simp only [Hash.new, List.mem_replicate] at hb
      rw [hb.2]; simp)
    (by
      rw [List.map_map]
      have h1 : ps.map (keyOf m) = (ps.map (fun p => m[p]?)).map (Option.map (Option.map key)) := by
        rw [List.map_map]; rfl
      rw [h1, hp, List.map_map]
      rfl)
    (by
      intro k hk
      obtain ⟨nd, hnd, rfl⟩ := List.mem_map.mp hk
      exact (hw nd hnd).1) with ⟨m', h', bs, e, hl, hb⟩ | ⟨e, hl⟩
  · left
    refine ⟨m', h', bs, e, by rw [hl, hlen, List.length_map], ?_⟩
    intro i nd hi
    rw [hb i (key nd) (by rw [List.getElem?_map, hi]; rfl)]
    have hndw := hw nd (List.mem_of_getElem? hi)
    constructor
    · rintro ⟨_, h2⟩ j nd' hj hnj hs
      apply h2 j hj
      rw [List.getElem?_map, hnj, Option.map_some, (same_state_iff nd' nd (hw nd' (List.mem_of_getElem? hnj)) hndw).mp hs]
    · intro h2
      refine ⟨fun h => h, ?_⟩
      intro j hj hcon
      rw [List.getElem?_map] at hcon
      match hnj : nodes[j]? with
      | none => rw [hnj] at hcon; cases hcon
      | some nd' =>
        rw [hnj, Option.map_some, Option.some.injEq] at hcon
        exact h2 j nd' hj hnj ((same_state_iff nd' nd (hw nd' (List.mem_of_getElem? hnj)) hndw).mpr hcon)
  · right
    simp only [Hash.new, Nat.zero_add] at hl
    exact ⟨e, hl⟩

end

/-- States 2,1 / 3 / 2,1 again / 2. -/
def visitNodes : Nodes ℚ := [mkNode 2 [2, 1] 1, mkNode 1 [3] 1, mkNode 2 [2, 1] 4, mkNode 1 [2] 1]

example : (∀ nd ∈ [(⟨[2, 1], 2, 1, 1, -1⟩ : Node ℚ), ⟨[3], 1, 1, 1, -1⟩, ⟨[2, 1], 2, 4, 4, -1⟩, ⟨[2], 1, 1, 1, -1⟩],
      WellFormed nd) ∧ [0, 1, 2, 3].Nodup ∧
    (addStates visitNodes (Hash.new 4 3) [0, 1, 2, 3]).map (·.2.2) = .ok [true, true, false, true] := by
  refine ⟨?_, by decide, by decide +kernel⟩
  simp [WellFormed]

/-- C58 refuted for features in any order: the same features in another order are reported as new. -/
theorem C58_unsorted_refuted :
    ∃ (m m' : Nodes ℚ) (h' : Hash) (a b : Node ℚ), m[0]? = some (some a) ∧ m[1]? = some (some b) ∧ sameState a b ∧
      addStates m (Hash.new 5 3) [0, 1] = .ok (m', h', [true, true]) := by
  refine ⟨[mkNode 2 [2, 1] 1, mkNode 2 [1, 2] 1], _, _, _, _, rfl, rfl, ?_, rfl⟩
  refine ⟨rfl, ?_⟩
  intro f
  simp [or_comm]

theorem hkey_single (x : Int) : hkey (1, [x]) = (x * x).toNat := by
  simp [hkey, List.range_succ]

/-- C58 refuted: a new state whose bucket is full ends the program instead of being added. -/
theorem C58_full_bucket_refuted (length : Nat) (hL : 0 < length) :
    ∃ (m : Nodes ℚ), (∀ (p : Nat) (nd : Node ℚ), m[p]? = some (some nd) → WellFormed nd) ∧
      addStates m (Hash.new length 1) [0, 1] = .error .exit1 := by
  have hi : ∀ x : Int, (length : Int) ∣ x * x → 0 ≤ x → (x * x).toNat % length = 0 := by
    intro x hx _
    obtain ⟨y, hy⟩ := hx
    apply Nat.mod_eq_zero_of_dvd
    rw [← Int.natCast_dvd_natCast, Int.toNat_of_nonneg (mul_self_nonneg x)]
    exact ⟨y, hy⟩
  refine ⟨[mkNode 1 [length] 1, mkNode 1 [2 * length] 1], ?_, ?_⟩
  · intro p nd hp
    rcases p with _ | _ | p
    · simp only [mkNode, List.getElem?_cons_zero, Option.some.injEq] at hp
      subst hp
      simp [WellFormed]
    · simp only [mkNode, List.getElem?_cons_succ, List.getElem?_cons_zero, Option.some.injEq] at hp
      subst hp
      simp [WellFormed]
    · simp at hp
  · obtain ⟨l, rfl⟩ : ∃ l, length = l + 1 := ⟨length - 1, by omega⟩
    have h1 : hashIndex (⟨[((l + 1 : Nat) : Int)], 1, 1, 1, -1⟩ : Node ℚ) (l + 1) = .ok 0 := by
      rw [hashIndex_ok _ _ hL rfl]
      show Except.ok (hkey (1, _) % _) = _
      rw [hkey_single, hi _ (Dvd.intro _ rfl) (by omega)]
    have h2 : hashIndex (⟨[2 * ((l + 1 : Nat) : Int)], 1, 1, 1, -1⟩ : Node ℚ) (l + 1) = .ok 0 := by
      rw [hashIndex_ok _ _ hL rfl]
      show Except.ok (hkey (1, _) % _) = _
      rw [hkey_single, hi _ ⟨4 * ((l + 1 : Nat) : Int), by ring⟩ (by omega)]
    have hne : (2 * ((l + 1 : Nat) : Int)) ≠ ((l + 1 : Nat) : Int) := by omega
    have a1 : add [mkNode 1 [((l + 1 : Nat) : Int)] 1, mkNode 1 [2 * ((l + 1 : Nat) : Int)] 1] (Hash.new (l + 1) 1) 0 =
        .ok ([mkNode 1 [((l + 1 : Nat) : Int)] 1, mkNode 1 [2 * ((l + 1 : Nat) : Int)] 1],
          { buckets := [0] :: List.replicate l [], width := 1 }, true) := by
      unfold add
      simp only [Aos.deref, mkNode, List.getElem?_cons_zero, Res_bind_ok, Hash.new, List.length_cons, List.length_replicate, h1, vget,
        List.replicate_succ, scan, List.length_nil]
      rfl
    have a2 : add [mkNode 1 [((l + 1 : Nat) : Int)] 1, mkNode 1 [2 * ((l + 1 : Nat) : Int)] 1]
        { buckets := [0] :: List.replicate l [], width := 1 } 1 = .error .exit1 := by
      unfold add
      have hs : scan [mkNode 1 [((l + 1 : Nat) : Int)] 1, mkNode 1 [2 * ((l + 1 : Nat) : Int)] 1]
          (⟨[2 * ((l + 1 : Nat) : Int)], 1, 1, 1, -1⟩ : Node ℚ) [0] = .ok none := by
        simp only [scan, Aos.deref, mkNode, List.getElem?_cons_zero, Res_bind_ok, nodeEqual, eqCount, vget, hne, if_false,
          ne_eq, not_true_eq_false]
        rfl
      simp only [mkNode] at hs
      simp only [Aos.deref, mkNode, List.getElem?_cons_zero, List.getElem?_cons_succ, Res_bind_ok, List.length_cons,
        List.length_replicate, h2, vget, hs]
      rfl
    rw [addStates, a1]
    simp only [addStates, a2]

/-! ### C88 -/

section
variable {K : Type} [Field K] [LinearOrder K]

/-- C88 refuted: a node deleted by `cut` stays in the table; adding any state that falls into its bucket
reads the deleted node. -/
theorem C88_use_after_free_refuted (levelat cut : Nat) (thr : K) (m m' : Nodes K) (h h' : Heap) (hq : LiveQueue m h)
    (hc : cutHeap levelat cut thr m h = .ok (m', h'))
    (p : Nat) (nd : Node K) (hp : some p ∈ queueContents h) (hnd : m[p]? = some (some nd)) (hlev : nd.level < levelat)
    (hcut : nd.value < thr ∨ cut ≤ levelat - nd.level)
    (table : Hash) (r : Nat) (new : Node K) (hr : m'[r]? = some (some new)) (index : Nat) (rest : List Nat)
    (hidx : hashIndex new table.buckets.length = .ok index) (hb : table.buckets[index]? = some (p :: rest)) :
    add m' table r = .error .badPointer := by
  obtain ⟨m'', h'', e, _, _, _, hfreed, _⟩ := C57_contents_partial levelat cut thr m h hq
  rw [hc] at e
  cases e
  have hgone := hfreed p nd hp hnd hlev hcut
  unfold add
  simp only [Aos.deref, hr, Res_bind_ok, hidx, vget, hb, scan, hgone, Res_bind_error]

omit [Field K] [LinearOrder K] in
private theorem scan_live {m : Nodes K} {nd : Node K} : ∀ {l : List Nat}, (∀ q ∈ l, LiveNode m q) →
    scan m nd l ≠ .error .badPointer ∧ ∀ q, scan m nd l = .ok (some q) → q ∈ l
  | [], _ => ⟨by simp [scan], by simp [scan]⟩
  | q :: l, h => by
    obtain ⟨o, ho⟩ := h q (by simp)
    have hc : ∀ (n i : Nat) (a b : List Int), eqCount a b n i ≠ .error .badPointer := by
      intro n
      induction n with
      | zero => intro i a b; simp [eqCount]
      | succ n ih =>
        intro i a b
        unfold eqCount
        unfold vget
        cases a[i]? with
        | none => simp
        | some x =>
          cases b[i]? with
          | none => simp
          | some y =>
            simp only [Res_bind_ok]
            split
            · cases e : eqCount a b n (i + 1) with
              | error f => have := ih (i + 1) a b; rw [e] at this; simpa using this
              | ok k => simp
            · simp
    have he : nodeEqual nd o ≠ .error .badPointer := by
      unfold nodeEqual
      split
      · simp
      · cases e : eqCount nd.fnames o.fnames nd.level 0 with
        | error f => have := hc nd.level 0 nd.fnames o.fnames; rw [e] at this; simpa using this
        | ok k => simp
    obtain ⟨h1, h2⟩ := scan_live (nd := nd) (l := l) (fun q hq => h q (by simp [hq]))
    simp only [scan, Aos.deref, ho, Res_bind_ok]
    cases e : nodeEqual nd o with
    | error f => rw [e] at he; exact ⟨by simpa using he, by simp⟩
    | ok b =>
      cases b with
      | true => simp
      | false =>
        simp only [Res_bind_ok, Bool.false_eq_true, if_false]
        exact ⟨h1, fun q' hq' => List.mem_cons_of_mem _ (h2 q' hq')⟩

/-- C88 (part).  Adding a state after a pruning does not touch a deleted node when no state of its bucket was both
queued and pruned.  Missing with respect to C88: buckets with a pruned state (`C88_use_after_free_refuted`). -/
theorem C88_other_buckets_partial (levelat cut : Nat) (thr : K) (m m' : Nodes K) (h h' : Heap) (hq : LiveQueue m h)
    (hc : cutHeap levelat cut thr m h = .ok (m', h')) (table : Hash) (r : Nat) (new : Node K)
    (hr : m'[r]? = some (some new)) (index : Nat) (bucket : List Nat)
    (hidx : hashIndex new table.buckets.length = .ok index) (hb : table.buckets[index]? = some bucket)
    (hlive : ∀ p ∈ bucket, ∃ nd, m[p]? = some (some nd) ∧
      (some p ∈ queueContents h → ¬ (nd.level < levelat ∧ (nd.value < thr ∨ cut ≤ levelat - nd.level)))) :
    add m' table r ≠ .error .badPointer := by
  obtain ⟨m'', h'', e, _, hmem, _, _, hsame⟩ := C57_contents_partial levelat cut thr m h hq
  rw [hc] at e
  cases e
  have hl : ∀ p ∈ bucket, LiveNode m' p := by
    intro p hp
    obtain ⟨nd, h1, h2⟩ := hlive p hp
    refine ⟨nd, ?_⟩
    rw [hsame p, h1]
    by_cases hin : some p ∈ queueContents h
    · exact Or.inl ((hmem p).2 ⟨hin, nd, h1, h2 hin⟩)
    · exact Or.inr hin
  obtain ⟨s1, s2⟩ := scan_live (nd := new) hl
  unfold add
  have hv : vget table.buckets index = .ok bucket := by unfold vget; rw [hb]
  simp only [Aos.deref, hr, Res_bind_ok, hidx, hv]
  cases es : scan m' new bucket with
  | error f => rw [es] at s1; simpa using s1
  | ok found =>
    cases found with
    | none =>
      simp only [Res_bind_ok]
      split
      · simp
      · have : index < table.buckets.length := by
          rcases Nat.lt_or_ge index table.buckets.length with h | h
          · exact h
          · rw [List.getElem?_eq_none h] at hb; cases hb
        simp [vset, this]
    | some q =>
      obtain ⟨o, ho⟩ := hl q (s2 q es)
      simp only [Res_bind_ok, refound, Aos.deref, ho]
      have hfr : ∀ m2 : Nodes K, (∃ n, m2[r]? = some (some n)) → ∃ m3, free m2 (some r) = .ok m3 := by
        rintro m2 ⟨n, hn⟩
        exact ⟨m2.set r none, by simp [free, hn]⟩
      split
      · obtain ⟨m3, h3⟩ := hfr (store m' q { o with pgamma := new.pgamma, value := new.value }) (by
          unfold store
          by_cases hqr : q = r
          · subst hqr
            refine ⟨_, List.getElem?_set_self ?_⟩
            rcases Nat.lt_or_ge q m'.length with h | h
            · exact h
            · rw [List.getElem?_eq_none h] at hr; cases hr
          · exact ⟨new, by rw [List.getElem?_set_ne hqr, hr]⟩)
        rw [h3]; simp
      · obtain ⟨m3, h3⟩ := hfr m' ⟨new, hr⟩
        rw [h3]; simp

end

/-- The state 7, two states of the level below and a new one in the bucket of the first
(`7² = 6² + 3² + 2²`). -/
def freedNodes : Nodes ℚ := [mkNode 1 [7] 5, mkNode 2 [6, 3] 9, mkNode 3 [6, 3, 2] 8]

/-- A run of the search that meets the hypotheses: the states 7 and 6,3 are added and queued, the queue is
cut at level 2 with the default `cut = 0`, and 6,3,2 is added to a table of the library's size. -/
example : ∃ (m' : Nodes ℚ) (h h' : Heap) (es : List QEvent),
    runQueue 10 freedNodes Heap.new [.insert 0, .insert 1] = .ok (h, es) ∧ cutHeap 2 0 0 freedNodes h = .ok (m', h') ∧
      queueContents h = {some 1, some 0} ∧ hashIndex (⟨[6, 3, 2], 3, 8, 8, -1⟩ : Node ℚ) 161387 = .ok 49 ∧
      hashIndex (⟨[7], 1, 5, 5, -1⟩ : Node ℚ) 161387 = .ok 49 :=
  ⟨_, _, _, _, rfl, rfl, by decide +kernel, by decide +kernel, by decide +kernel⟩

/-- The same run on a table with a single bucket, from the first addition to the fault. -/
example : ∃ (m1 m' : Nodes ℚ) (h h' : Heap) (es : List QEvent) (table : Hash),
    addStates freedNodes (Hash.new 1 100) [0, 1] = .ok (m1, table, [true, true]) ∧
      runQueue 10 m1 Heap.new [.insert 0, .insert 1] = .ok (h, es) ∧ cutHeap 2 0 0 m1 h = .ok (m', h') ∧
      add m' table 2 = .error .badPointer :=
  ⟨_, _, _, _, _, _, rfl, rfl, rfl, rfl⟩

/-- A run that meets the hypotheses of `C88_other_buckets_partial`: 5,4,2 falls into the bucket of 6,3, which the cut
keeps (`5² + 4² + 2² = 6² + 3²`), while 7 is deleted. -/
example : ∃ (m1 m' m2 : Nodes ℚ) (h h' : Heap) (es : List QEvent) (table t2 : Hash),
    addStates (freedNodes ++ [mkNode 3 [5, 4, 2] 7]) (Hash.new 10 100) [0, 1] = .ok (m1, table, [true, true]) ∧
      runQueue 10 m1 Heap.new [.insert 0, .insert 1] = .ok (h, es) ∧ cutHeap 2 0 0 m1 h = .ok (m', h') ∧
      m'[0]? = some none ∧ table.buckets[5]? = some [1] ∧ add m' table 3 = .ok (m2, t2, true) ∧
      t2.buckets[5]? = some [1, 3] :=
  ⟨_, _, _, _, _, _, _, _, rfl, rfl, rfl, rfl, rfl, rfl, rfl⟩

/-! ### C89 -/

/-- Three queued states, and a better node of the second one. -/
def raisedNodes : Nodes ℚ := [mkNode 1 [1] 10, mkNode 1 [2] 5, mkNode 1 [3] 4, mkNode 1 [2] 20]

/-- C89 refuted: finding a queued state again with a larger projected value raises the value of the queued
node without moving it: the next pop returns a node of value 10 while one of value 20 is queued. -/
theorem C89_raise_refuted :
    ∃ (m m1 m2 : Nodes ℚ) (t1 t2 : Hash) (h h' : Heap) (es : List QEvent) (p q : Nat),
      addStates m (Hash.new 5 3) [0, 1, 2] = .ok (m1, t1, [true, true, true]) ∧
      runQueue 10 m1 Heap.new [.insert 0, .insert 1, .insert 2] = .ok (h, es) ∧
      add m1 t1 3 = .ok (m2, t2, false) ∧ pop m2 h = .ok (h', some p) ∧
      some q ∈ queueContents h' ∧ nodeValue m2 p < nodeValue m2 q := by
  refine ⟨raisedNodes, _, _, _, _, _, _, _, 0, 1, rfl, rfl, rfl, rfl, by decide +kernel, by decide +kernel⟩

section
variable {K : Type} [Field K] [LinearOrder K]

/-- What a scan finds is in the bucket and is the same state. -/
theorem scan_found (m : Nodes K) (nd : Node K) (hw : WellFormed nd) (b : List Nat)
    (hb : ∀ q ∈ b, ∀ old, m[q]? = some (some old) → WellFormed old) (q : Nat) (hs : scan m nd b = .ok (some q)) :
    q ∈ b ∧ ∃ old, m[q]? = some (some old) ∧ sameState old nd := by
  induction b with
  | nil => cases hs
  | cons x b ih =>
    rw [scan] at hs
    match hx : m[x]? with
    | none => simp only [Aos.deref, hx, Res_bind_error] at hs; cases hs
    | some none => simp only [Aos.deref, hx, Res_bind_error] at hs; cases hs
    | some (some old) =>
      have hwo := hb x (by simp) old hx
      obtain ⟨r, hr, hriff⟩ := nodeEqual_ok nd old hw.1 hwo.1
      simp only [Aos.deref, hx, Res_bind_ok, hr] at hs
      by_cases hrt : r = true
      · rw [if_pos hrt] at hs
        cases hs
        exact ⟨by simp, old, hx, (same_state_iff old nd hwo hw).mpr (hriff.mp hrt).symm⟩
      · rw [if_neg hrt] at hs
        obtain ⟨h1, h2⟩ := ih (fun q hq => hb q (by simp [hq])) hs
        exact ⟨by simp [h1], h2⟩

theorem refound_inv (m m' : Nodes K) (h : Heap) (hI : Inv m h) (p q : Nat) (nd old : Node K)
    (hp : m[p]? = some (some nd)) (hq : m[q]? = some (some old)) (hno : 0 ≤ old.rgamma ∨ nd.value ≤ old.value)
    (hpq : some p ∉ queueContents h) (hr : refound m p q nd = .ok m') : Inv m' h := by
  have hm : m' = m.set p none := by
    unfold refound at hr
    have hd : Aos.deref m (some q) = .ok old := by simp [Aos.deref, hq]
    rw [hd, Res_bind_ok] at hr
    have hc : ¬ (old.rgamma < 0 ∧ old.value < nd.value) := by
      rintro ⟨h1, h2⟩
      rcases hno with h | h
      · exact absurd h1 (not_lt.mpr h)
      · exact absurd h2 (not_lt.mpr h)
    simp only [if_neg hc] at hr
    rw [free_ok ⟨nd, hp⟩] at hr
    cases hr
    rfl
  subst hm
  have hne : ∀ i, 1 ≤ i → i ≤ h.size → ∀ x, h.elements i = some x → x ≠ p := by
    rintro i h1 h2 x hx rfl
    exact hpq (mem_cont.mpr ⟨i, h1, h2, hx⟩)
  have hval : ∀ i, 1 ≤ i → i ≤ h.size → va (m.set p none) (h.elements i) = va m (h.elements i) := by
    intro i h1 h2
    obtain ⟨x, hx, _⟩ := hI.good i h1 h2
    rw [hx]
    show nodeValue _ x = nodeValue _ x
    unfold nodeValue
    rw [List.getElem?_set_ne (Ne.symm (hne i h1 h2 x hx))]
  refine ⟨hI.null, ?_, ?_⟩
  · intro i h1 h2
    obtain ⟨x, hx, nx, hnx⟩ := hI.good i h1 h2
    refine ⟨x, hx, nx, ?_⟩
    rw [List.getElem?_set_ne (Ne.symm (hne i h1 h2 x hx))]
    exact hnx
  · intro j h1 h2
    rw [hval j (by omega) h2, hval (j / 2) (by omega) (by omega)]
    exact hI.ord j h1 h2

/-- C89: finding a state again leaves the queue in order when the node of that state in the table has been
trained or its value is at least that of the new node: the queue goes on behaving as a priority queue. -/
theorem C89_no_raise_partial (cap : Nat) (m m' : Nodes K) (h : Heap) (hR : ReachedQueue cap m h) (table table' : Hash)
    (p : Nat) (nd : Node K) (hp : m[p]? = some (some nd)) (hw : WellFormed nd)
    (hT : ∀ b ∈ table.buckets, ∀ q ∈ b, ∀ old, m[q]? = some (some old) → WellFormed old)
    (hno : ∀ b ∈ table.buckets, ∀ q ∈ b, ∀ old, m[q]? = some (some old) → sameState old nd →
      0 ≤ old.rgamma ∨ nd.value ≤ old.value)
    (hpq : some p ∉ queueContents h) (hr : add m table p = .ok (m', table', false)) :
    PriorityQueue cap m' h := by
  have hd : Aos.deref m (some p) = .ok nd := by simp [Aos.deref, hp]
  unfold add at hr
  rw [hd, Res_bind_ok] at hr
  match hi : hashIndex nd table.buckets.length with
  | .error e => rw [hi, Res_bind_error] at hr; cases hr
  | .ok index =>
    rw [hi, Res_bind_ok] at hr
    match hb : table.buckets[index]? with
    | none => simp only [vget, hb, Res_bind_error] at hr; cases hr
    | some b =>
      simp only [vget, hb, Res_bind_ok] at hr
      have hbm := List.mem_of_getElem? hb
      match hs : scan m nd b with
      | .error e => rw [hs, Res_bind_error] at hr; cases hr
      | .ok none =>
        rw [hs, Res_bind_ok] at hr
        dsimp only at hr
        by_cases hf : b.length ≥ table.width
        · rw [if_pos hf] at hr; cases hr
        · rw [if_neg hf] at hr
          match hv : vset table.buckets index (b ++ [p]) with
          | .error e => rw [hv, Res_bind_error] at hr; cases hr
          | .ok bs => rw [hv, Res_bind_ok] at hr; cases hr
      | .ok (some q) =>
        rw [hs, Res_bind_ok] at hr
        dsimp only at hr
        obtain ⟨hqb, old, hq, hsame⟩ := scan_found m nd hw b (hT b hbm) q hs
        match hv : refound m p q nd with
        | .error e => rw [hv, Res_bind_error] at hr; cases hr
        | .ok m1 =>
          rw [hv, Res_bind_ok] at hr
          cases hr
          exact inv_priority cap (refound_inv m m' h (reached_inv hR) p q nd old hp hq (hno b hbm q hqb old hq hsame) hpq hv)

end

/-- The same states with a worse node found again. -/
def worseNodes : Nodes ℚ := [mkNode 1 [1] 10, mkNode 1 [2] 5, mkNode 1 [3] 4, mkNode 1 [2] 2]

example : ∃ (m1 m2 : Nodes ℚ) (t1 t2 : Hash) (h : Heap),
    addStates worseNodes (Hash.new 5 3) [0, 1, 2] = .ok (m1, t1, [true, true, true]) ∧
      ReachedQueue 10 m1 h ∧ h.size = 3 ∧ add m1 t1 3 = .ok (m2, t2, false) := by
  refine ⟨_, _, _, _, _, rfl, ⟨[.insert 0, .insert 1, .insert 2], _, by simp [BelowCapacity], ?_, rfl⟩, rfl, rfl⟩
  intro p hp
  simp only [List.mem_cons, QOp.insert.injEq, List.not_mem_nil, or_false] at hp
  rcases hp with rfl | rfl | rfl <;> exact ⟨_, rfl⟩

end MLTK.Props
