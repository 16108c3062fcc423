import Verif.Spec.Dll
import Verif.Lemmas.Util
/-!
# Lemmas about the doubly linked list
-/
namespace MLTK.Dll
open MLTK.Spec
open MLTK.Data (Res_bind_ok Res_bind_error Res_pure)

/-- A list segment that ends with last node `last`, whose `next` is `nxt`. -/
def Seg (h : Heap) : Option Nat → Option Nat → List (Nat × Int) → Option Nat → Option Nat → Prop
  | prev, cur, [], last, nxt => last = prev ∧ nxt = cur
  | prev, cur, (p, i) :: l, last, nxt =>
    cur = some p ∧ ∃ nx, h.cells p = some ⟨i, prev, nx⟩ ∧ Seg h (some p) nx l last nxt

theorem Linked_append (h : Heap) (l1 l2 : List (Nat × Int)) (prev cur : Option Nat) :
    Linked h prev cur (l1 ++ l2) ↔ ∃ m k, Seg h prev cur l1 m k ∧ Linked h m k l2 := by
  induction l1 generalizing prev cur with
  | nil =>
    constructor
    · intro hh; exact ⟨prev, cur, ⟨rfl, rfl⟩, hh⟩
    · rintro ⟨m, k, ⟨rfl, rfl⟩, h2⟩; exact h2
  | cons a l ih =>
    obtain ⟨p, i⟩ := a
    simp only [List.cons_append, Linked, Seg]
    constructor
    · rintro ⟨rfl, nx, hc, hl⟩
      obtain ⟨m, k, h1, h2⟩ := (ih _ _).1 hl
      exact ⟨m, k, ⟨rfl, nx, hc, h1⟩, h2⟩
    · rintro ⟨m, k, ⟨rfl, nx, hc, h1⟩, h2⟩
      exact ⟨rfl, nx, hc, (ih _ _).2 ⟨m, k, h1, h2⟩⟩

theorem Seg_append (h : Heap) (l1 l2 : List (Nat × Int)) (prev cur last nxt : Option Nat) :
    Seg h prev cur (l1 ++ l2) last nxt ↔ ∃ m k, Seg h prev cur l1 m k ∧ Seg h m k l2 last nxt := by
  induction l1 generalizing prev cur with
  | nil =>
    constructor
    · intro hh; exact ⟨prev, cur, ⟨rfl, rfl⟩, hh⟩
    · rintro ⟨m, k, ⟨rfl, rfl⟩, h2⟩; exact h2
  | cons a l ih =>
    obtain ⟨p, i⟩ := a
    simp only [List.cons_append, Seg]
    constructor
    · rintro ⟨rfl, nx, hc, hl⟩
      obtain ⟨m, k, h1, h2⟩ := (ih _ _).1 hl
      exact ⟨m, k, ⟨rfl, nx, hc, h1⟩, h2⟩
    · rintro ⟨m, k, ⟨rfl, nx, hc, h1⟩, h2⟩
      exact ⟨rfl, nx, hc, (ih _ _).2 ⟨m, k, h1, h2⟩⟩

theorem Seg_congr {h h' : Heap} {l : List (Nat × Int)} {prev cur last nxt : Option Nat}
    (hh : ∀ p ∈ l.map Prod.fst, h'.cells p = h.cells p) (hs : Seg h prev cur l last nxt) :
    Seg h' prev cur l last nxt := by
  induction l generalizing prev cur with
  | nil => exact hs
  | cons a l ih =>
    obtain ⟨p, i⟩ := a
    obtain ⟨rfl, nx, hc, hs⟩ := hs
    exact ⟨rfl, nx, by rw [hh p (by simp), hc], ih (fun q hq => hh q (by simp at hq ⊢; right; exact hq)) hs⟩

theorem Linked_congr {h h' : Heap} {l : List (Nat × Int)} {prev cur : Option Nat}
    (hh : ∀ p ∈ l.map Prod.fst, h'.cells p = h.cells p) (hs : Linked h prev cur l) :
    Linked h' prev cur l := by
  induction l generalizing prev cur with
  | nil => exact hs
  | cons a l ih =>
    obtain ⟨p, i⟩ := a
    obtain ⟨rfl, nx, hc, hs⟩ := hs
    exact ⟨rfl, nx, by rw [hh p (by simp), hc], ih (fun q hq => hh q (by simp at hq ⊢; right; exact hq)) hs⟩

theorem Linked_live {h : Heap} {l : List (Nat × Int)} {prev cur : Option Nat} (hl : Linked h prev cur l)
    (p : Nat) (hp : p ∈ l.map Prod.fst) : h.cells p ≠ none := by
  induction l generalizing prev cur with
  | nil => simp at hp
  | cons a l ih =>
    obtain ⟨q, i⟩ := a
    obtain ⟨rfl, nx, hc, hs⟩ := hl
    simp only [List.map_cons, List.mem_cons] at hp
    rcases hp with rfl | hp
    · rw [hc]; simp
    · exact ih hs hp

/-- The nodes a pointer leads to are determined by the heap. -/
theorem Linked_functional {h : Heap} {l l' : List (Nat × Int)} {prev cur : Option Nat}
    (h1 : Linked h prev cur l) (h2 : Linked h prev cur l') : l = l' := by
  induction l generalizing prev cur l' with
  | nil =>
    cases l' with
    | nil => rfl
    | cons b l' => obtain ⟨q, j⟩ := b; obtain ⟨hq, _⟩ := h2; rw [h1] at hq; simp at hq
  | cons a l ih =>
    obtain ⟨p, i⟩ := a
    obtain ⟨rfl, nx, hc, hs⟩ := h1
    cases l' with
    | nil => simp [Linked] at h2
    | cons b l' =>
      obtain ⟨q, j⟩ := b
      obtain ⟨hq, nx', hc', hs'⟩ := h2
      cases hq
      rw [hc] at hc'
      cases hc'
      rw [ih hs hs']

theorem deref_some {h : Heap} {p : Nat} {n : Node} (hc : h.cells p = some n) : deref h (some p) = .ok n := by
  simp [deref, hc]

/-- The heap after `append` behind node `p`. -/
theorem append_spec (h : Heap) (head : Option Nat) (l1 l2 : List (Nat × Int)) (p : Nat) (i : Int)
    (hl : IsDll h head (l1 ++ (p, i) :: l2)) :
    ∃ h', append h (some p) = .ok (some h.fresh, h') ∧
      IsDll h' head (l1 ++ (p, i) :: (h.fresh, -1) :: l2) ∧ h'.fresh = h.fresh + 1 ∧
      (∀ r, r ≠ h.fresh → r ∉ (l1 ++ (p, i) :: l2).map Prod.fst → h'.cells r = h.cells r) := by
  obtain ⟨hok, hlk, hnd⟩ := hl
  have hlive := Linked_live hlk
  obtain ⟨m, k, hs1, rfl, nx, hcp, hs2⟩ := (Linked_append _ _ _ _ _).1 hlk
  have hnd' := hnd
  rw [List.map_append, List.nodup_append] at hnd
  obtain ⟨hn1, hn2, hn12⟩ := hnd
  simp only [List.map_cons, List.nodup_cons] at hn2
  have hpf : p < h.fresh := hok p (by rw [hcp]; simp)
  have hfr : ∀ r ∈ (l1 ++ (p, i) :: l2).map Prod.fst, r ≠ h.fresh := fun r hr => by
    have := hok r (hlive r hr); omega
  have hpn : p ≠ h.fresh := by omega
  have h1p : ∀ r ∈ l1.map Prod.fst, r ≠ p := fun r hr => hn12 r hr p (by simp)
  cases l2 with
  | nil =>
    cases hs2
    obtain ⟨h', he, hf', hc'⟩ : ∃ h', append h (some p) = .ok (some h.fresh, h') ∧ h'.fresh = h.fresh + 1 ∧
        ∀ r, h'.cells r = if r = h.fresh then some ⟨-1, some p, none⟩
          else if r = p then some ⟨i, m, some h.fresh⟩ else h.cells r := by
      refine ⟨_, by
        simp only [append, Res_bind_ok, alloc, modify, deref, store, modifyIf, hpn, hpn.symm,
          hcp, if_true, if_false]; rfl, rfl, ?_⟩
      intro r
      simp only []
      by_cases h1 : r = h.fresh
      · simp [h1]
      · by_cases h2 : r = p
        · simp [h2, hpn]
        · simp [h1, h2]
    refine ⟨h', he, ⟨?_, ?_, ?_⟩, hf', ?_⟩
    · intro r hr
      rw [hc'] at hr
      rw [hf']
      by_cases hrf : r = h.fresh
      · omega
      · by_cases hrp : r = p
        · omega
        · simp only [hrf, hrp, if_false] at hr
          have := hok r hr; omega
    · rw [Linked_append]
      refine ⟨m, some p, Seg_congr ?_ hs1, rfl, some h.fresh, ?_, rfl, none, ?_, rfl⟩
      · intro r hr
        have h1 := h1p r hr
        have h2 := hfr r (by simp only [List.map_append, List.mem_append]; left; exact hr)
        simp [hc', h1, h2]
      · simp [hc', hpn]
      · simp [hc']
    · rw [List.map_append, List.nodup_append]
      refine ⟨hn1, ?_, ?_⟩
      · simp [hpn]
      · intro a ha b hb
        simp at hb
        rcases hb with rfl | rfl
        · exact h1p a ha
        · exact hfr a (by simp only [List.map_append, List.mem_append]; left; exact ha)
    · intro r hr hr2
      have : r ≠ p := by rintro rfl; apply hr2; simp
      simp [hc', hr, this]
  | cons a l2 =>
    obtain ⟨r0, j⟩ := a
    obtain ⟨rfl, nx2, hcr, hs3⟩ := hs2
    have hrp : r0 ≠ p := by rintro rfl; exact hn2.1 (by simp)
    have hrf : r0 ≠ h.fresh := hfr r0 (by simp)
    have h2p : ∀ r ∈ l2.map Prod.fst, r ≠ p := by
      rintro r hr rfl; apply hn2.1; rw [List.map_cons, List.mem_cons]; right; exact hr
    have h2r : ∀ r ∈ l2.map Prod.fst, r ≠ r0 := by
      rintro r hr rfl
      have := hn2.2
      rw [List.map_cons, List.nodup_cons] at this
      exact this.1 hr
    have h1r : ∀ r ∈ l1.map Prod.fst, r ≠ r0 := fun r hr => hn12 r hr r0 (by simp)
    obtain ⟨h', he, hf', hc'⟩ : ∃ h', append h (some p) = .ok (some h.fresh, h') ∧ h'.fresh = h.fresh + 1 ∧
        ∀ r, h'.cells r = if r = h.fresh then some ⟨-1, some p, some r0⟩
          else if r = p then some ⟨i, m, some h.fresh⟩
          else if r = r0 then some ⟨j, some h.fresh, nx2⟩ else h.cells r := by
      refine ⟨_, by
        simp only [append, Res_bind_ok, alloc, modify, deref, store, modifyIf, hpn, hpn.symm,
          hcp, hcr, hrp, hrf, hrf.symm, if_true, if_false]; rfl, rfl, ?_⟩
      intro r
      simp only []
      by_cases h1 : r = h.fresh
      · simp [h1]
      · by_cases h2 : r = p
        · simp [h2, hrp.symm, hpn]
        · by_cases h3 : r = r0
          · simp [h3, hrf, hrp]
          · simp [h1, h2, h3]
    refine ⟨h', he, ⟨?_, ?_, ?_⟩, hf', ?_⟩
    · intro r hr
      rw [hc'] at hr
      rw [hf']
      by_cases hrf : r = h.fresh
      · omega
      · by_cases hrp : r = p
        · omega
        · by_cases hr0 : r = r0
          · subst hr0
            have := hok r (by rw [hcr]; simp); omega
          · simp only [hrf, hrp, hr0, if_false] at hr
            have := hok r hr; omega
    · rw [Linked_append]
      refine ⟨m, some p, Seg_congr ?_ hs1, rfl, some h.fresh, ?_, rfl, some r0, ?_, rfl, nx2, ?_, Linked_congr ?_ hs3⟩
      · intro r hr
        have h1 := h1p r hr
        have h2 := hfr r (by simp only [List.map_append, List.mem_append]; left; exact hr)
        have h3 := h1r r hr
        simp [hc', h1, h2, h3]
      · simp [hc', hpn]
      · simp [hc']
      · simp [hc', hrf, hrp]
      · intro r hr
        have h1 := h2p r hr
        have h2 := hfr r (by
          rw [List.map_append, List.mem_append]; right
          rw [List.map_cons, List.mem_cons]; right
          rw [List.map_cons, List.mem_cons]; right; exact hr)
        have h3 := h2r r hr
        simp [hc', h1, h2, h3]
    · rw [List.map_append, List.nodup_append]
      refine ⟨hn1, ?_, ?_⟩
      · simp only [List.map_cons, List.nodup_cons, List.mem_cons, not_or]
        simp only [List.map_cons, List.nodup_cons, List.mem_cons, not_or] at hn2
        refine ⟨⟨hpn, hn2.1⟩, ⟨hrf.symm, ?_⟩, hn2.2⟩
        intro hm
        exact hfr _ (by
          rw [List.map_append, List.mem_append]; right
          rw [List.map_cons, List.mem_cons]; right
          rw [List.map_cons, List.mem_cons]; right; exact hm) rfl
      · intro a ha b hb
        simp only [List.map_cons, List.mem_cons] at hb
        rcases hb with rfl | rfl | rfl | hb
        · exact h1p a ha
        · exact hfr a (by simp only [List.map_append, List.mem_append]; left; exact ha)
        · exact h1r a ha
        · exact hn12 a ha b (by
            rw [List.map_cons, List.mem_cons]; right
            rw [List.map_cons, List.mem_cons]; right; exact hb)
    · intro r hr hr2
      have h1 : r ≠ p := by rintro rfl; apply hr2; simp
      have h2 : r ≠ r0 := by rintro rfl; apply hr2; simp
      simp [hc', hr, h1, h2]

/-- The heap after removing node `p`, which has a predecessor. -/
theorem remove_spec (h : Heap) (head : Option Nat) (l1 l2 : List (Nat × Int)) (q p : Nat) (j i : Int)
    (hl : IsDll h head (l1 ++ (q, j) :: (p, i) :: l2)) :
    ∃ h', remove h (some p) = .ok (some q, h') ∧
      IsDll h' head (l1 ++ (q, j) :: l2) ∧ h'.fresh = h.fresh ∧ h'.cells p = none ∧
      (∀ r, r ∉ (l1 ++ (q, j) :: (p, i) :: l2).map Prod.fst → h'.cells r = h.cells r) := by
  obtain ⟨hok, hlk, hnd⟩ := hl
  obtain ⟨m, k, hs1, rfl, nxq, hcq, rfl, nx, hcp, hs2⟩ := (Linked_append _ _ _ _ _).1 hlk
  rw [List.map_append, List.nodup_append] at hnd
  obtain ⟨hn1, hn2, hn12⟩ := hnd
  simp only [List.map_cons, List.nodup_cons, List.mem_cons, not_or] at hn2
  obtain ⟨⟨hqp, hq2⟩, hp2, hnd2⟩ := hn2
  have h1q : ∀ r ∈ l1.map Prod.fst, r ≠ q := fun r hr => hn12 r hr q (by simp)
  have h1p : ∀ r ∈ l1.map Prod.fst, r ≠ p := fun r hr => hn12 r hr p (by simp)
  have hndr : (List.map Prod.fst (l1 ++ (q, j) :: l2)).Nodup := by
    rw [List.map_append, List.nodup_append]
    refine ⟨hn1, ?_, ?_⟩
    · simp only [List.map_cons, List.nodup_cons]; exact ⟨hq2, hnd2⟩
    · intro a ha b hb
      simp only [List.map_cons, List.mem_cons] at hb
      rcases hb with rfl | hb
      · exact h1q a ha
      · exact hn12 a ha b (by simp only [List.map_cons, List.mem_cons]; right; right; exact hb)
  cases l2 with
  | nil =>
    cases hs2
    obtain ⟨h', he, hf', hc'⟩ : ∃ h', remove h (some p) = .ok (some q, h') ∧ h'.fresh = h.fresh ∧
        ∀ r, h'.cells r = if r = p then none else if r = q then some ⟨j, m, none⟩ else h.cells r := by
      refine ⟨_, by
        simp only [remove, Res_bind_ok, modify, deref, store, modifyIf, free1, Ne.symm hqp,
          hcp, hcq, if_false]; rfl, ?_, ?_⟩
      · rfl
      intro r
      rfl
    refine ⟨h', he, ⟨?_, ?_, hndr⟩, hf', by simp [hc'], ?_⟩
    · intro r hr
      rw [hc'] at hr
      rw [hf']
      by_cases h1 : r = p
      · simp [h1] at hr
      · by_cases h2 : r = q
        · subst h2; exact hok r (by rw [hcq]; simp)
        · simp only [h1, h2, if_false] at hr; exact hok r hr
    · rw [Linked_append]
      refine ⟨m, some q, Seg_congr ?_ hs1, rfl, none, ?_, rfl⟩
      · intro r hr
        simp [hc', h1q r hr, h1p r hr]
      · simp [hc', hqp]
    · intro r hr
      have h1 : r ≠ p := by rintro rfl; apply hr; simp
      have h2 : r ≠ q := by rintro rfl; apply hr; simp
      simp [hc', h1, h2]
  | cons a l2 =>
    obtain ⟨r0, t⟩ := a
    obtain ⟨rfl, nx2, hcr, hs3⟩ := hs2
    simp only [List.map_cons, List.mem_cons, not_or, List.nodup_cons] at hp2 hq2 hnd2
    obtain ⟨hpr, hp2⟩ := hp2
    obtain ⟨hqr, hq2⟩ := hq2
    obtain ⟨hr2, hnd2⟩ := hnd2
    obtain ⟨h', he, hf', hc'⟩ : ∃ h', remove h (some p) = .ok (some q, h') ∧ h'.fresh = h.fresh ∧
        ∀ r, h'.cells r = if r = p then none else if r = q then some ⟨j, m, some r0⟩
          else if r = r0 then some ⟨t, some q, nx2⟩ else h.cells r := by
      refine ⟨_, by
        simp only [remove, Res_bind_ok, modify, deref, store, modifyIf, free1, Ne.symm hqp, hpr, Ne.symm hqr,
          hcp, hcq, hcr, if_false]; rfl, ?_, ?_⟩
      · rfl
      intro r
      simp only []
      by_cases h1 : r = p
      · simp [h1]
      · by_cases h2 : r = q
        · simp [h2, hqr]
        · by_cases h3 : r = r0
          · simp [h3, Ne.symm hqr]
          · simp [h1, h2, h3]
    have h1r : ∀ r ∈ l1.map Prod.fst, r ≠ r0 := fun r hr => hn12 r hr r0 (by simp)
    refine ⟨h', he, ⟨?_, ?_, hndr⟩, hf', by simp [hc'], ?_⟩
    · intro r hr
      rw [hc'] at hr
      rw [hf']
      by_cases h1 : r = p
      · simp [h1] at hr
      · by_cases h2 : r = q
        · subst h2; exact hok r (by rw [hcq]; simp)
        · by_cases h3 : r = r0
          · subst h3; exact hok r (by rw [hcr]; simp)
          · simp only [h1, h2, h3, if_false] at hr; exact hok r hr
    · rw [Linked_append]
      refine ⟨m, some q, Seg_congr ?_ hs1, rfl, some r0, ?_, rfl, nx2, ?_, Linked_congr ?_ hs3⟩
      · intro r hr
        simp [hc', h1q r hr, h1p r hr, h1r r hr]
      · simp [hc', hqp]
      · simp [hc', Ne.symm hpr, Ne.symm hqr]
      · intro r hr
        have h1 : r ≠ p := by rintro rfl; exact hp2 hr
        have h2 : r ≠ q := by rintro rfl; exact hq2 hr
        have h3 : r ≠ r0 := by rintro rfl; exact hr2 hr
        simp [hc', h1, h2, h3]
    · intro r hr
      have h1 : r ≠ p := by rintro rfl; apply hr; simp
      have h2 : r ≠ q := by rintro rfl; apply hr; simp
      have h3 : r ≠ r0 := by rintro rfl; apply hr; simp
      simp [hc', h1, h2, h3]

/-- Freeing visits every node once and deletes exactly the list. -/
theorem freeLoop_spec (l : List (Nat × Int)) : ∀ (h : Heap) (k : Nat) (prev cur : Option Nat),
    Linked h prev cur l → (l.map Prod.fst).Nodup → l.length ≤ k →
    ∃ h', freeLoop k h cur = .ok h' ∧ h'.fresh = h.fresh ∧
      (∀ r, h'.cells r = if r ∈ l.map Prod.fst then none else h.cells r) := by
  induction l with
  | nil =>
    intro h k prev cur hl _ _
    cases hl
    exact ⟨h, by cases k <;> rfl, rfl, fun r => by simp⟩
  | cons a l ih =>
    obtain ⟨p, i⟩ := a
    intro h k prev cur hl hnd hk
    obtain ⟨rfl, nx, hc, hl⟩ := hl
    simp only [List.map_cons, List.nodup_cons] at hnd
    cases k with
    | zero => simp at hk
    | succ k =>
      obtain ⟨h', he, hf, hcells⟩ := ih (store h p none) k (some p) nx
        (Linked_congr (fun r hr => by
          have : r ≠ p := by rintro rfl; exact hnd.1 hr
          simp [store, this]) hl) hnd.2 (by simpa using hk)
      refine ⟨h', ?_, hf, ?_⟩
      · simp only [freeLoop, deref, hc, Res_bind_ok, free1]
        exact he
      · intro r
        rw [hcells r]
        by_cases h1 : r = p
        · subst h1; simp [store]
        · by_cases h2 : r ∈ l.map Prod.fst
          · rw [if_pos h2, if_pos (by rw [List.map_cons, List.mem_cons]; right; exact h2)]
          · rw [if_neg h2, if_neg (by rw [List.map_cons, List.mem_cons]; rintro (h3 | h3); exacts [h1 h3, h2 h3])]
            simp [store, h1]

/-- Addresses of live nodes are below `fresh`, so a list is no longer than that. -/
theorem _root_.MLTK.Spec.IsDll.length_le {h : Heap} {head : Option Nat} {l : List (Nat × Int)} (hl : IsDll h head l) :
    l.length ≤ h.fresh := by
  have h1 : (l.map Prod.fst).length ≤ (List.range h.fresh).length := by
    apply List.Subperm.length_le
    apply List.subperm_of_subset hl.nodup
    intro r hr
    exact List.mem_range.2 (hl.heapOk r (Linked_live hl.linked r hr))
  simpa using h1

theorem free_spec {h : Heap} {head : Option Nat} {l : List (Nat × Int)} (hl : IsDll h head l) :
    ∃ h', free h head = .ok h' ∧ h'.fresh = h.fresh ∧
      (∀ r, h'.cells r = if r ∈ l.map Prod.fst then none else h.cells r) :=
  freeLoop_spec l h _ none head hl.linked hl.nodup (by have := hl.length_le; omega)

/-- A walk over the list is a loop over the stored ints. -/
theorem each_spec {β : Type} (h : Heap) (body : β → Int → Res β) (l : List (Nat × Int)) :
    ∀ (k : Nat) (prev cur : Option Nat) (b : β), Linked h prev cur l → l.length ≤ k →
      each h body k cur b = (l.map Prod.snd).foldlM body b := by
  induction l with
  | nil => intro k prev cur b hl _; cases hl; cases k <;> rfl
  | cons a l ih =>
    obtain ⟨p, i⟩ := a
    intro k prev cur b hl hk
    obtain ⟨rfl, nx, hc, hl⟩ := hl
    cases k with
    | zero => simp at hk
    | succ k =>
      simp only [each, deref, hc, Res_bind_ok, List.map_cons, List.foldlM_cons]
      congr 1
      funext b'
      exact ih k (some p) nx b' hl (by simpa using hk)

end MLTK.Dll
