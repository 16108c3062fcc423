import Mathlib.Algebra.BigOperators.Ring.Finset
import Mathlib.Algebra.Order.BigOperators.Group.Finset
import Mathlib.Tactic.Ring
import Mathlib.Tactic.Linarith
import Mathlib.Tactic.FieldSimp
import Mathlib.Tactic.NormNum
import Verif.Spec.Smo
import Verif.Lemmas.Dll
/-!
# Lemmas about the SMO trainer
-/
namespace MLTK.Smo
open MLTK.Spec MLTK.Dll
open MLTK.Data (Res_bind_ok Res_bind_error Res_pure)

variable {K : Type} [Field K] [LinearOrder K]

@[simp] theorem upd_same {β : Type} (f : Nat → β) (i : Nat) (a : β) : upd f i a i = a := by simp [upd]
theorem upd_other {β : Type} (f : Nat → β) (i j : Nat) (a : β) (h : j ≠ i) : upd f i a j = f j := by
  simp [upd, h]

theorem sampleIdx_nat (n k : Nat) (h : k < n) : sampleIdx n (k : Int) = .ok k := by
  simp [sampleIdx, h]

/-- Summing over the list of the samples in `P` is summing over all samples, zero outside `P`. -/
theorem sum_indices {n : Nat} {P : Nat → Prop} {l : List Nat} (hnd : l.Nodup)
    (hm : ∀ k, k ∈ l ↔ k < n ∧ P k) (f : Nat → K) (hf : ∀ k < n, ¬ P k → f k = 0) :
    (l.map f).sum = ∑ k ∈ Finset.range n, f k := by
  classical
  rw [← List.sum_toFinset f hnd]
  apply Finset.sum_subset
  · intro k hk
    simp only [List.mem_toFinset] at hk
    exact Finset.mem_range.2 ((hm k).1 hk).1
  · intro k hk hk2
    apply hf k (Finset.mem_range.1 hk)
    intro hp
    exact hk2 (by simp only [List.mem_toFinset]; exact (hm k).2 ⟨Finset.mem_range.1 hk, hp⟩)

/-- The list content as sample numbers. -/
theorem _root_.MLTK.Spec.SvHolds.nats {c : Cfg K} {P : Nat → Prop} {s : St K} (h : SvHolds c P s) :
    ∃ hd nx l, s.head = some hd ∧ s.heap.cells hd = some ⟨-1, none, nx⟩ ∧ Linked s.heap (some hd) nx l ∧
      l.length ≤ walkFuel s ∧
      ∃ ks : List Nat, l.map Prod.snd = ks.map (fun k : Nat => (k : Int)) ∧ ks.Nodup ∧ ∀ k, k ∈ ks ↔ k < c.n ∧ P k := by
  obtain ⟨hd, l, hhd, hl, hnd, hm, _, _⟩ := h
  obtain ⟨he, nx, hc, hlk⟩ := hl.linked
  refine ⟨hd, nx, l, hhd, hc, hlk, ?_, (l.map Prod.snd).map Int.toNat, ?_, ?_, ?_⟩
  · have := hl.length_le; simp at this; simp [walkFuel]; omega
  · rw [List.map_map]
    conv_lhs => rw [← List.map_id (l.map Prod.snd)]
    apply List.map_congr_left
    intro i hi
    obtain ⟨k, _, rfl, _⟩ := (hm i).1 hi
    simp
  · apply List.Nodup.map_on _ hnd
    intro a ha b hb hab
    obtain ⟨k, _, rfl, _⟩ := (hm a).1 ha
    obtain ⟨k', _, rfl, _⟩ := (hm b).1 hb
    simp at hab; rw [hab]
  · intro k
    simp only [List.mem_map]
    constructor
    · rintro ⟨i, hi, rfl⟩
      obtain ⟨k, h1, rfl, h2⟩ := (hm i).1 (by simpa using hi)
      simpa using ⟨h1, h2⟩
    · rintro ⟨h1, h2⟩
      have := (hm (k : Int)).2 ⟨k, h1, rfl, h2⟩
      exact ⟨(k : Int), by simpa using this, by simp⟩

/-- A walk over the list as a loop over sample numbers. -/
theorem _root_.MLTK.Spec.SvHolds.walk {β : Type} {c : Cfg K} {P : Nat → Prop} {s : St K} (h : SvHolds c P s) :
    ∃ hd nx, ∃ ks : List Nat, Dll.deref s.heap s.head = .ok hd ∧ hd.next = nx ∧ ks.Nodup ∧
      (∀ k, k ∈ ks ↔ k < c.n ∧ P k) ∧
      ∀ (body : β → Int → Res β) (b : β), each s.heap body (walkFuel s) nx b =
        ks.foldlM (fun b (k : Nat) => body b (k : Int)) b := by
  obtain ⟨hd, nx, l, hhd, hc, hlk, hlen, ks, hks, hnd, hm⟩ := h.nats
  refine ⟨_, nx, ks, by rw [hhd, deref_some hc], rfl, hnd, hm, ?_⟩
  intro body b
  rw [each_spec s.heap body l _ (some hd) nx b hlk hlen, hks, List.foldlM_map]

theorem function_spec {c : Cfg K} {s : St K} (h : SvHolds c (fun k => 0 < s.alpha k) s)
    (hnn : ∀ i < c.n, 0 ≤ s.alpha i) (idx : Nat) :
    function c s idx = .ok (decisionValue c s.alpha s.bias idx) := by
  obtain ⟨hd, nx, ks, hde, hnx, hnd, hm, hw⟩ := SvHolds.walk (β := K) h
  unfold function
  rw [hde, Res_bind_ok, hnx, hw]
  rw [foldlM_ok _ (fun sum k => sum + s.alpha k * (c.y k : K) * c.M k idx) ks 0 ?_]
  · rw [Res_bind_ok, foldl_add_sum, zero_add, sum_indices hnd hm]
    · rfl
    · intro k hk hp
      have : s.alpha k = 0 := le_antisymm (not_lt.1 hp) (hnn k hk)
      rw [this]; ring
  · intro k hk b
    obtain ⟨h1, h2⟩ := (hm k).1 hk
    rw [sampleIdx_nat _ _ h1, Res_bind_ok, if_pos h2]

theorem errorOf_spec {c : Cfg K} {s : St K} (h : SmoInv c s) (i : Nat) (hi : i < c.n) :
    errorOf c s i = .ok (decisionValue c s.alpha s.bias i - (c.y i : K)) := by
  unfold errorOf
  by_cases hc : 0 < s.alpha i ∧ s.alpha i < boxC
  · rw [if_pos hc, h.cache i hi hc.1 hc.2]
  · rw [if_neg hc, function_spec h.svs h.feasible.nonneg, Res_bind_ok]

theorem _root_.MLTK.Spec.SvHolds.congr {c : Cfg K} {P Q : Nat → Prop} {s s' : St K} (h : SvHolds c P s)
    (hpq : ∀ k < c.n, P k ↔ Q k) (h1 : s'.heap = s.heap) (h2 : s'.head = s.head) (h3 : s'.sv = s.sv) :
    SvHolds c Q s' := by
  obtain ⟨hd, l, a, b, d, e, f, g⟩ := h
  refine ⟨hd, l, by rw [h2, a], by rw [h1, h2]; exact b, d, ?_, by rw [h3]; exact f, by rw [h1]; exact g⟩
  intro i
  rw [e i]
  constructor
  · rintro ⟨k, hk, rfl, hp⟩; exact ⟨k, hk, rfl, (hpq k hk).1 hp⟩
  · rintro ⟨k, hk, rfl, hp⟩; exact ⟨k, hk, rfl, (hpq k hk).2 hp⟩

/-- `saveSv` makes the list reflect the new multiplier of sample `i`. -/
theorem saveSv_spec {c : Cfg K} {P : Nat → Prop} {s : St K} (h : SvHolds c P s) (i : Nat) (hi : i < c.n)
    (na : K) (hna : 0 ≤ na) :
    ∃ s', saveSv s i na = .ok s' ∧ SvHolds c (fun k => if k = i then 0 < na else P k) s' ∧
      s'.alpha = s.alpha ∧ s'.err = s.err ∧ s'.done = s.done ∧ s'.bias = s.bias := by
  obtain ⟨hd, l, hhd, hl, hnd, hm, hsv, hlive⟩ := h
  have hiff : s.sv i = none ↔ ¬ P i := by
    constructor
    · intro hn hp
      obtain ⟨⟨p, j⟩, hmem, hj⟩ := List.mem_map.1 ((hm (i : Int)).2 ⟨i, hi, rfl, hp⟩)
      simp only at hj
      subst hj
      have := (hsv i hi p).2 hmem
      rw [hn] at this; simp at this
    · intro hp
      cases hs : s.sv i with
      | none => rfl
      | some p =>
        have := (hsv i hi p).1 hs
        obtain ⟨k, _, hk, hpk⟩ := (hm (i : Int)).1 (List.mem_map.2 ⟨_, this, rfl⟩)
        have : k = i := by omega
        subst this
        exact absurd hpk hp
  unfold saveSv
  by_cases h1 : 0 < na ∧ s.sv i = none
  · rw [if_pos h1]
    obtain ⟨h', he, hdll, hfr, hframe⟩ := append_spec s.heap s.head [] l hd (-1) hl
    simp only [List.nil_append] at hdll hframe
    rw [hhd, he, Res_bind_ok]
    simp only []
    -- the new node
    obtain ⟨_, nx0, hc0, _, nx1, hc1, hlk⟩ := hdll.linked
    have hndA := hdll.nodup
    simp only [List.map_cons, List.nodup_cons, List.mem_cons, not_or] at hndA
    obtain ⟨⟨hne, hndA1⟩, hndA2, hndA3⟩ := hndA
    simp only [Dll.modify, deref_some hc1, Res_bind_ok]
    refine ⟨_, rfl, ⟨hd, (s.heap.fresh, (i : Int)) :: l, rfl, ⟨?_, ?_, ?_⟩, ?_, ?_, ?_, ?_⟩, rfl, rfl, rfl, rfl⟩
    · intro r hr
      simp only [store] at hr ⊢
      by_cases hrr : r = s.heap.fresh
      · rw [hfr]; omega
      · simp only [hrr, if_false] at hr
        exact hdll.heapOk r hr
    · refine ⟨rfl, some s.heap.fresh, ?_, rfl, nx1, ?_, ?_⟩
      · simp only [store, hne, if_false]
        rw [hc0]
        cases ‹nx0 = some s.heap.fresh›
        rfl
      · simp [store]
      · refine Linked_congr ?_ hlk
        intro r hr
        have : r ≠ s.heap.fresh := by rintro rfl; exact hndA2 hr
        simp [store, this]
    · simp only [List.map_cons, List.nodup_cons, List.mem_cons, not_or]
      exact ⟨⟨hne, hndA1⟩, hndA2, hndA3⟩
    · simp only [List.map_cons, List.nodup_cons]
      refine ⟨?_, hnd⟩
      intro hmem
      obtain ⟨k, _, hk, hpk⟩ := (hm (i : Int)).1 hmem
      have : k = i := by omega
      subst this
      exact (hiff.1 h1.2) hpk
    · intro j
      simp only [List.map_cons, List.mem_cons]
      constructor
      · rintro (rfl | hj)
        · exact ⟨i, hi, rfl, by simp [h1.1]⟩
        · obtain ⟨k, hk, rfl, hpk⟩ := (hm j).1 hj
          refine ⟨k, hk, rfl, ?_⟩
          by_cases hki : k = i
          · simp [hki, h1.1]
          · simp [hki, hpk]
      · rintro ⟨k, hk, rfl, hpk⟩
        by_cases hki : k = i
        · left; rw [hki]
        · right
          rw [if_neg hki] at hpk
          exact (hm _).2 ⟨k, hk, rfl, hpk⟩
    · intro k hk p
      simp only [List.mem_cons]
      by_cases hki : k = i
      · subst hki
        simp only [upd_same, Option.some.injEq]
        constructor
        · rintro rfl; left; rfl
        · rintro (hp | hp)
          · exact (Prod.mk.inj hp).1.symm
          · have := (hsv k hk p).2 hp
            rw [h1.2] at this; simp at this
      · simp only [upd_other _ _ _ _ hki]
        rw [hsv k hk p]
        constructor
        · intro hp; right; exact hp
        · rintro (hp | hp)
          · have := (Prod.mk.inj hp).2
            omega
          · exact hp
    · intro r hr
      simp only [store] at hr
      by_cases hrr : r = s.heap.fresh
      · simp [hrr]
      · simp only [hrr, if_false] at hr
        by_cases hrl : r ∈ ((hd, (-1 : Int)) :: l).map Prod.fst
        · simp only [List.map_cons, List.mem_cons] at hrl ⊢; tauto
        · rw [hframe r hrr hrl] at hr
          exact absurd (hlive r hr) hrl
  · rw [if_neg h1]
    by_cases h2 : na = 0 ∧ s.sv i ≠ none
    · rw [if_pos h2]
      obtain ⟨p, hp⟩ := Option.ne_none_iff_exists'.1 h2.2
      have hmem := (hsv i hi p).1 hp
      obtain ⟨l1, l2, rfl⟩ := List.append_of_mem hmem
      -- the predecessor of the node
      obtain ⟨m1, q, j, hq⟩ : ∃ m1 q j, (hd, (-1 : Int)) :: (l1 ++ (p, (i : Int)) :: l2) = m1 ++ (q, j) :: (p, (i : Int)) :: l2 ∧
          (hd, (-1 : Int)) :: (l1 ++ l2) = m1 ++ (q, j) :: l2 := by
        rcases List.eq_nil_or_concat l1 with rfl | ⟨l1', ⟨q, j⟩, rfl⟩
        · exact ⟨[], hd, -1, rfl, rfl⟩
        · exact ⟨(hd, -1) :: l1', q, j, by simp, by simp⟩
      rw [hq.1] at hl
      obtain ⟨h', he, hdll, hfr, hcp, hframe⟩ := remove_spec s.heap s.head m1 l2 q p j i hl
      rw [hp, he, Res_bind_ok]
      have hmm : ∀ x, x ∈ (l1 ++ l2).map Prod.snd ↔ x ∈ (l1 ++ (p, (i : Int)) :: l2).map Prod.snd ∧ x ≠ (i : Int) := by
        intro x
        rw [List.map_append, List.map_cons] at hnd
        have hnd' := hnd
        rw [List.nodup_middle, List.nodup_cons] at hnd'
        simp only [List.map_append, List.map_cons, List.mem_append, List.mem_cons]
        constructor
        · intro hx
          refine ⟨by tauto, ?_⟩
          rintro rfl
          exact hnd'.1 (List.mem_append.2 hx)
        · rintro ⟨hx, hne⟩; tauto
      refine ⟨_, rfl, ⟨hd, l1 ++ l2, hhd, by rw [hq.2]; exact hdll, ?_, ?_, ?_, ?_⟩, rfl, rfl, rfl, rfl⟩
      · rw [List.map_append, List.map_cons] at hnd
        rw [List.nodup_middle, List.nodup_cons] at hnd
        rw [List.map_append]; exact hnd.2
      · intro x
        rw [hmm x, hm x]
        constructor
        · rintro ⟨⟨k, hk, rfl, hpk⟩, hne⟩
          have : k ≠ i := by omega
          exact ⟨k, hk, rfl, by simp only [if_neg this]; exact hpk⟩
        · rintro ⟨k, hk, rfl, hpk⟩
          by_cases hki : k = i
          · rw [if_pos hki, h2.1] at hpk; exact absurd hpk (lt_irrefl _)
          · rw [if_neg hki] at hpk
            exact ⟨⟨k, hk, rfl, hpk⟩, by omega⟩
      · intro k hk r
        by_cases hki : k = i
        · subst hki
          simp only [upd_same]
          constructor
          · intro hh; simp at hh
          · intro hh
            exact absurd rfl ((hmm (k : Int)).1 (List.mem_map.2 ⟨_, hh, rfl⟩)).2
        · simp only [upd_other _ _ _ _ hki]
          rw [hsv k hk r]
          simp only [List.mem_append, List.mem_cons]
          constructor
          · rintro (hh | hh | hh)
            · left; exact hh
            · have := (Prod.mk.inj hh).2; omega
            · right; exact hh
          · tauto
      · intro r hr
        have hrp : r ≠ p := by rintro rfl; exact hr hcp
        have hmemr : r ∈ ((hd, (-1 : Int)) :: (l1 ++ (p, (i : Int)) :: l2)).map Prod.fst := by
          by_contra hnm
          rw [hframe r (by rw [← hq.1]; exact hnm)] at hr
          exact hnm (hlive r hr)
        simp only [List.map_cons, List.map_append, List.mem_cons, List.mem_append] at hmemr ⊢
        tauto
    · rw [if_neg h2]
      refine ⟨s, rfl, SvHolds.congr ⟨hd, l, hhd, hl, hnd, hm, hsv, hlive⟩ ?_ rfl rfl rfl, rfl, rfl, rfl, rfl⟩
      intro k hk
      by_cases hki : k = i
      · subst hki
        rw [if_pos rfl]
        rcases lt_or_eq_of_le hna with hp | hp
        · have : s.sv k ≠ none := fun hn => h1 ⟨hp, hn⟩
          constructor
          · intro _; exact hp
          · intro _; by_contra hnp; exact this (hiff.2 hnp)
        · have : s.sv k = none := by by_contra hn; exact h2 ⟨hp.symm, hn⟩
          constructor
          · intro hpk; exact absurd hpk (hiff.1 this)
          · intro hpos; rw [← hp] at hpos; exact absurd hpos (lt_irrefl _)
      · rw [if_neg hki]

end MLTK.Smo
