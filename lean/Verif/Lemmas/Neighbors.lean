import Mathlib.Tactic.Linarith
import Mathlib.Data.Finset.Sort
import Mathlib.Data.List.GetD
import Mathlib.Algebra.BigOperators.Group.Finset.Basic
import Mathlib.Algebra.Order.BigOperators.Group.Finset
import Verif.Lemmas.Features
import Verif.Spec.Neighbors
/-!
# Lemmas about the nearest-neighbour models
-/
namespace MLTK.Knn
open MLTK.Data (Res_bind_ok Res_bind_error Res_pure)
open MLTK.Spec

/-- A loop over a vector whose `i`-th step yields `d i`. -/
theorem mapM_index {α β : Type} (f : α → Res β) : ∀ (l : List α) (d : Nat → β),
    (∀ i q, l[i]? = some q → f q = .ok (d i)) → l.mapM f = .ok ((List.range l.length).map d)
  | [], _, _ => rfl
  | a :: l, d, h => by
    rw [List.mapM_cons, h 0 a rfl, Res_bind_ok,
      mapM_index f l (fun i => d (i + 1)) (fun i q hq => h (i + 1) q (by simpa using hq)), Res_bind_ok,
      List.length_cons, List.range_succ_eq_map]
    simp [Res_pure, Function.comp_def]

section
variable {T K : Type} [Field K] [LinearOrder K]

/-- A comparison by key is a strict weak order. -/
theorem strictWeak_key (key : Nat → K) (l : List Nat) :
    StrictWeak (fun i j => decide (key i < key j)) l where
  irrefl a _ := by simp
  trans a _ b _ c _ h1 h2 := by simp only [decide_eq_true_eq] at *; exact h1.trans h2
  incomp a _ b _ c _ h1 h2 h3 h4 := by
    simp only [decide_eq_false_iff_not, not_lt] at *
    exact ⟨h3.trans h1, h2.trans h4⟩

/-- Strict weak orders that agree on the list are interchangeable. -/
theorem strictWeak_congr {lt lt' : Nat → Nat → Bool} {l : List Nat} (h : StrictWeak lt l)
    (he : ∀ a ∈ l, ∀ b ∈ l, lt' a b = lt a b) : StrictWeak lt' l where
  irrefl a ha := by rw [he a ha a ha]; exact h.irrefl a ha
  trans a ha b hb c hc h1 h2 := by
    rw [he a ha b hb] at h1; rw [he b hb c hc] at h2; rw [he a ha c hc]; exact h.trans a ha b hb c hc h1 h2
  incomp a ha b hb c hc h1 h2 h3 h4 := by
    rw [he a ha b hb] at h1; rw [he b hb a ha] at h2; rw [he b hb c hc] at h3; rw [he c hc b hb] at h4
    rw [he a ha c hc, he c hc a ha]; exact h.incomp a ha b hb c hc h1 h2 h3 h4

/-- The first `k` entries of a rearrangement of `0 … n-1` as a set. -/
theorem nearest_of_perm (key : Nat → K) {n k : Nat} (hk : k ≤ n) {l : List Nat}
    (hp : l.Perm (List.range n)) (ho : ∀ a ∈ l.take k, ∀ b ∈ l.drop k, key a ≤ key b) :
    KNearest key n k (l.take k).toFinset ∧ (l.take k).Nodup := by
  have hnd : l.Nodup := hp.nodup_iff.mpr List.nodup_range
  have hlen : l.length = n := by simpa using hp.length_eq
  have hnd' : (l.take k).Nodup := hnd.sublist (List.take_sublist _ _)
  refine ⟨⟨?_, ?_, ?_⟩, hnd'⟩
  · intro i hi
    have := hp.mem_iff.mp (List.mem_of_mem_take (List.mem_toFinset.mp hi))
    simpa using this
  · rw [List.toFinset_card_of_nodup hnd', List.length_take]; omega
  · intro i hi j hj hni
    have hjl : j ∈ l := hp.mem_iff.mpr (by simpa using hj)
    rw [← List.take_append_drop k l, List.mem_append] at hjl
    rcases hjl with hjl | hjl
    · exact absurd (List.mem_toFinset.mpr hjl) hni
    · exact ho i (List.mem_toFinset.mp hi) j hjl

theorem frequency_eq (samples : List (Pt T)) (near : List Nat) (hn : near.Nodup) (c : Int) :
    frequency true samples near c = votesIn samples near.toFinset c := by
  unfold frequency votesIn
  rw [if_pos rfl, List.countP_eq_length_filter,
    ← List.toFinset_card_of_nodup (hn.filter _), List.toFinset_filter]
  simp

/-- The scan over the classes finds the earliest best class. -/
theorem scan_spec (freq : Int → Nat) (k n : Nat) (s : K) (classes : List Int) :
    ∀ (cs : List Int) (i : Nat) (st : Nat × Nat × K), classes.drop i = cs → st.2.1 < classes.length →
      st.2.1 ≤ i →
      (∀ c ∈ classes.take i, freq c ≤ st.1) →
      (st.1 = 0 ∧ st.2.1 = 0 ∧ st.2.2 = 0 ∨ st.1 > 0 ∧ st.2.1 < i ∧ freq (classes.getD st.2.1 0) = st.1 ∧
        st.2.2 = ((st.1 : K) + s) / ((k : K) + (n : K) * s)) →
      (∀ c ∈ classes.take st.2.1, freq c < st.1) →
      let r := scan freq k n s cs i st
      r.2.1 < classes.length ∧ (∀ c ∈ classes, freq c ≤ r.1) ∧
        (∀ c ∈ classes.take r.2.1, freq c < r.1) ∧
        (r.1 = 0 ∧ r.2.1 = 0 ∧ r.2.2 = 0 ∨ freq (classes.getD r.2.1 0) = r.1 ∧
          r.2.2 = ((r.1 : K) + s) / ((k : K) + (n : K) * s)) := by
  intro cs
  induction cs with
  | nil =>
    intro i st hd hl _ h1 h2 h3
    simp only [scan]
    have : classes.take i = classes := List.take_of_length_le (List.drop_eq_nil_iff.mp hd)
    rw [this] at h1
    refine ⟨hl, h1, h3, ?_⟩
    rcases h2 with h | h
    · exact Or.inl h
    · exact Or.inr ⟨h.2.2.1, h.2.2.2⟩
  | cons c cs ih =>
    intro i st hd hl hi h1 h2 h3
    have hil : i < classes.length := by
      by_contra hc
      rw [List.drop_eq_nil_iff.mpr (by omega)] at hd
      exact absurd hd (by simp)
    have hget : classes.getD i 0 = c := by
      have := List.drop_eq_getElem_cons hil
      rw [hd] at this
      rw [List.getD_eq_getElem _ _ hil]
      exact (List.cons.inj this).1.symm
    have hd' : classes.drop (i + 1) = cs := by
      rw [← List.drop_drop, hd]; simp
    have htake : classes.take (i + 1) = classes.take i ++ [c] := by
      rw [List.take_add_one, List.getElem?_eq_getElem hil]
      rw [List.getD_eq_getElem _ _ hil] at hget
      simp [hget]
    unfold scan
    by_cases hc : freq c > st.1
    · rw [if_pos hc]
      apply ih (i + 1) _ hd' hil (by simp)
      · intro c' hc'
        rw [htake, List.mem_append, List.mem_singleton] at hc'
        rcases hc' with hc' | rfl
        · exact (h1 c' hc').trans hc.le
        · exact le_rfl
      · refine Or.inr ⟨by simp only; omega, by simp, by simp only [hget], rfl⟩
      · intro c' hc'
        exact (h1 c' hc').trans_lt hc
    · rw [if_neg hc]
      apply ih (i + 1) st hd' hl (by omega)
      · intro c' hc'
        rw [htake, List.mem_append, List.mem_singleton] at hc'
        rcases hc' with hc' | rfl
        · exact h1 c' hc'
        · omega
      · rcases h2 with h | h
        · exact Or.inl h
        · exact Or.inr ⟨h.1, by omega, h.2.2⟩
      · exact h3

/-- Outcome of the scan started as in the code. -/
theorem scan_start (freq : Int → Nat) (k n : Nat) (s : K) (classes : List Int) (hne : classes ≠ []) :
    let r := scan freq k n s classes 0 (0, 0, (0 : K))
    ∃ c, vget classes r.2.1 = .ok c ∧ FirstBest classes freq c ∧
      r.2.2 = (if freq c = 0 then 0 else ((freq c : K) + s) / ((k : K) + (n : K) * s)) := by
  intro r
  have hlen : 0 < classes.length := List.length_pos_iff.mpr hne
  obtain ⟨h1, h2, h3, h4⟩ := scan_spec freq k n s classes classes 0 (0, 0, (0 : K)) rfl hlen le_rfl
    (by simp) (Or.inl ⟨rfl, rfl, rfl⟩) (by simp)
  refine ⟨classes[r.2.1], by simp [r, List.getElem?_eq_getElem h1], ?_, ?_⟩
  · have hfr : freq classes[r.2.1] = r.1 := by
      rcases h4 with h | h
      · have := h2 classes[r.2.1] (List.getElem_mem _)
        have h0 : r.1 = 0 := h.1
        omega
      · rw [List.getD_eq_getElem _ _ h1] at h; exact h.1
    refine ⟨classes.take r.2.1, classes.drop (r.2.1 + 1), ?_, ?_, ?_⟩
    · rw [← List.drop_eq_getElem_cons h1, List.take_append_drop]
    · intro c hc; rw [hfr]; exact h2 c hc
    · intro c hc; rw [hfr]; exact h3 c hc
  · rcases h4 with h | h
    · have h5 := h2 classes[r.2.1] (List.getElem_mem _)
      have h0 : r.1 = 0 := h.1
      rw [if_pos (by omega)]; exact h.2.2
    · rw [List.getD_eq_getElem _ _ h1] at h
      by_cases h0 : freq classes[r.2.1] = 0
      · rw [if_pos h0]
        -- the maximum is zero: the initial state was never replaced
        have hmax : ∀ c ∈ classes, freq c = 0 := fun c hc => by
          have h5 : freq c ≤ r.1 := h2 c hc
          have h6 : r.1 = 0 := h.1.symm.trans h0
          omega
        have key : ∀ (cs : List Int) (i : Nat), (∀ c ∈ cs, freq c = 0) →
            scan freq k n s cs i (0, 0, (0 : K)) = (0, 0, 0) := by
          intro cs
          induction cs with
          | nil => intro i _; rfl
          | cons c cs ih =>
            intro i hcs
            unfold scan
            rw [if_neg (by simp [hcs c (by simp)])]
            exact ih _ (fun c' hc' => hcs c' (by simp [hc']))
        have : r = (0, 0, 0) := key classes 0 hmax
        rw [this]
      · rw [if_neg h0, h.1]; exact h.2

/-- Common part of the theorems about `evaluate`: the comparator orders the samples by `d`. -/
theorem evaluate_spec {nth : NthFn} (hnth : NthElement nth) (c : Cfg K) (hb : c.brute = true)
    (dist : List T → List T → Res K) {dim : Nat} {samples : List (Pt T)} {classes : List Int} {p : Pt T}
    (hdim : dim = p.x.length) (hk : c.k ≤ samples.length) (hc : classes ≠ []) (d : Nat → K)
    (keys : List K) (hkeys : samples.mapM (keyOf c dist p) = .ok keys)
    (hless : ∀ i < samples.length, ∀ j < samples.length, less c p samples keys i j = decide (d i < d j)) :
    ∃ (S : Finset Nat) (r : Int) (q : K), KNearest d samples.length c.k S ∧
      evaluate nth c dist dim samples classes p = .ok (r, q) ∧ FirstBest classes (votesIn samples S) r ∧
      q = reported (if votesIn samples S r = 0 then 0 else
        ((votesIn samples S r : K) + smooth) / ((c.k : K) + (classes.length : K) * smooth)) := by
  have hsw : StrictWeak (less c p samples keys) (List.range samples.length) := by
    apply strictWeak_congr (strictWeak_key d _)
    intro a ha b hb
    exact hless a (by simpa using ha) b (by simpa using hb)
  obtain ⟨hp, ho⟩ := hnth _ c.k (List.range samples.length) (by simpa using hk) hsw
  set l := nth (less c p samples keys) c.k (List.range samples.length) with hl
  have hmem : ∀ a ∈ l, a < samples.length := fun a ha => by simpa using hp.mem_iff.mp ha
  have ho' : ∀ a ∈ l.take c.k, ∀ b ∈ l.drop c.k, d a ≤ d b := by
    intro a ha b hb'
    have := ho a ha b hb'
    rw [hless b (hmem b (List.mem_of_mem_drop hb')) a (hmem a (List.mem_of_mem_take ha))] at this
    simpa using this
  obtain ⟨hS, hnd⟩ := nearest_of_perm d hk hp ho'
  obtain ⟨r, h1, h2, h3⟩ := scan_start (frequency true samples (l.take c.k)) c.k classes.length
    (smooth : K) classes hc
  have hfr : frequency true samples (l.take c.k) = votesIn samples (l.take c.k).toFinset := by
    funext x; exact frequency_eq samples _ hnd x
  refine ⟨(l.take c.k).toFinset, r, _, hS, ?_, by rw [hfr] at h2; exact h2, rfl⟩
  have hn : neighbours nth c dist samples p = .ok (l.take c.k) := by
    unfold neighbours
    rw [if_pos hb, hkeys, Res_bind_ok, if_neg (by omega)]
  unfold evaluate decideClass
  rw [if_neg (by simp [hdim]), hn, Res_bind_ok, hb]
  dsimp only
  rw [h1, Res_bind_ok, h3, hfr]
  rfl

/-! ### An implementation of `nth_element` -/

/-- Sorting the whole range implements `nth_element`. -/
def sortNth : NthFn := fun lt _ l => l.insertionSort (fun a b => lt b a = false)

theorem sortNth_ok : NthElement sortNth := by
  intro lt n l hn hs
  have hp : (sortNth lt n l).Perm l := List.perm_insertionSort _ l
  refine ⟨hp, ?_⟩
  -- the relation is total and transitive on the members of `l`
  have htot : ∀ a ∈ l, ∀ b ∈ l, lt b a = false ∨ lt a b = false := by
    intro a ha b hb
    by_contra hc
    push Not at hc
    have h1 : lt b a = true := by simpa using hc.1
    have h2 : lt a b = true := by simpa using hc.2
    have := hs.trans a ha b hb a ha h2 h1
    rw [hs.irrefl a ha] at this
    exact absurd this (by simp)
  have htr : ∀ a ∈ l, ∀ b ∈ l, ∀ c ∈ l, lt b a = false → lt c b = false → lt c a = false := by
    intro a ha b hb c hc h1 h2
    by_contra hca
    have hca : lt c a = true := by simpa using hca
    cases h3 : lt a b with
    | true => 
      have := hs.trans c hc a ha b hb hca h3
      rw [h2] at this; exact absurd this (by simp)
    | false =>
      cases h4 : lt b c with
      | true =>
        have := hs.trans b hb c hc a ha h4 hca
        rw [h1] at this; exact absurd this (by simp)
      | false =>
        have := (hs.incomp a ha b hb c hc h3 h1 h4 h2).2
        rw [hca] at this; exact absurd this (by simp)
  have hsort : ∀ m : List Nat, (∀ a ∈ m, a ∈ l) →
      (m.insertionSort (fun a b => lt b a = false)).Pairwise (fun a b => lt b a = false) := by
    intro m
    induction m with
    | nil => intro _; simp
    | cons a m ih =>
      intro hm
      have ihm := ih (fun x hx => hm x (by simp [hx]))
      rw [List.insertionSort_cons]
      have hmm : ∀ x ∈ m.insertionSort (fun a b => lt b a = false), x ∈ l := fun x hx =>
        hm x (by simp [(List.perm_insertionSort _ m).mem_iff.mp hx])
      generalize m.insertionSort (fun a b => lt b a = false) = t at ihm hmm
      have haL := hm a (by simp)
      clear ih hm
      induction t with
      | nil => simp
      | cons b t iht =>
        rw [List.orderedInsert_cons]
        have hbL := hmm b (by simp)
        rw [List.pairwise_cons] at ihm
        by_cases hab : lt b a = false
        · rw [if_pos hab, List.pairwise_cons]
          refine ⟨?_, List.pairwise_cons.mpr ihm⟩
          intro x hx
          rcases List.mem_cons.mp hx with rfl | hx
          · exact hab
          · exact htr a haL b hbL x (hmm x (by simp [hx])) hab (ihm.1 x hx)
        · rw [if_neg hab, List.pairwise_cons]
          refine ⟨?_, iht ihm.2 (fun x hx => hmm x (by simp [hx]))⟩
          intro x hx
          rw [List.mem_orderedInsert] at hx
          rcases hx with rfl | hx
          · exact (htot b hbL x haL).resolve_right hab
          · exact ihm.1 x hx
  have := hsort l (fun a ha => ha)
  intro a ha b hb
  have h2 : ((sortNth lt n l).take n ++ (sortNth lt n l).drop n).Pairwise (fun a b => lt b a = false) := by
    rw [List.take_append_drop]; exact this
  exact (List.pairwise_append.mp h2).2.2 a ha b hb

end
end MLTK.Knn
