import Verif.Lemmas.DoubleDsm
import Verif.Spec.DoubleDiv
/-!
# C252, C253: what the diversity of a subspace and of a feature counts
-/
namespace MLTK.Props
open MLTK.Fp MLTK.Spec
open MLTK.Sampling (setIntersection setIntersection_length)
open MLTK.Data (Res_bind_ok Res_pure)

private theorem inter_sorted : ∀ (s t : List Nat), s.Pairwise (· < ·) → t.Pairwise (· < ·) →
    setIntersection s t = t.filter (fun f => decide (f ∈ s))
  | [], t, _, _ => by rw [setIntersection]; symm; simp
  | a :: as, [], _, _ => by rw [setIntersection]; rfl
  | a :: as, b :: bs, hs, ht => by
    rw [setIntersection]
    by_cases hlt : a < b
    · rw [if_pos hlt, inter_sorted as (b :: bs) (List.pairwise_cons.1 hs).2 ht]
      apply List.filter_congr
      intro x hx
      have hbx : b ≤ x := by
        rcases List.mem_cons.1 hx with rfl | hx
        · exact Nat.le_refl _
        · exact Nat.le_of_lt ((List.pairwise_cons.1 ht).1 x hx)
      have : x ≠ a := by omega
      simp [this]
    · by_cases hlt' : b < a
      · rw [if_neg hlt, if_pos hlt', inter_sorted (a :: as) bs hs (List.pairwise_cons.1 ht).2]
        have hb : b ∉ a :: as := by
          intro h
          rcases List.mem_cons.1 h with rfl | h
          · omega
          · have := (List.pairwise_cons.1 hs).1 b h; omega
        rw [List.filter_cons_of_neg (by simpa using hb)]
      · have hab : a = b := by omega
        subst hab
        rw [if_neg hlt, if_neg hlt', inter_sorted as bs (List.pairwise_cons.1 hs).2 (List.pairwise_cons.1 ht).2,
          List.filter_cons_of_pos (by simp)]
        congr 1
        apply List.filter_congr
        intro x hx
        have := (List.pairwise_cons.1 ht).1 x hx
        have : x ≠ a := by omega
        simp [this]
termination_by s t => s.length + t.length

private theorem common_cons (a : Nat) (as t : List Nat) : commonFeatures as t ≤ commonFeatures (a :: as) t := by
  unfold commonFeatures
  refine List.Sublist.length_le (List.monotone_filter_right _ ?_)
  intro x hx
  simp only [decide_eq_true_eq] at hx ⊢
  exact List.mem_cons_of_mem _ hx

private theorem inter_le : ∀ (s t : List Nat), (setIntersection s t).length ≤ commonFeatures s t
  | [], t => by rw [setIntersection]; simp
  | a :: as, [] => by rw [setIntersection]; simp
  | a :: as, b :: bs => by
    rw [setIntersection]
    by_cases hlt : a < b
    · rw [if_pos hlt]
      exact (inter_le as (b :: bs)).trans (common_cons _ _ _)
    · by_cases hlt' : b < a
      · rw [if_neg hlt, if_pos hlt']
        refine (inter_le (a :: as) bs).trans ?_
        unfold commonFeatures
        exact List.Sublist.length_le (List.Sublist.filter _ (List.sublist_cons_self _ _))
      · have hab : a = b := by omega
        subst hab
        rw [if_neg hlt, if_neg hlt', List.length_cons]
        have h := (inter_le as bs).trans (common_cons a as bs)
        have e : commonFeatures (a :: as) (a :: bs) = commonFeatures (a :: as) bs + 1 := by
          unfold commonFeatures
          rw [List.filter_cons_of_pos (by simp), List.length_cons]
        omega
termination_by s t => s.length + t.length

private theorem share_fin {m n : Nat} (h : m ≤ n) (h0 : 0 < n) (hn : n ≤ 2 ^ 53) :
    (Dbl.ofNat m).div (.ofNat n) = .fin (near ((m : ℚ) / n)) := by
  have hn0 : (n : ℚ) ≠ 0 := by exact_mod_cast (by omega : n ≠ 0)
  rw [ofNat_eq (by omega), ofNat_eq hn, Dbl.div, if_neg hn0]
  obtain ⟨q, e, -⟩ := unit_rnd (q := (m : ℚ) / n) (by positivity) (div_le_one_of_le₀ (by exact_mod_cast h) (by positivity))
  have := (rnd_fin_inv e).1
  rw [e, this]

private theorem greatest (v : List Nat → Dbl) (g : List Nat → ℚ) (i : Nat) : ∀ (l : List (List Nat × Nat)),
    (∀ p ∈ l, v p.1 = .fin (g p.1)) → ∀ mx : ℚ, ∃ r, l.foldl (fun mx p =>
      if p.2 = i then mx
      else
        let w := v p.1
        if mx.lt w then w else mx) (Dbl.fin mx) = .fin r ∧ mx ≤ r ∧ (∀ p ∈ l, p.2 ≠ i → g p.1 ≤ r) ∧
        (r = mx ∨ ∃ p ∈ l, p.2 ≠ i ∧ r = g p.1)
  | [], _, mx => ⟨mx, rfl, le_refl _, by simp, .inl rfl⟩
  | p :: l, h, mx => by
    rw [List.foldl_cons]
    have hl := fun q hq => h q (List.mem_cons_of_mem _ hq)
    by_cases hp : p.2 = i
    · rw [if_pos hp]
      obtain ⟨r, h1, h2, h3, h4⟩ := greatest v g i l hl mx
      refine ⟨r, h1, h2, ?_, ?_⟩
      · intro q hq hqi
        rcases List.mem_cons.1 hq with rfl | hq
        · exact absurd hp hqi
        · exact h3 q hq hqi
      · rcases h4 with h4 | ⟨q, hq, h4⟩
        · exact .inl h4
        · exact .inr ⟨q, List.mem_cons_of_mem _ hq, h4⟩
    · rw [if_neg hp]
      simp only [h p (by simp)]
      by_cases hlt : mx < g p.1
      · rw [if_pos (by simpa [Dbl.lt] using hlt)]
        obtain ⟨r, h1, h2, h3, h4⟩ := greatest v g i l hl (g p.1)
        refine ⟨r, h1, by linarith, ?_, ?_⟩
        · intro q hq hqi
          rcases List.mem_cons.1 hq with rfl | hq
          · exact h2
          · exact h3 q hq hqi
        · rcases h4 with h4 | ⟨q, hq, h4⟩
          · exact .inr ⟨p, by simp, hp, h4⟩
          · exact .inr ⟨q, List.mem_cons_of_mem _ hq, h4⟩
      · rw [if_neg (by simpa [Dbl.lt] using hlt)]
        obtain ⟨r, h1, h2, h3, h4⟩ := greatest v g i l hl mx
        refine ⟨r, h1, h2, ?_, ?_⟩
        · intro q hq hqi
          rcases List.mem_cons.1 hq with rfl | hq
          · linarith
          · exact h3 q hq hqi
        · rcases h4 with h4 | ⟨q, hq, h4⟩
          · exact .inl h4
          · exact .inr ⟨q, List.mem_cons_of_mem _ hq, h4⟩

private theorem diversity (subs : List (List Nat)) (i : Nat) (hne : ∀ s ∈ subs, 0 < s.length ∧ s.length ≤ 2 ^ 53) :
    ∃ r, divMsD subs i = (Dbl.fin 1).sub (.fin r) ∧ 0 ≤ r ∧
      (∀ j t, subs[j]? = some t → j ≠ i → near (((setIntersection (subs.getD i []) t).length : ℚ) / t.length) ≤ r) ∧
      (r = 0 ∨ ∃ j t, subs[j]? = some t ∧ j ≠ i ∧ r = near (((setIntersection (subs.getD i []) t).length : ℚ) / t.length)) := by
  obtain ⟨r, h1, h2, h3, h4⟩ := greatest
    (fun t => (Dbl.ofNat (setIntersection (subs.getD i []) t).length).div (.ofNat t.length))
    (fun t => near (((setIntersection (subs.getD i []) t).length : ℚ) / t.length)) i subs.zipIdx (by
      intro p hp
      obtain ⟨g1, g2⟩ := hne p.1 (List.fst_mem_of_mem_zipIdx hp)
      exact share_fin (setIntersection_length _ _) g1 g2) 0
  refine ⟨r, by rw [divMsD]; exact congrArg _ h1, h2, ?_, ?_⟩
  · intro j t hj hji
    exact h3 (t, j) (List.mem_zipIdx_iff_getElem?.2 hj) hji
  · rcases h4 with h4 | ⟨p, hp, hpi, h4⟩
    · exact .inl h4
    · exact .inr ⟨p.2, p.1, List.mem_zipIdx_iff_getElem?.1 hp, hpi, h4⟩

private theorem common_le (s t : List Nat) : commonFeatures s t ≤ t.length := List.length_filter_le _ _

/-- **C252 (partial)** If the features of every subspace are in increasing order, `div_ms` is one minus the greatest share of another subspace that is
also in the subspace. -/
theorem C252_sorted_partial (subs : List (List Nat)) (i : Nat) (hi : i < subs.length)
    (hne : ∀ s ∈ subs, 0 < s.length ∧ s.length ≤ 2 ^ 53) (hs : ∀ s ∈ subs, s.Pairwise (· < ·)) :
    ∃ r, divMsD subs i = (Dbl.fin 1).sub (.fin r) ∧ GreatestShare subs i r := by
  obtain ⟨r, h1, -, h3, h4⟩ := diversity subs i hne
  have hsi : (subs.getD i []).Pairwise (· < ·) := by
    rw [List.getD_eq_getElem _ _ hi]
    exact hs _ (List.getElem_mem hi)
  have key : ∀ t ∈ subs, commonShare (subs.getD i []) t = .fin (near (((setIntersection (subs.getD i []) t).length : ℚ) / t.length)) := by
    intro t ht
    have e : (setIntersection (subs.getD i []) t).length = commonFeatures (subs.getD i []) t := by
      rw [inter_sorted _ _ hsi (hs t ht), commonFeatures]
    obtain ⟨g1, g2⟩ := hne t ht
    rw [e]
    exact share_fin (common_le _ _) g1 g2
  refine ⟨r, h1, ?_, ?_⟩
  · intro j t hj hji
    exact ⟨_, key t (List.mem_of_getElem? hj), h3 j t hj hji⟩
  · rcases h4 with h4 | ⟨j, t, hj, hji, h4⟩
    · exact .inl h4
    · exact .inr ⟨j, t, hj, hji, by rw [h4]; exact key t (List.mem_of_getElem? hj)⟩

example : (∀ s ∈ [[0, 2, 5], [2, 5, 7], [1, 3, 4]], 0 < s.length ∧ s.length ≤ 2 ^ 53) ∧
    (∀ s ∈ [[0, 2, 5], [2, 5, 7], [1, 3, 4]], s.Pairwise (· < ·)) ∧
    GreatestShare [[0, 2, 5, 6], [2, 4, 5, 7], [1, 3, 4, 8]] 0 (1 / 2) ∧ divMsD [[0, 2, 5, 6], [2, 4, 5, 7], [1, 3, 4, 8]] 0 = .fin (1 / 2) := by
  refine ⟨by decide, by decide, ⟨?_, .inr ⟨1, [2, 4, 5, 7], rfl, by decide, by decide +kernel⟩⟩, by decide +kernel⟩
  intro j t hj hji
  match j, hj with
  | 1, hj => obtain rfl := Option.some.inj hj; exact ⟨1 / 2, by decide +kernel, le_refl _⟩
  | 2, hj => obtain rfl := Option.some.inj hj; exact ⟨0, by decide +kernel, by norm_num⟩

/-- **C252 (partial)** In any order, the share that `div_ms` uses is at most the greatest share: the diversity is never reported too low. -/
theorem C252_not_low_partial (subs : List (List Nat)) (i : Nat) (hne : ∀ s ∈ subs, 0 < s.length ∧ s.length ≤ 2 ^ 53)
    (r : ℚ) (hr : GreatestShare subs i r) : ∃ x, divMsD subs i = (Dbl.fin 1).sub (.fin x) ∧ 0 ≤ x ∧ x ≤ r := by
  obtain ⟨x, h1, h2, -, h4⟩ := diversity subs i hne
  refine ⟨x, h1, h2, ?_⟩
  rcases h4 with h4 | ⟨j, t, hj, hji, h4⟩
  · rw [h4]
    rcases hr.2 with hr0 | ⟨j, t, hj, -, e⟩
    · rw [hr0]
    · rcases unit_share (common_le (subs.getD i []) t) with hu | ⟨q, hu, hq, -⟩
      · rw [commonShare, hu] at e; simp at e
      · rw [commonShare, hu] at e
        obtain rfl := Dbl.fin.inj e
        exact hq
  · obtain ⟨q, e, hq⟩ := hr.1 j t hj hji
    obtain ⟨g1, g2⟩ := hne t (List.mem_of_getElem? hj)
    rw [commonShare, share_fin (common_le _ _) g1 g2] at e
    obtain rfl := Dbl.fin.inj e
    refine le_trans ?_ hq
    rw [h4]
    apply near_mono
    have : ((setIntersection (subs.getD i []) t).length : ℚ) ≤ commonFeatures (subs.getD i []) t := by exact_mod_cast inter_le _ _
    exact div_le_div_of_nonneg_right this (by positivity)

/-- Two subspaces with the same features in different orders. -/
example : (∀ s ∈ [[0, 1], [1, 0]], 0 < s.length ∧ s.length ≤ 2 ^ 53) ∧ GreatestShare [[0, 1], [1, 0]] 0 1 := by
  refine ⟨by decide, ?_, .inr ⟨1, [1, 0], rfl, by decide, by decide +kernel⟩⟩
  intro j t hj hji
  match j, hj with
  | 1, hj => obtain rfl := Option.some.inj hj; exact ⟨1, by decide +kernel, le_refl _⟩

/-- **C252 (refuted)** The features 1, -1 and 5, 3 with the labels 1, -1: two subspaces of both features come out in different orders, and `div_ms`
calls them different by one half, although they hold the same features. -/
theorem C252_order_refuted (sqrt : Dbl → Dbl) (h1 : sqrt (.fin 1) = .fin 1) :
    dsmRun sqrt [[.fin 1, .fin (-1)], [.fin 5, .fin 3]] [.fin 1, .fin (-1)] 2 2 (.fin (1 / 2)) = .ok [[0, 1], [1, 0]] ∧
    divMsD [[0, 1], [1, 0]] 0 = .fin (1 / 2) ∧ GreatestShare [[0, 1], [1, 0]] 0 1 := by
  have v1 : varPoint [Dbl.fin 1, .fin (-1)] = .ok (.fin 1) := by decide +kernel
  have v2 : varPoint [Dbl.fin 5, .fin 3] = .ok (.fin 1) := by decide +kernel
  have c1 : covarPoint [Dbl.fin 1, .fin (-1)] [.fin 1, .fin (-1)] = .ok (.fin 2) := by decide +kernel
  have c2 : covarPoint [Dbl.fin 5, .fin 3] [.fin 1, .fin (-1)] = .ok (.fin 2) := by decide +kernel
  have d : (Dbl.fin 2).div ((Dbl.fin 1).mul (.fin 1)) = .fin 2 := by decide +kernel
  have q1 : qualCorrelation sqrt [.fin 1, .fin (-1)] [.fin 1, .fin (-1)] = .ok (.fin 2) := by
    simp only [qualCorrelation, stdDevPoint, v1, c1, Res_bind_ok, Res_pure, h1, d]
  have q2 : qualCorrelation sqrt [.fin 5, .fin 3] [.fin 1, .fin (-1)] = .ok (.fin 2) := by
    simp only [qualCorrelation, stdDevPoint, v1, v2, c2, Res_bind_ok, Res_pure, h1, d]
  refine ⟨?_, by decide +kernel, ?_, .inr ⟨1, [1, 0], rfl, by decide, by decide +kernel⟩⟩
  · rw [dsmRun, dsmCallD, List.mapM_cons, q1, Res_bind_ok, List.mapM_cons, q2, List.mapM_nil]
    decide +kernel
  · intro j t hj hji
    match j, hj with
    | 1, hj => obtain rfl := Option.some.inj hj; exact ⟨1, by decide +kernel, le_refl _⟩

private theorem inter_last (b : Nat) (bs : List Nat) : ∀ l : List Nat, (∀ a ∈ l, a < b) → setIntersection (l ++ [b]) (b :: bs) = [b]
  | [], _ => by
    rw [List.nil_append, setIntersection, if_neg (Nat.lt_irrefl _), if_neg (Nat.lt_irrefl _), setIntersection]
  | a :: l, h => by
    rw [List.cons_append, setIntersection, if_pos (h a (by simp))]
    exact inter_last b bs l (fun x hx => h x (List.mem_cons_of_mem _ hx))

/-- **C252 (refuted)** For all sets of features: if a subspace holds them in increasing order and another one the same in decreasing order, only one
common feature is counted, whatever their number is. -/
theorem C252_reverse_refuted (s : List Nat) (hs : s.Pairwise (· < ·)) (h0 : 0 < s.length) (hn : s.length ≤ 2 ^ 53) :
    divMsD [s, s.reverse] 0 = (Dbl.fin 1).sub ((Dbl.ofNat 1).div (.ofNat s.length)) ∧ GreatestShare [s, s.reverse] 0 1 := by
  have hone : commonShare s s.reverse = .fin 1 := by
    have e : commonFeatures s s.reverse = s.length := by
      rw [commonFeatures, List.filter_eq_self.2 (by simp), List.length_reverse]
    rw [commonShare, e, List.length_reverse, share_fin (Nat.le_refl _) h0 hn,
      div_self (by exact_mod_cast (by omega : s.length ≠ 0))]
    decide +kernel
  refine ⟨?_, ?_, .inr ⟨1, s.reverse, rfl, by decide, hone⟩⟩
  · have hi : setIntersection s s.reverse = [s.getLast (List.length_pos_iff.1 h0)] := by
      have hsplit := List.dropLast_append_getLast (List.length_pos_iff.1 h0)
      generalize s.getLast (List.length_pos_iff.1 h0) = b at hsplit
      rw [← hsplit] at hs ⊢
      rw [List.reverse_append, List.reverse_singleton, List.singleton_append]
      exact inter_last b _ _ (fun a ha => (List.pairwise_append.1 hs).2.2 a ha b (by simp))
    have hpos : 0 < near ((1 : ℕ) / (s.length : ℚ)) ∨ near ((1 : ℕ) / (s.length : ℚ)) = 0 := by
      have := near_mono (p := 0) (q := ((1 : ℕ) : ℚ) / (s.length : ℚ)) (by positivity)
      rw [near_zero] at this
      rcases this.lt_or_eq with h | h
      · exact .inl h
      · exact .inr h.symm
    unfold divMsD
    refine congrArg _ ?_
    simp only [List.zipIdx_cons, List.zipIdx_nil, List.foldl_cons, List.foldl_nil, if_true, Nat.zero_add, Nat.one_ne_zero, if_false,
      List.getD_cons_zero, hi, List.length_singleton, List.length_reverse]
    rw [share_fin (by omega) h0 hn]
    rcases hpos with h | h
    · rw [if_pos (by simpa [Dbl.lt] using h)]
    · rw [h]; simp [Dbl.lt]
  · intro j t hj hji
    match j, hj with
    | 1, hj => obtain rfl := Option.some.inj hj; exact ⟨1, hone, le_refl _⟩

example : [0, 2, 5, 7].Pairwise (· < ·) ∧ divMsD [[0, 2, 5, 7], [7, 5, 2, 0]] 0 = .fin (3 / 4) := ⟨by decide, by decide +kernel⟩

private theorem uses_count (feat : Nat) : ∀ (l : List (List Nat)) (m : Nat), m + l.length ≤ 2 ^ 53 →
    l.foldl (fun c s => if feat ∈ s then c.add (.fin 1) else c) (Dbl.fin (m : ℚ)) =
      .fin ((m + (l.filter (fun s => decide (feat ∈ s))).length : ℕ) : ℚ)
  | [], m, _ => by simp
  | s :: l, m, hm => by
    rw [List.length_cons] at hm
    rw [List.foldl_cons]
    by_cases h : feat ∈ s
    · have e : (Dbl.fin (m : ℚ)).add (.fin 1) = .fin ((m + 1 : ℕ) : ℚ) := by
        have := ofNat_eq (n := m + 1) (by omega)
        rw [← this, Dbl.add, Dbl.ofNat]
        push_cast
        rfl
      rw [if_pos h, e, uses_count feat l (m + 1) (by omega), List.filter_cons_of_pos (by simpa using h), List.length_cons]
      have hcast : m + 1 + (l.filter (fun s => decide (feat ∈ s))).length = m + ((l.filter (fun s => decide (feat ∈ s))).length + 1) := by omega
      rw [hcast]
    · rw [if_neg h, uses_count feat l m (by omega), List.filter_cons_of_neg (by simpa using h)]

private theorem uses_value (subs : List (List Nat)) (feat : Nat) (h0 : 0 < subs.length) (hk : subs.length ≤ 2 ^ 53) :
    divMxD subs feat = (Dbl.fin 1).sub (.fin (near ((usedIn subs feat : ℚ) / subs.length))) := by
  have h := uses_count feat subs 0 (by omega)
  have hle : usedIn subs feat ≤ subs.length := List.length_filter_le _ _
  rw [Nat.cast_zero, Nat.zero_add] at h
  rw [divMxD, h, ← ofNat_eq (n := (subs.filter (fun s => decide (feat ∈ s))).length) (hle.trans hk)]
  exact congrArg _ (share_fin hle h0 hk)

/-- **C253** The diversity of a feature is one minus the share of the subspaces that hold it, rounded twice: it is 1 if no subspace holds the feature,
0 if all do, and of two features the one that more subspaces hold has no greater diversity. -/
theorem C253_feature (subs : List (List Nat)) (h0 : 0 < subs.length) (hk : subs.length ≤ 2 ^ 53) :
    (∀ f, divMxD subs f = (Dbl.fin 1).sub ((Dbl.ofNat (usedIn subs f)).div (.ofNat subs.length))) ∧
    (∀ f, (∀ s ∈ subs, f ∉ s) → divMxD subs f = .fin 1) ∧
    (∀ f, (∀ s ∈ subs, f ∈ s) → divMxD subs f = .fin 0) ∧
    (∀ f g, usedIn subs f ≤ usedIn subs g → ∃ p q, divMxD subs f = .fin p ∧ divMxD subs g = .fin q ∧ q ≤ p) := by
  have hn0 : (subs.length : ℚ) ≠ 0 := by exact_mod_cast (by omega : subs.length ≠ 0)
  have hle : ∀ f, usedIn subs f ≤ subs.length := fun f => List.length_filter_le _ _
  refine ⟨?_, ?_, ?_, ?_⟩
  · intro f
    rw [uses_value subs f h0 hk, share_fin (hle f) h0 hk]
  · intro f hf
    have e : usedIn subs f = 0 := by
      rw [usedIn, List.length_eq_zero_iff, List.filter_eq_nil_iff]
      simpa using hf
    rw [uses_value subs f h0 hk, e, Nat.cast_zero, zero_div]
    decide +kernel
  · intro f hf
    have e : usedIn subs f = subs.length := by
      rw [usedIn, List.filter_eq_self.2 (by simpa using hf)]
    rw [uses_value subs f h0 hk, e, div_self hn0]
    decide +kernel
  · intro f g hfg
    obtain ⟨p, ep, -, -⟩ := unit_divMx subs f (List.length_pos_iff.1 h0) hk
    obtain ⟨q, eq, -, -⟩ := unit_divMx subs g (List.length_pos_iff.1 h0) hk
    refine ⟨p, q, ep, eq, ?_⟩
    rw [uses_value subs f h0 hk, sub_fin] at ep
    rw [uses_value subs g h0 hk, sub_fin] at eq
    have hp := (rnd_fin_inv ep).1
    have hq := (rnd_fin_inv eq).1
    rw [hp, hq]
    apply near_mono
    have : near ((usedIn subs f : ℚ) / subs.length) ≤ near ((usedIn subs g : ℚ) / subs.length) :=
      near_mono (div_le_div_of_nonneg_right (by exact_mod_cast hfg) (by positivity))
    linarith

example : 0 < [[0, 1], [1, 2], [1, 0]].length ∧ usedIn [[0, 1], [1, 2], [1, 0]] 2 ≤ usedIn [[0, 1], [1, 2], [1, 0]] 0 ∧
    divMxD [[0, 1], [1, 2], [1, 0]] 1 = .fin 0 ∧ divMxD [[0, 1], [1, 2], [1, 0]] 5 = .fin 1 ∧
    divMxD [[0, 1], [1, 2]] 0 = .fin (1 / 2) := by
  refine ⟨by decide, by decide, by decide +kernel, by decide +kernel, by decide +kernel⟩

end MLTK.Props
