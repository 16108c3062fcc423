import Mathlib.Tactic.Linarith
import Mathlib.Tactic.FieldSimp
import Mathlib.Tactic.Ring
import Mathlib.Tactic.Positivity
import Mathlib.Data.List.GetD
import Mathlib.Data.List.Nodup
import Mathlib.Algebra.Order.Floor.Ring
import Verif.Model.Sampling
import Verif.Lemmas.Util
import Verif.Lemmas.Features
/-!
# Lemmas about feature subspaces
-/
namespace MLTK.Sampling
open MLTK.Data

theorem rsmCall_ok {n dims : Nat} (hn : n ≤ dims) {σ : List Nat → List Nat} (hσ : ∀ l, (σ l).Perm l) {feats : List Nat}
    (hf : feats.Perm (List.range dims)) :
    rsmCall n σ feats = .ok ((σ feats).take n, σ feats) ∧ (σ feats).Perm (List.range dims) := by
  have hp := (hσ feats).trans hf
  have hl : (σ feats).length = dims := by rw [hp.length_eq, List.length_range]
  refine ⟨?_, hp⟩
  have e : (List.range n).mapM (fun j => vget (σ feats) j) = .ok ((List.range n).map (fun j => (σ feats).getD j 0)) := by
    apply Feat.mapM_ok
    intro j hj
    rw [List.mem_range] at hj
    have : j < (σ feats).length := by omega
    simp only [vget, List.getElem?_eq_getElem this, List.getD_eq_getElem _ _ this]
  have e2 : (List.range n).map (fun j => (σ feats).getD j 0) = (σ feats).take n := by
    apply List.ext_getElem
    · simp [hl, hn]
    · intro i h1 h2
      simp only [List.length_map, List.length_range] at h1
      have : i < (σ feats).length := by omega
      simp [List.getElem?_eq_getElem this]
  unfold rsmCall
  simp only [e, Res_bind_ok, Res_pure, e2]

theorem rsmCalls_ok {n dims : Nat} (hn : n ≤ dims) : ∀ (σs : List (List Nat → List Nat)) (_ : ∀ σ ∈ σs, ∀ l, (σ l).Perm l)
    (feats : List Nat) (_ : feats.Perm (List.range dims)),
    ∃ ls, rsmCalls n σs feats = .ok ls ∧ ls.length = σs.length ∧ ∀ l ∈ ls, l.length = n ∧ l.Nodup ∧ ∀ f ∈ l, f < dims
  | [], _, _, _ => ⟨[], rfl, rfl, by simp⟩
  | σ :: σs, hσ, feats, hf => by
    obtain ⟨e, hp⟩ := rsmCall_ok hn (hσ σ (by simp)) hf
    obtain ⟨ls, e2, h1, h2⟩ := rsmCalls_ok hn σs (fun s hs => hσ s (by simp [hs])) (σ feats) hp
    refine ⟨(σ feats).take n :: ls, ?_, by simp [h1], ?_⟩
    · simp only [rsmCalls, e, Res_bind_ok, e2, Res_pure]
    · intro l hl
      rcases List.mem_cons.1 hl with rfl | hl
      · refine ⟨?_, ?_, ?_⟩
        · rw [List.length_take, hp.length_eq, List.length_range]; omega
        · exact (hp.nodup_iff.2 List.nodup_range).sublist (List.take_sublist _ _)
        · intro f hf'
          exact List.mem_range.1 (hp.mem_iff.1 (List.mem_of_mem_take hf'))
      · exact h2 l hl

/-! ### Diverse subspaces -/

theorem setIntersection_length : ∀ as bs : List Nat, (setIntersection as bs).length ≤ bs.length
  | [], bs => by simp [setIntersection]
  | a :: as, [] => by simp [setIntersection]
  | a :: as, b :: bs => by
    rw [setIntersection]
    split
    · exact setIntersection_length as (b :: bs)
    · split
      · have := setIntersection_length (a :: as) bs
        simp only [List.length_cons]; omega
      · have := setIntersection_length as bs
        simp only [List.length_cons]; omega
termination_by as bs => as.length + bs.length

theorem divMs_nonneg (subs : List (List Nat)) (i : Nat) : 0 ≤ divMs subs i := by
  have key : ∀ (l : List (List Nat × Nat)) (mx : ℚ), mx ≤ 1 → l.foldl (fun mx p =>
      if p.2 = i then mx
      else
        let v : ℚ := ((setIntersection (subs.getD i []) p.1).length : ℚ) / (p.1.length : ℚ)
        if v > mx then v else mx) mx ≤ 1 := by
    intro l
    induction l with
    | nil => intro mx h; exact h
    | cons p l ih =>
      intro mx h
      rw [List.foldl_cons]
      apply ih
      split
      · exact h
      · dsimp only
        split
        · have h1 : ((setIntersection (subs.getD i []) p.1).length : ℚ) ≤ (p.1.length : ℚ) := by
            exact_mod_cast setIntersection_length _ _
          rcases Nat.eq_zero_or_pos p.1.length with h0 | h0
          · rw [h0]; simp
          · rw [div_le_one (by exact_mod_cast h0)]
            exact h1
        · exact h
  unfold divMs
  have := key subs.zipIdx 0 (by norm_num)
  linarith

theorem divMx_nonneg (subs : List (List Nat)) (feat : Nat) : 0 ≤ divMx subs feat := by
  have key : ∀ (l : List (List Nat)) (c : ℚ),
      l.foldl (fun c s => if feat ∈ s then c + 1 else c) c ≤ c + (l.length : ℚ) := by
    intro l
    induction l with
    | nil => intro c; simp
    | cons s l ih =>
      intro c
      rw [List.foldl_cons]
      refine le_trans (ih _) ?_
      push_cast [List.length_cons]
      split <;> linarith
  unfold divMx
  have h := key subs 0
  rcases Nat.eq_zero_or_pos subs.length with h0 | h0
  · rw [h0]; simp
  · have : (subs.foldl (fun c s => if feat ∈ s then c + 1 else c) (0 : ℚ)) / (subs.length : ℚ) ≤ 1 := by
      rw [div_le_one (by exact_mod_cast h0)]
      linarith
    linarith

theorem firstMax_spec (f : Nat → ℚ) : ∀ n, 0 < n →
    firstMax f n < n ∧ (∀ c < n, f c ≤ f (firstMax f n)) ∧ ∀ c < firstMax f n, f c < f (firstMax f n)
  | 0, h => absurd h (Nat.lt_irrefl 0)
  | 1, _ => by
    have e : firstMax f 1 = 0 := by simp [firstMax, List.range_succ]
    rw [e]
    exact ⟨by omega, fun c hc => by have : c = 0 := by omega
                                    rw [this], fun c hc => by omega⟩
  | n + 2, _ => by
    obtain ⟨h1, h2, h3⟩ := firstMax_spec f (n + 1) (by omega)
    have e : firstMax f (n + 2) = if f (firstMax f (n + 1)) < f (n + 1) then n + 1 else firstMax f (n + 1) := by
      unfold firstMax
      rw [List.range_succ (n := n + 1), List.foldl_append]
      rfl
    rw [e]
    split
    · rename_i hlt
      refine ⟨by omega, ?_, ?_⟩
      · intro c hc
        rcases Nat.lt_or_ge c (n + 1) with h | h
        · exact le_of_lt (lt_of_le_of_lt (h2 c h) hlt)
        · have : c = n + 1 := by omega
          rw [this]
      · intro c hc
        exact lt_of_le_of_lt (h2 c hc) hlt
    · rename_i hlt
      refine ⟨by omega, ?_, h3⟩
      intro c hc
      rcases Nat.lt_or_ge c (n + 1) with h | h
      · exact h2 c h
      · have : c = n + 1 := by omega
        rw [this]
        exact not_lt.1 hlt

/-- If some feature is not used yet, an unused one is chosen. -/
theorem choose_unused {corr : Nat → ℚ} {alpha : ℚ} (ha : 0 ≤ alpha) (ha1 : alpha ≤ 1) {dim : Nat} (hc : ∀ c < dim, |corr c| ≤ 1)
    (subs : List (List Nat)) (j : Nat) (hex : ∃ c < dim, c ∉ subs.getD j []) :
    firstMax (dsmScore corr alpha subs j) dim < dim ∧ firstMax (dsmScore corr alpha subs j) dim ∉ subs.getD j [] := by
  obtain ⟨c, hcd, hcn⟩ := hex
  obtain ⟨h1, h2, _⟩ := firstMax_spec (dsmScore corr alpha subs j) dim (by omega)
  refine ⟨h1, fun hmem => ?_⟩
  have h3 := h2 c hcd
  unfold dsmScore at h3
  rw [if_neg hcn] at h3
  unfold dsmScore at hmem
  rw [if_pos hmem] at h3
  have h4 := abs_le.1 (hc c hcd)
  have h5 : 0 ≤ divM subs j c := by
    unfold divM
    have := divMs_nonneg subs j
    have := divMx_nonneg subs c
    linarith
  have h6 : 0 ≤ (1 - alpha) * divM subs j c := mul_nonneg (by linarith) h5
  have h7 : -alpha ≤ alpha * corr c := by nlinarith [h4.1]
  linarith

theorem exists_unused {dim : Nat} {l : List Nat} (h : (l.filter (· < dim)).length < dim) : ∃ c < dim, c ∉ l := by
  by_contra hcon
  push Not at hcon
  have hsub : List.range dim ⊆ l.filter (· < dim) := by
    intro c hc
    have hc' := List.mem_range.1 hc
    exact List.mem_filter.2 ⟨hcon c hc', by simpa using hc'⟩
  have := (List.nodup_range (n := dim)).subperm hsub |>.length_le
  rw [List.length_range] at this
  omega

/-- A round turns every subspace with `P` into one with `Q`. -/
theorem dsmRound_inv {corr : Nat → ℚ} {alpha : ℚ} {dim i : Nat} (P Q : List Nat → Prop)
    (step : ∀ (s : List (List Nat)) (j : Nat), j < s.length → P (s.getD j []) →
      Q ((s.getD j []).set i (firstMax (dsmScore corr alpha s j) dim))) (subs : List (List Nat)) (h : ∀ s ∈ subs, P s) :
    (dsmRound corr alpha dim i subs).length = subs.length ∧ ∀ s ∈ dsmRound corr alpha dim i subs, Q s := by
  have key : ∀ k, k ≤ subs.length →
      ((List.range k).foldl (fun s j => s.set j ((s.getD j []).set i (firstMax (dsmScore corr alpha s j) dim))) subs).length
        = subs.length ∧
      (∀ j < k, Q (((List.range k).foldl (fun s j => s.set j ((s.getD j []).set i (firstMax (dsmScore corr alpha s j) dim)))
        subs).getD j [])) ∧
      (∀ j, k ≤ j → j < subs.length → P (((List.range k).foldl (fun s j => s.set j ((s.getD j []).set i
        (firstMax (dsmScore corr alpha s j) dim))) subs).getD j [])) := by
    intro k
    induction k with
    | zero =>
      intro _
      refine ⟨rfl, by omega, ?_⟩
      intro j _ hj
      simp only [List.range_zero, List.foldl_nil]
      rw [List.getD_eq_getElem _ _ hj]
      exact h _ (List.getElem_mem hj)
    | succ k ih =>
      intro hk
      obtain ⟨h1, h2, h3⟩ := ih (by omega)
      rw [List.range_succ, List.foldl_append, List.foldl_cons, List.foldl_nil]
      set s := (List.range k).foldl (fun s j => s.set j ((s.getD j []).set i (firstMax (dsmScore corr alpha s j) dim))) subs
        with hs
      have hks : k < s.length := by omega
      refine ⟨by rw [List.length_set, h1], ?_, ?_⟩
      · intro j hj
        by_cases hjk : j = k
        · subst hjk
          rw [List.getD_eq_getElem _ _ (by rw [List.length_set]; exact hks), List.getElem_set_self]
          exact step s j hks (h3 j (Nat.le_refl _) (by omega))
        · have hj' : j < s.length := by omega
          rw [List.getD_eq_getElem _ _ (by rw [List.length_set]; exact hj'), List.getElem_set_ne (by omega),
            ← List.getD_eq_getElem _ [] hj']
          exact h2 j (by omega)
      · intro j hj hjl
        have hj' : j < s.length := by omega
        rw [List.getD_eq_getElem _ _ (by rw [List.length_set]; exact hj'), List.getElem_set_ne (by omega),
          ← List.getD_eq_getElem _ [] hj']
        exact h3 j (by omega) hjl
  obtain ⟨h1, h2, _⟩ := key subs.length (Nat.le_refl _)
  refine ⟨h1, ?_⟩
  intro s hs
  obtain ⟨j, hj, hje⟩ := List.getElem_of_mem hs
  have := h2 j (by rw [← h1]; exact hj)
  rw [← hje, ← List.getD_eq_getElem _ [] hj]
  exact this

/-- The first `i` places of a subspace hold distinct features, the others are unset. -/
def Filled (dim n i : Nat) (s : List Nat) : Prop :=
  ∃ l, s = l ++ List.replicate (n - i) unset ∧ l.length = i ∧ l.Nodup ∧ ∀ f ∈ l, f < dim

/-- A subspace of `n` distinct features. -/
def Good (dim n : Nat) (s : List Nat) : Prop := s.length = n ∧ s.Nodup ∧ ∀ f ∈ s, f < dim

theorem filled_step {corr : Nat → ℚ} {alpha : ℚ} (ha : 0 ≤ alpha) (ha1 : alpha ≤ 1) {dim : Nat} (hc : ∀ c < dim, |corr c| ≤ 1)
    (hdim : dim ≤ unset) {n i : Nat} (hi : i < n) (hn : n ≤ dim) (s : List (List Nat)) (j : Nat)
    (h : Filled dim n i (s.getD j [])) :
    Filled dim n (i + 1) ((s.getD j []).set i (firstMax (dsmScore corr alpha s j) dim)) := by
  obtain ⟨l, hl, hlen, hnd, hlt⟩ := h
  have hex : ∃ c < dim, c ∉ s.getD j [] := by
    apply exists_unused
    rw [hl, List.filter_append, List.length_append]
    have h1 : ((List.replicate (n - i) unset).filter (· < dim)).length = 0 := by
      rw [List.length_eq_zero_iff, List.filter_eq_nil_iff]
      intro x hx
      rw [List.eq_of_mem_replicate hx]
      simpa using hdim
    have h2 := List.length_filter_le (fun x => decide (x < dim)) l
    omega
  obtain ⟨h1, h2⟩ := choose_unused ha ha1 hc s j hex
  refine ⟨l ++ [firstMax (dsmScore corr alpha s j) dim], ?_, by simp [hlen], ?_, ?_⟩
  · generalize firstMax (dsmScore corr alpha s j) dim = b at *
    rw [hl]
    obtain ⟨r, hr⟩ : ∃ r, n - i = r + 1 := ⟨n - i - 1, by omega⟩
    have hr' : n - (i + 1) = r := by omega
    rw [hr, hr', List.replicate_succ, List.set_append_right _ _ (by omega), hlen, Nat.sub_self, List.set_cons_zero]
    simp
  · refine List.nodup_append.2 ⟨hnd, by simp, ?_⟩
    intro a ha b hb hab
    rw [List.mem_singleton] at hb
    apply h2
    rw [← hb, ← hab, hl]
    exact List.mem_append_left _ ha
  · intro f hf
    rcases List.mem_append.1 hf with hf | hf
    · exact hlt f hf
    · rw [List.mem_singleton] at hf
      rw [hf]; exact h1

theorem good_step {corr : Nat → ℚ} {alpha : ℚ} (ha : 0 ≤ alpha) (ha1 : alpha ≤ 1) {dim : Nat} (hc : ∀ c < dim, |corr c| ≤ 1)
    {n i : Nat} (hn : n < dim) (s : List (List Nat)) (j : Nat) (h : Good dim n (s.getD j [])) :
    Good dim n ((s.getD j []).set i (firstMax (dsmScore corr alpha s j) dim)) := by
  obtain ⟨hlen, hnd, hlt⟩ := h
  have hex : ∃ c < dim, c ∉ s.getD j [] := by
    apply exists_unused
    have h2 := List.length_filter_le (fun x => decide (x < dim)) (s.getD j [])
    omega
  obtain ⟨h1, h2⟩ := choose_unused ha ha1 hc s j hex
  refine ⟨by rw [List.length_set, hlen], hnd.set h2, ?_⟩
  intro f hf
  rcases List.mem_or_eq_of_mem_set hf with hf | hf
  · exact hlt f hf
  · rw [hf]; exact h1

theorem dsmCall_first {corr : Nat → ℚ} {alpha : ℚ} (ha : 0 ≤ alpha) (ha1 : alpha ≤ 1) {dim : Nat} (hc : ∀ c < dim, |corr c| ≤ 1)
    (hdim : dim ≤ unset) {n : Nat} (hn : n ≤ dim) (k : Nat) :
    (dsmCall corr alpha dim n (dsmInit k n)).length = k ∧ ∀ s ∈ dsmCall corr alpha dim n (dsmInit k n), Good dim n s := by
  have key : ∀ i, i ≤ n →
      ((List.range i).foldl (fun s i => dsmRound corr alpha dim i s) (dsmInit k n)).length = k ∧
      ∀ s ∈ (List.range i).foldl (fun s i => dsmRound corr alpha dim i s) (dsmInit k n), Filled dim n i s := by
    intro i
    induction i with
    | zero =>
      intro _
      refine ⟨by simp [dsmInit], ?_⟩
      intro s hs
      rw [List.range_zero, List.foldl_nil, dsmInit] at hs
      rw [List.eq_of_mem_replicate hs]
      exact ⟨[], by simp, rfl, by simp, by simp⟩
    | succ i ih =>
      intro hi
      obtain ⟨h1, h2⟩ := ih (by omega)
      rw [List.range_succ, List.foldl_append, List.foldl_cons, List.foldl_nil]
      obtain ⟨h3, h4⟩ := dsmRound_inv (corr := corr) (alpha := alpha) (dim := dim) (i := i) (Filled dim n i) (Filled dim n (i + 1))
        (fun s j _ h => filled_step ha ha1 hc hdim hi hn s j h) _ h2
      exact ⟨h3.trans h1, h4⟩
  obtain ⟨h1, h2⟩ := key n (Nat.le_refl _)
  refine ⟨h1, ?_⟩
  intro s hs
  obtain ⟨l, hl, hlen, hnd, hlt⟩ := h2 s hs
  rw [Nat.sub_self, List.replicate_zero, List.append_nil] at hl
  rw [hl]
  exact ⟨hlen, hnd, hlt⟩

theorem dsmCall_again {corr : Nat → ℚ} {alpha : ℚ} (ha : 0 ≤ alpha) (ha1 : alpha ≤ 1) {dim : Nat} (hc : ∀ c < dim, |corr c| ≤ 1)
    {n : Nat} (hn : n < dim) (subs : List (List Nat)) (h : ∀ s ∈ subs, Good dim n s) :
    (dsmCall corr alpha dim n subs).length = subs.length ∧ ∀ s ∈ dsmCall corr alpha dim n subs, Good dim n s := by
  unfold dsmCall
  have key : ∀ (is : List Nat) (s : List (List Nat)), (∀ x ∈ s, Good dim n x) →
      (is.foldl (fun s i => dsmRound corr alpha dim i s) s).length = s.length ∧
      ∀ x ∈ is.foldl (fun s i => dsmRound corr alpha dim i s) s, Good dim n x := by
    intro is
    induction is with
    | nil => intro s hs; exact ⟨rfl, hs⟩
    | cons i is ih =>
      intro s hs
      obtain ⟨h3, h4⟩ := dsmRound_inv (corr := corr) (alpha := alpha) (dim := dim) (i := i) (Good dim n) (Good dim n)
        (fun s j _ h => good_step ha ha1 hc hn s j h) s hs
      rw [List.foldl_cons]
      obtain ⟨h5, h6⟩ := ih _ h4
      exact ⟨h5.trans h3, h6⟩
  exact key _ subs h

end MLTK.Sampling
