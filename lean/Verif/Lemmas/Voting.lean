import Mathlib.Data.List.GetD
import Mathlib.Tactic.Linarith
import Mathlib.Tactic.Positivity
import Mathlib.Algebra.BigOperators.Group.Finset.Basic
import Verif.Lemmas.DataCopy
import Verif.Lemmas.Neighbors
import Verif.Spec.Voting
/-!
# Lemmas about combined classifiers
-/
namespace MLTK.Vote
open MLTK.Data (Res_bind_ok Res_bind_error Res_pure)
open MLTK.Spec

/-! ### max_element -/

theorem maxLoop_spec {K : Type} [LinearOrder K] [Zero K] (v : List K) :
    ∀ (l : List K) (i best : Nat), v.drop i = l → best < i → i ≤ v.length →
      (∀ j < i, v.getD j 0 ≤ v.getD best 0) → (∀ j < best, v.getD j 0 < v.getD best 0) →
      FirstMax v.length (fun j => v.getD j 0) (maxLoop l i best (v.getD best 0)) := by
  intro l
  induction l with
  | nil =>
    intro i best hd hb hi h1 h2
    have : v.length ≤ i := List.drop_eq_nil_iff.mp hd
    exact ⟨by simp only [maxLoop]; omega, fun j hj => h1 j (by omega), h2⟩
  | cons x l ih =>
    intro i best hd hb hi h1 h2
    have hil : i < v.length := by
      by_contra hc
      rw [List.drop_eq_nil_iff.mpr (by omega)] at hd
      exact absurd hd (by simp)
    have hx : v.getD i 0 = x := by
      have := List.drop_eq_getElem_cons hil
      rw [hd] at this
      rw [List.getD_eq_getElem _ _ hil]
      exact (List.cons.inj this).1.symm
    have hd' : v.drop (i + 1) = l := by rw [← List.drop_drop, hd]; simp
    unfold maxLoop
    by_cases hlt : v.getD best 0 < x
    · rw [if_pos hlt, ← hx]
      apply ih (i + 1) i hd' (by omega) hil
      · intro j hj
        by_cases hji : j = i
        · rw [hji]
        · exact (h1 j (by omega)).trans (hx ▸ hlt.le)
      · intro j hj
        rw [hx]; exact (h1 j hj).trans_lt hlt
    · rw [if_neg hlt]
      apply ih (i + 1) best hd' (by omega) hil
      · intro j hj
        by_cases hji : j = i
        · rw [hji, hx]; exact not_lt.mp hlt
        · exact h1 j (by omega)
      · exact h2

/-- `std::max_element` finds the first largest element. -/
theorem maxElement_spec {K : Type} [LinearOrder K] [Zero K] (v : List K) (hv : v ≠ []) :
    FirstMax v.length (fun j => v.getD j 0) (maxElement v) := by
  obtain ⟨x, l, rfl⟩ := List.exists_cons_of_ne_nil hv
  have := maxLoop_spec (x :: l) l 1 0 rfl (by omega) (by simp) (fun j hj => by
    rw [show j = 0 by omega]) (by simp)
  simpa [maxElement] using this

/-- From positions to classes. -/
theorem firstBest_of_firstMax {K : Type} [LinearOrder K] {classes : List Int} {s : Nat → K} {i : Nat}
    {score : Int → K} (h : FirstMax classes.length s i)
    (hs : ∀ k (hk : k < classes.length), s k = score classes[k]) :
    ∃ c, vget classes i = .ok c ∧ FirstBest classes score c := by
  obtain ⟨h1, h2, h3⟩ := h
  refine ⟨classes[i], by simp [h1], classes.take i, classes.drop (i + 1), ?_, ?_, ?_⟩
  · rw [← List.drop_eq_getElem_cons h1, List.take_append_drop]
  · intro c hc
    obtain ⟨k, hk, rfl⟩ := List.getElem_of_mem hc
    rw [← hs k hk, ← hs i h1]; exact h2 k hk
  · intro c hc
    obtain ⟨k, hk, rfl⟩ := List.getElem_of_mem hc
    rw [List.length_take] at hk
    rw [List.getElem_take, ← hs k (by omega), ← hs i h1]
    exact h3 k (by omega)

/-! ### Tallies -/

theorem addAt_ok {K : Type} [AddMonoid K] (votes : List K) (pos : Nat) (w : K) (h : pos < votes.length) :
    ∃ votes', addAt votes pos w = .ok votes' ∧ votes'.length = votes.length ∧
      ∀ k, votes'.getD k 0 = votes.getD k 0 + if k = pos then w else 0 := by
  refine ⟨votes.set pos (votes[pos] + w), ?_, by simp, ?_⟩
  · unfold addAt
    have : vget votes pos = .ok votes[pos] := by simp [h]
    rw [this, Res_bind_ok]
    simp [vset, h]
  · intro k
    simp only [List.getD_eq_getElem?_getD, List.getElem?_set]
    by_cases hk : pos = k
    · subst hk; simp [h]
    · rw [if_neg hk, if_neg (fun hh => hk hh.symm), add_zero]

theorem findIdx_class {classes : List Int} (hn : classes.Nodup) {c : Int} (hc : c ∈ classes) :
    classes.findIdx (· == c) < classes.length ∧
      ∀ k (hk : k < classes.length), (k = classes.findIdx (· == c)) ↔ classes[k] = c := by
  have h1 : classes.findIdx (· == c) < classes.length := List.findIdx_lt_length_of_exists ⟨c, hc, by simp⟩
  have h2 : classes[classes.findIdx (· == c)] = c := by
    have := List.findIdx_getElem (xs := classes) (p := (· == c)) (w := h1)
    simpa using this
  refine ⟨h1, fun k hk => ⟨fun h => by subst h; exact h2, fun h => ?_⟩⟩
  exact (List.Nodup.getElem_inj_iff hn).mp (h.trans h2.symm)

section
variable {K : Type} [Field K] [LinearOrder K]

theorem tally_spec {classes : List Int} (hn : classes.Nodup) (ws : List K) :
    ∀ (preds : List Int) (i : Nat) (votes : List K), (∀ q ∈ preds, q ∈ classes) →
      i + preds.length ≤ ws.length → votes.length = classes.length →
      ∃ votes', tally classes ws preds i votes = .ok votes' ∧ votes'.length = classes.length ∧
        ∀ k (hk : k < classes.length), votes'.getD k 0 = votes.getD k 0 +
          ∑ t ∈ Finset.range preds.length, if preds[t]? = some classes[k] then ws.getD (i + t) 0 else 0
  | [], i, votes, _, _, hl => ⟨votes, rfl, hl, by simp⟩
  | q :: preds, i, votes, hq, hi, hl => by
    obtain ⟨hp, hpos⟩ := findIdx_class hn (hq q (by simp))
    simp only [List.length_cons] at hi
    have hw : vget ws i = .ok (ws.getD i 0) := by
      have : i < ws.length := by omega
      simp [this]
    obtain ⟨v1, h1, h2, h3⟩ := addAt_ok votes (classes.findIdx (· == q)) (ws.getD i 0) (by rw [hl]; exact hp)
    obtain ⟨v2, h4, h5, h6⟩ := tally_spec hn ws preds (i + 1) v1 (fun x hx => hq x (by simp [hx])) (by omega)
      (by rw [h2, hl])
    refine ⟨v2, by rw [tally, hw, Res_bind_ok, h1, Res_bind_ok, h4], h5, ?_⟩
    intro k hk
    rw [h6 k hk, h3 k, List.length_cons, Finset.sum_range_succ', add_assoc]
    congr 1
    rw [add_comm]
    congr 1
    · apply Finset.sum_congr rfl
      intro t _
      simp only [List.getElem?_cons_succ]
      rw [show i + (t + 1) = i + 1 + t by omega]
    · simp only [List.getElem?_cons_zero, Option.some.injEq, add_zero]
      by_cases hkq : q = classes[k]
      · rw [if_pos hkq, if_pos ((hpos k hk).mpr hkq.symm)]
      · rw [if_neg hkq, if_neg (fun h => hkq ((hpos k hk).mp h).symm)]

/-- The winner of a tally started from zero. -/
theorem tally_best {classes : List Int} (hn : classes.Nodup) (hne : classes ≠ []) (ws : List K) (preds : List Int)
    (hq : ∀ q ∈ preds, q ∈ classes) (hw : preds.length ≤ ws.length) :
    ∃ votes c, tally classes ws preds 0 (List.replicate classes.length 0) = .ok votes ∧
      vget classes (maxElement votes) = .ok c ∧ FirstBest classes (support ws preds) c := by
  obtain ⟨v, h1, h2, h3⟩ := tally_spec hn ws preds 0 (List.replicate classes.length 0) hq (by omega) (by simp)
  have hv : v ≠ [] := by
    intro h; subst h; exact hne (List.length_eq_zero_iff.mp (by simpa using h2.symm))
  have hm := maxElement_spec v hv
  rw [h2] at hm
  obtain ⟨c, h4, h5⟩ := firstBest_of_firstMax (score := support ws preds) hm (by
    intro k hk
    show v.getD k 0 = _
    rw [h3 k hk]
    unfold support
    rw [Finset.sum_filter]
    simp [hk])
  exact ⟨v, c, h1, h4, h5⟩

end

/-! ### Duels -/

theorem duels_foldlM {K : Type} [Field K] [LinearOrder K] {classes : List Int} (hn : classes.Nodup)
    (ans : Nat → Nat → K) : ∀ (l : List (Nat × Nat)) (votes : List Nat),
      (∀ ij ∈ l, ij.1 < classes.length ∧ ij.2 < classes.length) → votes.length = classes.length →
      ∃ votes', l.foldlM (duel classes ans) votes = .ok votes' ∧ votes'.length = classes.length ∧
        ∀ k, votes'.getD k 0 = votes.getD k 0 +
          (l.map (fun ij => if ij.1 ≠ ij.2 ∧ k = (if ans ij.1 ij.2 = 1 then ij.1 else ij.2) then 1 else 0)).sum
  | [], votes, _, hl => ⟨votes, rfl, hl, by simp⟩
  | ij :: l, votes, h, hl => by
    obtain ⟨h1, h2⟩ := h ij (by simp)
    have e1 : vget classes ij.1 = .ok classes[ij.1] := by simp [h1]
    have e2 : vget classes ij.2 = .ok classes[ij.2] := by simp [h2]
    have hne : classes[ij.1] ≠ classes[ij.2] ↔ ij.1 ≠ ij.2 := by
      rw [ne_eq, List.Nodup.getElem_inj_iff hn]
    have step : ∃ v1, duel classes ans votes ij = .ok v1 ∧ v1.length = classes.length ∧
        ∀ k, v1.getD k 0 = votes.getD k 0 +
          if ij.1 ≠ ij.2 ∧ k = (if ans ij.1 ij.2 = 1 then ij.1 else ij.2) then 1 else 0 := by
      unfold duel
      rw [e1, Res_bind_ok, e2, Res_bind_ok]
      by_cases hd : ij.1 ≠ ij.2
      · rw [if_pos (hne.mpr hd)]
        by_cases ha : ans ij.1 ij.2 = 1
        · obtain ⟨v1, a1, a2, a3⟩ := addAt_ok votes ij.1 1 (by omega)
          refine ⟨v1, by rw [if_pos ha, a1], by omega, fun k => ?_⟩
          rw [a3 k, if_pos ha]; simp [hd]
        · obtain ⟨v1, a1, a2, a3⟩ := addAt_ok votes ij.2 1 (by omega)
          refine ⟨v1, by rw [if_neg ha, a1], by omega, fun k => ?_⟩
          rw [a3 k, if_neg ha]; simp [hd]
      · rw [if_neg (fun h => hd (hne.mp h))]
        exact ⟨votes, rfl, hl, fun k => by simp [hd]⟩
    obtain ⟨v1, s1, s2, s3⟩ := step
    obtain ⟨v2, t1, t2, t3⟩ := duels_foldlM hn ans l v1 (fun x hx => h x (by simp [hx])) s2
    refine ⟨v2, by rw [List.foldlM_cons, s1, Res_bind_ok, t1], t2, fun k => ?_⟩
    rw [t3 k, s3 k, List.map_cons, List.sum_cons, add_assoc]

theorem sum_pairs (n : Nat) (f : Nat × Nat → Nat) :
    (((List.range n).flatMap (fun i => (List.range n).map (fun j => (i, j)))).map f).sum =
      ∑ i ∈ Finset.range n, ∑ j ∈ Finset.range n, f (i, j) := by
  have h1 : ∀ m (g : Nat → Nat), ((List.range m).map g).sum = ∑ i ∈ Finset.range m, g i := by
    intro m g
    induction m with
    | zero => simp
    | succ m ih => rw [List.range_succ, List.map_append, List.sum_append, ih, Finset.sum_range_succ]; simp
  have h2 : ∀ (l : List Nat) (g : Nat → List Nat), (l.flatMap g).sum = (l.map (fun i => (g i).sum)).sum := by
    intro l g
    induction l with
    | nil => rfl
    | cons a l ih => rw [List.flatMap_cons, List.sum_append, ih]; rfl
  rw [List.map_flatMap, h2, h1]
  apply Finset.sum_congr rfl
  intro i _
  rw [List.map_map, h1]; rfl

/-- The votes collected by one-vs-one. -/
theorem votesOvO_spec {K : Type} [Field K] [LinearOrder K] {classes : List Int} (hn : classes.Nodup)
    (ans : Nat → Nat → K) :
    ∃ votes, votesOvO classes ans = .ok votes ∧ votes.length = classes.length ∧
      ∀ k < classes.length, votes.getD k 0 = duelsWon classes.length ans k := by
  set n := classes.length with hnn
  obtain ⟨v, h1, h2, h3⟩ := duels_foldlM hn ans
    ((List.range n).flatMap (fun i => (List.range n).map (fun j => (i, j)))) (List.replicate n 0)
    (by
      intro ij hij
      rw [List.mem_flatMap] at hij
      obtain ⟨i, hi, hij⟩ := hij
      rw [List.mem_map] at hij
      obtain ⟨j, hj, rfl⟩ := hij
      exact ⟨by simpa using hi, by simpa using hj⟩) (by simp [hnn])
  refine ⟨v, h1, h2, fun k hk => ?_⟩
  rw [h3 k, sum_pairs]
  have h0 : (List.replicate n 0).getD k 0 = 0 := by simp [hk]
  rw [h0, zero_add]
  unfold duelsWon
  rw [Finset.card_filter, Finset.card_filter]
  -- split each pair's contribution into the vote for the row and the vote for the column
  have hsplit : ∀ i j, (if i ≠ j ∧ k = (if ans i j = 1 then i else j) then 1 else 0 : Nat) =
      (if i = k then (if j ≠ k ∧ ans k j = 1 then 1 else 0) else 0) +
      (if j = k then (if i ≠ k ∧ ans i k ≠ 1 then 1 else 0) else 0) := by
    intro i j
    by_cases hij : i = j
    · subst hij; by_cases hik : i = k <;> simp [hik]
    · by_cases ha : ans i j = 1
      · by_cases hik : i = k
        · subst hik; simp [ha, hij, Ne.symm hij]
        · by_cases hjk : j = k
          · subst hjk; simp [hij, ha, Ne.symm hij]
          · simp [hij, ha, hik, hjk, Ne.symm hik]
      · by_cases hik : i = k
        · subst hik; simp [ha, hij, Ne.symm hij]
        · by_cases hjk : j = k
          · subst hjk; simp [hij, ha]
          · simp [hij, ha, hik, hjk, Ne.symm hjk]
  simp only [hsplit, Finset.sum_add_distrib]
  congr 1
  · rw [Finset.sum_eq_single k]
    · simp
    · intro i _ hi; simp [hi]
    · intro h; exact absurd (Finset.mem_range.mpr hk) h
  · apply Finset.sum_congr rfl
    intro i _
    rw [Finset.sum_ite_eq' (Finset.range n) k, if_pos (Finset.mem_range.mpr hk)]

/-- All the duels together. -/
theorem duelsWon_total {K : Type} [One K] [DecidableEq K] (n : Nat) (ans : Nat → Nat → K) :
    ∑ i ∈ Finset.range n, duelsWon n ans i = n * (n - 1) := by
  unfold duelsWon
  simp only [Finset.card_filter, Finset.sum_add_distrib]
  rw [Finset.sum_comm (s := Finset.range n) (t := Finset.range n)
    (f := fun i j => if j ≠ i ∧ ans j i ≠ 1 then 1 else 0), ← Finset.sum_add_distrib]
  have : ∀ i ∈ Finset.range n, (∑ j ∈ Finset.range n, (if j ≠ i ∧ ans i j = 1 then 1 else 0) +
      ∑ j ∈ Finset.range n, if i ≠ j ∧ ans i j ≠ 1 then 1 else 0) = n - 1 := by
    intro i hi
    rw [← Finset.sum_add_distrib]
    have : ∀ j ∈ Finset.range n, ((if j ≠ i ∧ ans i j = 1 then 1 else 0) +
        (if i ≠ j ∧ ans i j ≠ 1 then 1 else 0) : Nat) = if j ≠ i then 1 else 0 := by
      intro j _
      by_cases hji : j = i
      · subst hji; simp
      · by_cases ha : ans i j = 1 <;> simp [hji, ha, Ne.symm hji]
    rw [Finset.sum_congr rfl this, ← Finset.card_filter, Finset.filter_ne', Finset.card_erase_of_mem hi,
      Finset.card_range]
  rw [Finset.sum_congr rfl this]
  simp

/-! ### Training sets -/
section
variable {T : Type}
open MLTK.Data

theorem relabel_fresh (c : Int) (ps : List (Pt T)) : ∀ (m : Mem T),
    relabel c (m ++ ps) (List.range' m.length ps.length) = .ok (m ++ oneAgainst c ps) := by
  induction ps with
  | nil => intro m; rfl
  | cons p ps ih =>
    intro m
    have h1 : deref (m ++ p :: ps) m.length = .ok p := by simp [deref]
    rw [List.length_cons, List.range'_succ, relabel, h1, Res_bind_ok]
    have h2 : (m ++ p :: ps).set m.length { p with y := if p.y = c then 1 else -1 } =
        (m ++ [{ p with y := if p.y = c then 1 else -1 }]) ++ ps := by simp
    have h3 := ih (m ++ [{ p with y := if p.y = c then 1 else -1 }])
    rw [List.length_append, List.length_singleton] at h3
    rw [h2, h3]
    simp [oneAgainst]

theorem classesCopyPoints_ok (cs : List Int) {m : Mem T} {rs : List Nat} (h : Live m rs) (acc : List Nat) :
    classesCopyPoints cs m acc rs = .ok (m ++ (pts m rs).filter (fun p => decide (p.y ∈ cs)),
      acc ++ List.range' m.length ((pts m rs).filter (fun p => decide (p.y ∈ cs))).length) := by
  induction rs generalizing m acc with
  | nil => simp [classesCopyPoints, pts]
  | cons r rs ih =>
    obtain ⟨⟨p, hp⟩, h2⟩ := h.cons
    simp only [classesCopyPoints, deref_of_get hp, Res_bind_ok]
    by_cases hc : p.y ∈ cs
    · rw [if_pos hc, ih (h2.append [p]), h2.pts_append_mem, pts_cons hp, List.filter_cons_of_pos (by simpa using hc),
        List.length_cons, List.range'_succ]
      simp
    · rw [if_neg hc, ih h2, pts_cons hp, List.filter_cons_of_neg (by simpa using hc)]

theorem trainOvA_spec {d : Data} (cs : List Int) : ∀ {m : Mem T}, Consistent m d →
    ∃ e ts, trainOvA d m cs = .ok (m ++ e, ts) ∧ ts.length = cs.length ∧
      ∀ (i : Nat) (c : Int), cs[i]? = some c → ∃ t, ts[i]? = some t ∧ t.classes = [-1, 1] ∧
        Live (m ++ e) t.points ∧ (∀ r ∈ t.points, m.length ≤ r) ∧
        samples (m ++ e) t = oneAgainst c (samples m d) := by
  induction cs with
  | nil => intro m _; exact ⟨[], [], by simp [trainOvA], rfl, by simp⟩
  | cons c cs ih =>
    intro m h
    obtain ⟨t, h1, h2, -⟩ := copy_ok h
    have hl : (samples m d).length = d.size := h.livePts.length
    have hlo : (oneAgainst c (samples m d)).length = d.size := by simp [oneAgainst, hl]
    have hr : relabel c (m ++ samples m d) t.points = .ok (m ++ oneAgainst c (samples m d)) := by
      rw [h2, ← hl]; exact relabel_fresh c _ m
    obtain ⟨e, ts, h3, h4, h5⟩ := ih (consistent_alloc h (oneAgainst c (samples m d)))
    refine ⟨oneAgainst c (samples m d) ++ e, Data.setClasses t [-1, 1] :: ts, ?_, by simp [h4], ?_⟩
    · rw [trainOvA, h1, Res_bind_ok]
      dsimp only
      have : (Data.setClasses t [-1, 1]).points = t.points := rfl
      rw [this, hr, Res_bind_ok, h3, Res_bind_ok, List.append_assoc]
      rfl
    · intro i c' hc
      cases i with
      | zero =>
        have hcc : c = c' := by simpa using hc
        subst hcc
        have hlive : Live (m ++ oneAgainst c (samples m d)) (Data.setClasses t [-1, 1]).points := by
          show Live _ t.points
          rw [h2, ← hlo]; exact live_fresh m _
        refine ⟨_, rfl, rfl, ?_, ?_, ?_⟩
        · rw [← List.append_assoc]; exact hlive.append e
        · intro r hr
          have : r ∈ t.points := hr
          rw [h2] at this
          exact (List.mem_range'_1.1 this).1
        · rw [← List.append_assoc, samples_eq_pts, hlive.pts_append_mem]
          show pts _ t.points = _
          rw [h2, ← hlo]; exact pts_fresh m _
      | succ i =>
        obtain ⟨t', a1, a2, a3, a4, a5⟩ := h5 i c' (by simpa using hc)
        refine ⟨t', by simpa using a1, a2, ?_, ?_, ?_⟩
        · rw [← List.append_assoc]; exact a3
        · intro r hr; have := a4 r hr; rw [List.length_append] at this; omega
        · rw [← List.append_assoc, a5, samples_eq_pts, samples_eq_pts, h.livePts.pts_append_mem]

theorem _root_.MLTK.Spec.TrainedOn.append {m : Mem T} {base base' : Nat} {l : List (Pt T)} {ci cj : Int} {o : Option Data}
    (h : TrainedOn m base l ci cj o) (hb : base' ≤ base) (e : List (Pt T)) :
    TrainedOn (m ++ e) base' l ci cj o := by
  unfold TrainedOn at *
  by_cases hc : ci = cj
  · rw [if_pos hc] at *; exact h
  · rw [if_neg hc] at *
    obtain ⟨t, a1, a2, a3, a4, a5⟩ := h
    have a3 : Live m t.points := a3
    exact ⟨t, a1, a2, a3.append e, fun r hr => hb.trans (a4 r hr), by
      rw [samples_eq_pts, a3.pts_append_mem, ← samples_eq_pts, a5]⟩

theorem trainRow_spec {d : Data} (ci : Int) (cs : List Int) : ∀ {m : Mem T}, Consistent m d →
    ∃ e ts, trainRow d ci m cs = .ok (m ++ e, ts) ∧ ts.length = cs.length ∧
      ∀ (j : Nat) (cj : Int), cs[j]? = some cj → ∃ o, ts[j]? = some o ∧ TrainedOn (m ++ e) m.length (samples m d) ci cj o := by
  induction cs with
  | nil => intro m _; exact ⟨[], [], by simp [trainRow], rfl, by simp⟩
  | cons cj cs ih =>
    intro m h
    by_cases hc : ci = cj
    · obtain ⟨e, ts, h3, h4, h5⟩ := ih h
      refine ⟨e, none :: ts, ?_, by simp [h4], ?_⟩
      · rw [trainRow, if_neg (by simpa using hc), h3, Res_bind_ok]; rfl
      · intro j cj' hj
        cases j with
        | zero =>
          have : cj = cj' := by simpa using hj
          subst this
          exact ⟨none, rfl, by unfold TrainedOn; rw [if_pos hc]⟩
        | succ j => simpa using h5 j cj' (by simpa using hj)
    · set f := (samples m d).filter (fun p => decide (p.y ∈ [ci, cj])) with hf
      have hcp := classesCopyPoints_ok [ci, cj] h.livePts []
      rw [← samples_eq_pts, ← hf, List.nil_append] at hcp
      have hlo : (oneAgainst ci f).length = f.length := by simp [oneAgainst]
      obtain ⟨e, ts, h3, h4, h5⟩ := ih (consistent_alloc h (oneAgainst ci f))
      obtain ⟨t, hcopy, htp⟩ : ∃ t : Data, classesCopy m d [ci, cj] = .ok (m ++ f, t) ∧
          t.points = List.range' m.length f.length := by
        refine ⟨copiedData d [ci, cj] (List.range' m.length f.length), ?_, rfl⟩
        rw [classesCopy, hcp, Res_bind_ok]; rfl
      have hr : relabel ci (m ++ f) t.points = .ok (m ++ oneAgainst ci f) := by
        rw [htp]; exact relabel_fresh ci _ m
      refine ⟨oneAgainst ci f ++ e, some (Data.setClasses t [-1, 1]) :: ts, ?_, by simp [h4], ?_⟩
      · rw [trainRow, if_pos hc, hcopy, Res_bind_ok]
        dsimp only
        have : (Data.setClasses t [-1, 1]).points = t.points := rfl
        rw [this, hr, Res_bind_ok, h3, Res_bind_ok, List.append_assoc]
        rfl
      · intro j cj' hj
        rw [← List.append_assoc]
        cases j with
        | zero =>
          have : cj = cj' := by simpa using hj
          subst this
          have hlive : Live (m ++ oneAgainst ci f) (Data.setClasses t [-1, 1]).points := by
            show Live _ t.points
            rw [htp, ← hlo]; exact live_fresh m _
          refine ⟨_, rfl, TrainedOn.append (base := m.length) ?_ le_rfl e⟩
          unfold TrainedOn
          rw [if_neg hc]
          refine ⟨_, rfl, rfl, hlive, ?_, ?_⟩
          · intro r hr'
            have : r ∈ t.points := hr'
            rw [htp] at this
            exact (List.mem_range'_1.1 this).1
          · rw [samples_eq_pts]
            show pts _ t.points = _
            rw [htp, ← hlo]; exact pts_fresh m _
        | succ j =>
          obtain ⟨o, a1, a2⟩ := h5 j cj' (by simpa using hj)
          refine ⟨o, by simpa using a1, ?_⟩
          rw [samples_eq_pts, h.livePts.pts_append_mem, ← samples_eq_pts] at a2
          have := a2.append (base' := m.length) (by simp) []
          simpa using this

theorem trainOvO_spec {d : Data} (cs : List Int) : ∀ {m : Mem T}, Consistent m d →
    ∃ (e : List (Pt T)) (rows : List (List (Option Data))), trainOvO d m cs = .ok (m ++ e, rows) ∧ rows.length = cs.length ∧
      ∀ (i : Nat) (ci : Int), cs[i]? = some ci → ∃ row, rows[i]? = some row ∧ row.length = d.classes.length ∧
        ∀ (j : Nat) (cj : Int), d.classes[j]? = some cj → ∃ o, row[j]? = some o ∧
          TrainedOn (m ++ e) m.length (samples m d) ci cj o := by
  induction cs with
  | nil => intro m _; exact ⟨[], [], by simp [trainOvO], rfl, by simp⟩
  | cons c cs ih =>
    intro m h
    obtain ⟨e1, row, h1, h2, h3⟩ := trainRow_spec c d.classes h
    obtain ⟨e2, rows, h4, h5, h6⟩ := ih (consistent_alloc h e1)
    refine ⟨e1 ++ e2, row :: rows, ?_, by simp [h5], ?_⟩
    · rw [trainOvO, h1, Res_bind_ok]
      dsimp only
      rw [h4, Res_bind_ok, List.append_assoc]; rfl
    · intro i ci hi
      rw [← List.append_assoc]
      cases i with
      | zero =>
        have : c = ci := by simpa using hi
        subst this
        refine ⟨row, rfl, h2, fun j cj hj => ?_⟩
        obtain ⟨o, a1, a2⟩ := h3 j cj hj
        exact ⟨o, a1, a2.append le_rfl e2⟩
      | succ i =>
        obtain ⟨r, a1, a2, a3⟩ := h6 i ci (by simpa using hi)
        refine ⟨r, by simpa using a1, a2, fun j cj hj => ?_⟩
        obtain ⟨o, b1, b2⟩ := a3 j cj hj
        rw [samples_eq_pts, h.livePts.pts_append_mem, ← samples_eq_pts] at b2
        refine ⟨o, b1, ?_⟩
        have := b2.append (base' := m.length) (by simp) []
        simpa using this

end

end MLTK.Vote
