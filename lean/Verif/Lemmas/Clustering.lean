import Mathlib.Data.List.GetD
import Mathlib.Tactic.Linarith
import Mathlib.Tactic.Ring
import Verif.Lemmas.Util
import Verif.Lemmas.Data
import Verif.Lemmas.Neighbors
import Verif.Model.Clustering
import Verif.Spec.Clustering
/-!
# Lemmas about k-means
-/
namespace MLTK.KMeans
open MLTK.Data (Res_bind_ok Res_bind_error Res_pure)
open MLTK.Spec

theorem minLoop_spec {K : Type} [LinearOrder K] [Zero K] (v : List K) :
    ∀ (l : List K) (i best : Nat), v.drop i = l → best < i → i ≤ v.length →
      (∀ j < i, v.getD best 0 ≤ v.getD j 0) → (∀ j < best, v.getD best 0 < v.getD j 0) →
      FirstMin v.length (fun j => v.getD j 0) (minLoop l i best (v.getD best 0)) := by
  intro l
  induction l with
  | nil =>
    intro i best hd hb hi h1 h2
    have : v.length ≤ i := List.drop_eq_nil_iff.mp hd
    exact ⟨by simp only [minLoop]; omega, fun j hj => h1 j (by omega), h2⟩
  | cons x l ih =>
    intro i best hd hb hi h1 h2
    have hil : i < v.length := by
      by_contra hc
      rw [List.drop_eq_nil_iff.mpr (by omega)] at hd
      exact absurd hd (by simp)
    have hx : v.getD i 0 = x := by
      have := List.drop_eq_getElem_cons hil
      rw [hd] at this
      rw [List.getD_eq_getElem _ _ hil]
      exact (List.cons.inj this).1.symm
    have hd' : v.drop (i + 1) = l := by rw [← List.drop_drop, hd]; simp
    unfold minLoop
    by_cases hlt : x < v.getD best 0
    · rw [if_pos hlt, ← hx]
      apply ih (i + 1) i hd' (by omega) hil
      · intro j hj
        by_cases hji : j = i
        · rw [hji]
        · exact (hx ▸ hlt.le).trans (h1 j (by omega))
      · intro j hj
        rw [hx]; exact hlt.trans_le (h1 j hj)
    · rw [if_neg hlt]
      apply ih (i + 1) best hd' (by omega) hil
      · intro j hj
        by_cases hji : j = i
        · rw [hji, hx]; exact not_lt.mp hlt
        · exact h1 j (by omega)
      · exact h2

/-- `std::min_element` finds the first smallest element. -/
theorem minElement_spec {K : Type} [LinearOrder K] [Zero K] (v : List K) (hv : v ≠ []) :
    FirstMin v.length (fun j => v.getD j 0) (minElement v) := by
  obtain ⟨x, l, rfl⟩ := List.exists_cons_of_ne_nil hv
  have := minLoop_spec (x :: l) l 1 0 rfl (by omega) (by simp) (fun j hj => by
    rw [show j = 0 by omega]) (by simp)
  simpa [minElement] using this

theorem mapM_map {α β : Type} (f : α → Res β) (g : α → β) (l : List α) (h : ∀ a ∈ l, f a = .ok (g a)) :
    l.mapM f = .ok (l.map g) := by
  induction l with
  | nil => rfl
  | cons a l ih =>
    rw [List.mapM_cons, h a (by simp), Res_bind_ok, ih (fun x hx => h x (by simp [hx])), Res_bind_ok]; rfl

theorem vget_lt {α : Type} (l : List α) (i : Nat) (h : i < l.length) : vget l i = .ok l[i] := by
  simp [h]

section
variable {K : Type} [Field K] [LinearOrder K]

/-- The cluster chosen for a sample. -/
def pick (d : List K → List K → K) (centers : List (List K)) (q : Pt K) : Nat :=
  minElement (centers.map (d q.x))

theorem pick_spec (d : List K → List K → K) (centers : List (List K)) (hne : centers ≠ []) (q : Pt K) :
    FirstMin centers.length (fun j => d q.x (centers.getD j [])) (pick d centers q) := by
  obtain ⟨h1, h2, h3⟩ := minElement_spec (centers.map (d q.x)) (by simpa using hne)
  rw [List.length_map] at h1 h2
  have hval : ∀ j < centers.length, (centers.map (d q.x)).getD j 0 = d q.x (centers.getD j []) := by
    intro j hj; simp [hj]
  refine ⟨h1, fun j hj => ?_, fun j hj => ?_⟩
  · have := h2 j hj
    simp only at this ⊢
    rwa [hval _ h1, hval j hj] at this
  · have := h3 j hj
    have hj' : j < centers.length := lt_trans hj h1
    simp only at this ⊢
    rwa [hval _ h1, hval j hj'] at this

/-- The clusters after assigning the points, starting from any clusters. -/
def appended (d : List K → List K → K) (s : KM K) (points : List (Pt K)) : List (List Nat) :=
  s.clusters.mapIdx (fun c cl => cl ++ (points.filter (fun q => pick d s.centers q == c)).map (fun q => decSize q.id))

theorem assign_spec (dist : List K → List K → Res K) (d : List K → List K → K) (s : KM K)
    (hk : s.clusters.length = s.centers.length) (hne : s.centers ≠ []) (points : List (Pt K))
    (hd : ∀ q ∈ points, ∀ c ∈ s.centers, dist q.x c = .ok (d q.x c)) :
    assignClusters dist s points =
      .ok ({ s with clusters := appended d s points },
        (points.map (fun q => d q.x (s.centers.getD (pick d s.centers q) []) ^ 2)).sum) := by
  unfold assignClusters
  induction points using List.reverseRecOn with
  | nil =>
    have : appended d s [] = s.clusters := by
      unfold appended
      apply List.ext_getElem <;> simp
    rw [this]; rfl
  | append_singleton l q ih =>
    rw [List.foldlM_append, ih (fun q' hq' => hd q' (by simp [hq'])), Res_bind_ok, List.foldlM_cons]
    have hp := pick_spec d s.centers hne q
    have hlt := hp.1
    have hlen : (appended d s l).length = s.centers.length := by simp [appended, hk]
    have hds : s.centers.mapM (fun c => dist q.x c) = .ok (s.centers.map (d q.x)) :=
      mapM_map _ _ _ (fun c hc => hd q (by simp) c hc)
    have h1 : assignOne dist ({ s with clusters := appended d s l },
        (l.map (fun q => d q.x (s.centers.getD (pick d s.centers q) []) ^ 2)).sum) q =
        .ok ({ s with clusters := appended d s (l ++ [q]) },
          ((l ++ [q]).map (fun q => d q.x (s.centers.getD (pick d s.centers q) []) ^ 2)).sum) := by
      unfold assignOne
      dsimp only
      rw [hds, Res_bind_ok]
      change (do
        let cl ← vget (appended d s l) (pick d s.centers q)
        let cls ← vset (appended d s l) (pick d s.centers q) (cl ++ [decSize q.id])
        let dd ← vget (s.centers.map (d q.x)) (pick d s.centers q)
        pure (({ s with clusters := cls } : KM K), _ + dd * dd)) = _
      rw [vget_lt _ _ (by omega), Res_bind_ok]
      have hset : vset (appended d s l) (pick d s.centers q)
          ((appended d s l)[pick d s.centers q]'(by omega) ++ [decSize q.id]) = .ok (appended d s (l ++ [q])) := by
        unfold vset
        rw [if_pos (by omega)]
        congr 1
        apply List.ext_getElem (by simp [appended])
        intro i h1 h2
        rw [List.getElem_set]
        by_cases hi : pick d s.centers q = i
        · subst hi
          rw [if_pos rfl]
          simp [appended, List.filter_append]
        · rw [if_neg hi]
          simp [appended, List.filter_append, hi]
      rw [hset, Res_bind_ok, vget_lt _ _ (by simpa using hlt), Res_bind_ok]
      have hg : (s.centers.map (d q.x))[pick d s.centers q]'(by simpa using hlt) =
          d q.x (s.centers.getD (pick d s.centers q) []) := by
        rw [List.getElem_map, List.getD_eq_getElem _ _ hlt]
      rw [hg]
      simp only [List.map_append, List.map_cons, List.map_nil, List.sum_append, List.sum_cons, List.sum_nil,
        add_zero, pow_two]
      rfl
    rw [h1, Res_bind_ok]; rfl

/-- From cleared clusters, with ids counted from one: the clusters group the samples. -/
theorem appended_cleared (d : List K → List K → K) (s : KM K) (hc : ∀ cl ∈ s.clusters, cl = [])
    (hk : s.clusters.length = s.centers.length) (points : List (Pt K)) (hid : ∀ q ∈ points, 1 ≤ q.id) :
    appended d s points = groupBy s.centers.length (pick d s.centers) points := by
  unfold appended groupBy
  apply List.ext_getElem (by simp [hk])
  intro i h1 h2
  have h1' : i < s.clusters.length := by simpa [appended] using h1
  rw [List.getElem_mapIdx, List.getElem_map, List.getElem_range, hc _ (List.getElem_mem h1'), List.nil_append]
  apply List.map_congr_left
  intro q hq
  have := hid q (List.mem_of_mem_filter hq)
  unfold decSize
  rw [if_neg (by omega)]

omit [Field K] [LinearOrder K] in
theorem groupBy_flatten (k : Nat) (choice : Pt K → Nat) (points : List (Pt K))
    (h : ∀ q ∈ points, choice q < k) :
    (groupBy k choice points).flatten.Perm (points.map (fun q => q.id - 1)) := by
  unfold groupBy
  induction points with
  | nil => simp
  | cons q l ih =>
    have ih := ih (fun x hx => h x (by simp [hx]))
    have hq := h q (by simp)
    -- the groups with `q` are those without, one entry longer at `choice q`
    have key : ∀ n, (((List.range n).map (fun c => ((q :: l).filter (fun q => choice q == c)).map
          (fun q => q.id - 1))).flatten).Perm
        ((if choice q < n then [q.id - 1] else []) ++ ((List.range n).map (fun c =>
          (l.filter (fun q => choice q == c)).map (fun q => q.id - 1))).flatten) := by
      intro n
      induction n with
      | zero => simp
      | succ n ihn =>
        rw [List.range_succ, List.map_append, List.map_append, List.flatten_append, List.flatten_append]
        refine (ihn.append_right _).trans ?_
        simp only [List.map_cons, List.map_nil, List.flatten_cons, List.flatten_nil, List.append_nil]
        by_cases hn : choice q = n
        · rw [if_neg (by omega), if_pos (by omega), List.filter_cons_of_pos (by simp [hn])]
          simp only [List.nil_append, List.map_cons]
          exact List.perm_middle
        · rw [List.filter_cons_of_neg (by simp [hn])]
          by_cases hn' : choice q < n
          · rw [if_pos hn', if_pos (by omega), List.append_assoc]
          · rw [if_neg hn', if_neg (by omega), List.append_assoc]
    refine (key k).trans ?_
    rw [if_pos hq, List.map_cons]
    exact ih.cons _

/-! ### Centres -/

theorem addSamples_ok (samples : List (Pt K)) (dim : Nat) (ids : List Nat)
    (h : ∀ (i : Nat), i ∈ ids → ∃ p, samples[i]? = some p ∧ p.x.length = dim) (v : List K) (hv : v.length = dim) :
    ∃ w, addSamples samples v ids = .ok w ∧ w.length = dim ∧
      ∀ j < dim, w.getD j 0 = v.getD j 0 +
        ((ids.map (fun i => ((samples[i]?).map (·.x)).getD [])).map (fun x => x.getD j 0)).sum := by
  unfold addSamples
  induction ids generalizing v with
  | nil => exact ⟨v, rfl, hv, fun j _ => by simp⟩
  | cons i ids ih =>
    obtain ⟨p, hp, hpl⟩ := h i (by simp)
    have h1 : vget samples i = .ok p := by simp [vget, hp]
    have h2 : PointM.compound (· + ·) v p.x = .ok (List.zipWith (· + ·) v p.x) := by
      unfold PointM.compound
      rw [if_pos (by omega)]
    obtain ⟨w, a1, a2, a3⟩ := ih (fun i hi => h i (by simp [hi])) (List.zipWith (· + ·) v p.x) (by simp; omega)
    refine ⟨w, ?_, a2, ?_⟩
    · rw [List.foldlM_cons, h1, Res_bind_ok, h2, Res_bind_ok]; exact a1
    · intro j hj
      have hz : (List.zipWith (· + ·) v p.x).getD j 0 = v.getD j 0 + p.x.getD j 0 := by
        rw [List.getD_eq_getElem _ _ (by simp; omega), List.getElem_zipWith,
          List.getD_eq_getElem _ _ (by omega), List.getD_eq_getElem _ _ (by omega)]
      rw [a3 j hj, hz]
      simp only [List.map_cons, List.sum_cons, hp, Option.map_some, Option.getD_some]
      ring

theorem newCenter_ok [IsStrictOrderedRing K] (samples : List (Pt K)) (dim : Nat) (v : List K) (hv : v.length = dim) (ids : List Nat)
    (hne : ids ≠ []) (h : ∀ (i : Nat), i ∈ ids → ∃ p, samples[i]? = some p ∧ p.x.length = dim) :
    ∃ w, newCenter samples (v, ids) = .ok w ∧ w.length = dim ∧
      ∀ j < dim, w.getD j 0 = v.getD j 0 / (ids.length : K) + (meanOf dim (members samples ids)).getD j 0 := by
  obtain ⟨w, a1, a2, a3⟩ := addSamples_ok samples dim ids h v hv
  refine ⟨w.map (· / (ids.length : K)), ?_, by simpa using a2, ?_⟩
  · unfold newCenter divCenter
    dsimp only
    rw [a1, Res_bind_ok, if_neg (fun hc => hne (List.length_eq_zero_iff.mp hc.1))]
  · intro j hj
    have h1 : (w.map (· / (ids.length : K))).getD j 0 = w.getD j 0 / (ids.length : K) := by
      rw [List.getD_eq_getElem _ _ (by simp; omega), List.getElem_map, List.getD_eq_getElem _ _ (by omega)]
    have h2 : (meanOf dim (members samples ids)).getD j 0 =
        ((members samples ids).map (fun x => x.getD j 0)).sum / (ids.length : K) := by
      unfold meanOf
      rw [List.getD_eq_getElem _ _ (by simpa using hj)]
      simp [members]
    rw [h1, h2, a3 j hj, add_div]
    rfl

end
end MLTK.KMeans

namespace MLTK.KMeans
open MLTK.Data (Res_bind_ok Res_bind_error Res_pure)
open MLTK.Spec
section
variable {K : Type} [Field K] [LinearOrder K]

theorem assignOne_shape (dist : List K → List K → Res K) {st st' : KM K × K} {q : Pt K}
    (h : assignOne dist st q = .ok st') :
    st'.1.centers = st.1.centers ∧ st'.1.clusters.length = st.1.clusters.length := by
  unfold assignOne at h
  cases h1 : st.1.centers.mapM (fun c => dist q.x c) with
  | error f => rw [h1] at h; simp at h
  | ok ds =>
    rw [h1, Res_bind_ok] at h
    cases h2 : vget st.1.clusters (minElement ds) with
    | error f => rw [h2] at h; simp at h
    | ok cl =>
      rw [h2, Res_bind_ok] at h
      cases h3 : vset st.1.clusters (minElement ds) (cl ++ [decSize q.id]) with
      | error f => rw [h3] at h; simp at h
      | ok cls =>
        rw [h3, Res_bind_ok] at h
        have hl : cls.length = st.1.clusters.length := by
          unfold vset at h3
          by_cases hi : minElement ds < st.1.clusters.length
          · rw [if_pos hi] at h3
            injection h3 with h3
            rw [← h3]; simp
          · rw [if_neg hi] at h3; simp at h3
        cases h4 : vget ds (minElement ds) with
        | error f => rw [h4] at h; simp at h
        | ok d =>
          rw [h4, Res_bind_ok] at h
          injection h with h
          rw [← h]
          exact ⟨rfl, hl⟩

theorem assign_shape (dist : List K → List K → Res K) (points : List (Pt K)) :
    ∀ (st st' : KM K × K), points.foldlM (assignOne dist) st = .ok st' →
    st'.1.centers = st.1.centers ∧ st'.1.clusters.length = st.1.clusters.length := by
  induction points with
  | nil => intro st st' h; injection h with h; rw [← h]; exact ⟨rfl, rfl⟩
  | cons q l ih =>
    intro st st' h
    rw [List.foldlM_cons] at h
    cases h1 : assignOne dist st q with
    | error f => rw [h1] at h; simp at h
    | ok s1 =>
      rw [h1, Res_bind_ok] at h
      have a := assignOne_shape dist h1
      have b := ih s1 st' h
      exact ⟨b.1.trans a.1, b.2.trans a.2⟩

theorem iterate_shape (dist : List K → List K → Res K) (samples points : List (Pt K)) {s : KM K} {r : KM K × K}
    (h : iterate dist samples points s = .ok r) : r.1.clusters.length = s.clusters.length := by
  unfold iterate at h
  cases h1 : assignClusters dist s points with
  | error f => rw [h1] at h; simp at h
  | ok st =>
    rw [h1, Res_bind_ok] at h
    dsimp only at h
    unfold computeCenters at h
    cases h2 : (st.1.centers.zip st.1.clusters).mapM (newCenter samples) with
    | error f => rw [h2] at h; simp at h
    | ok cs =>
      rw [h2] at h
      injection h with h
      rw [← h]
      exact (assign_shape dist points (s, 0) st h1).2

/-- A training that is not cut short leaves the clusters empty. -/
theorem trainLoop_cleared (dist : List K → List K → Res K) (samples points : List (Pt K)) (eps : K) (fuel : Nat) :
    ∀ (i : Nat) (s : KM K) (old : K) (s' : KM K),
      trainLoop dist samples points eps (fun _ => false) fuel i s old = .ok s' →
      s'.clusters = List.replicate s.clusters.length [] := by
  induction fuel with
  | zero => intro i s old s' h; simp [trainLoop] at h
  | succ fuel ih =>
    intro i s old s' h
    unfold trainLoop at h
    cases h1 : iterate dist samples points s with
    | error f => rw [h1] at h; simp at h
    | ok r =>
      rw [h1, Res_bind_ok] at h
      dsimp only at h
      rw [if_neg (by simp)] at h
      have hl := iterate_shape dist samples points h1
      have hclear : (clear r.1).clusters = List.replicate s.clusters.length [] := by
        simp [clear, List.map_const', hl]
      by_cases hc : |r.2 - old| ≤ eps
      · rw [if_pos hc] at h
        injection h with h
        rw [← h, hclear]
      · rw [if_neg hc] at h
        rw [ih _ _ _ _ h, hclear, List.length_replicate]

theorem train_eq_of (dist : List K → List K → Res K) (samples points : List (Pt K)) (init : Init) (draws : List Nat)
    (eps : K) (expired : Nat → Bool) (fuel : Nat) (s t : KM K) (hi : init ≠ .other) (h : s.clusters = t.clusters) :
    train dist samples points init draws eps expired fuel s =
      train dist samples points init draws eps expired fuel t := by
  have hc : initCenters dist samples points init draws s = initCenters dist samples points init draws t := by
    cases init with
    | random => rfl
    | kmeanspp => rfl
    | other => exact absurd rfl hi
  unfold train
  rw [hc, h]

theorem train_clusters (dist : List K → List K → Res K) (samples points : List (Pt K)) (init : Init)
    (draws : List Nat) (eps : K) (fuel : Nat) (s s' : KM K)
    (h : train dist samples points init draws eps (fun _ => false) fuel s = .ok s') :
    s'.clusters = List.replicate s.clusters.length [] := by
  unfold train at h
  cases h1 : initCenters dist samples points init draws s with
  | error f => rw [h1] at h; simp at h
  | ok cs =>
    rw [h1, Res_bind_ok] at h
    exact trainLoop_cleared dist samples points eps fuel 0 { s with centers := cs } 0 s' h

/-! ### The initial centres -/

theorem plusPlus_mem (dist : List K → List K → Res K) (points : List (Pt K)) (is : List Nat) :
    ∀ (prev : List K) (cs : List (List K)), plusPlus dist points prev is = .ok cs →
      cs.length = is.length ∧ ∀ c ∈ cs, ∃ q ∈ points, q.x = c := by
  induction is with
  | nil => intro prev cs h; injection h with h; subst h; simp
  | cons i is ih =>
    intro prev cs h
    unfold plusPlus at h
    cases h1 : points.mapM (fun q => dist prev q.x) with
    | error f => rw [h1] at h; simp at h
    | ok ds =>
      rw [h1, Res_bind_ok] at h
      by_cases hs : ds.sum = 0
      · rw [if_pos hs] at h; simp at h
      · rw [if_neg hs] at h
        cases h2 : vget points i with
        | error f => rw [h2] at h; simp at h
        | ok p =>
          rw [h2, Res_bind_ok] at h
          cases h3 : plusPlus dist points p.x is with
          | error f => rw [h3] at h; simp at h
          | ok cs' =>
            rw [h3, Res_bind_ok] at h
            injection h with h
            obtain ⟨a, b⟩ := ih p.x cs' h3
            have hp : p ∈ points := by
              unfold vget at h2
              cases h4 : points[i]? with
              | none => rw [h4] at h2; simp at h2
              | some p' =>
                rw [h4] at h2
                injection h2 with h2
                subst h2
                exact List.mem_of_getElem? h4
            rw [← h]
            refine ⟨by simp [a], fun c hc => ?_⟩
            rcases List.mem_cons.mp hc with rfl | hc
            · exact ⟨p, hp, rfl⟩
            · exact b c hc

/-! ### The variance -/

theorem sumSquares_ok (samples : List (Pt K)) (dim : Nat) (mean : List K) (hm : mean.length = dim) (ids : List Nat)
    (h : ∀ (i : Nat), i ∈ ids → ∃ p, samples[i]? = some p ∧ p.x.length = dim) (v : K) :
    sumSquares samples mean ids v = .ok (v + ((members samples ids).map (fun x => squaredGap dim x mean)).sum) := by
  unfold sumSquares
  induction ids generalizing v with
  | nil => simp [members]
  | cons i ids ih =>
    obtain ⟨p, hp, hpl⟩ := h i (by simp)
    have h1 : vget samples i = .ok p := by simp [vget, hp]
    have h2 : PointM.compound (· - ·) p.x mean = .ok (List.zipWith (· - ·) p.x mean) := by
      unfold PointM.compound
      rw [if_pos (by omega)]
    have h3 : ((List.zipWith (· - ·) p.x mean).map (fun x => x ^ 2)).sum = squaredGap dim p.x mean := by
      unfold squaredGap
      congr 1
      apply List.ext_getElem (by simp; omega)
      intro j hj hj'
      have hj2 : j < dim := by simpa using hj'
      simp [hpl, hm, hj2]
    rw [List.foldlM_cons, h1, Res_bind_ok, h2, Res_bind_ok, h3]
    show (_ >>= fun b => _) = _
    rw [Res_pure, Res_bind_ok, ih (fun i hi => h i (by simp [hi]))]
    simp only [members, List.map_cons, List.sum_cons, hp, Option.map_some, Option.getD_some]
    rw [add_assoc]

theorem variance_ok (samples : List (Pt K)) (dim : Nat) (cls : List (List Nat))
    (h : ∀ ids ∈ cls, ∀ (i : Nat), i ∈ ids → ∃ p, samples[i]? = some p ∧ p.x.length = dim) :
    variance samples dim cls = .ok ((cls.map (fun ids =>
      ((members samples ids).map (fun x => squaredGap dim x (meanOf dim (members samples ids)))).sum)).sum) := by
  unfold variance
  have key : ∀ (cls : List (List Nat)) (v : K),
      (∀ ids ∈ cls, ∀ (i : Nat), i ∈ ids → ∃ p, samples[i]? = some p ∧ p.x.length = dim) →
      cls.foldlM (fun (v : K) (ids : List Nat) => do
        let m ← addSamples samples (List.replicate dim 0) ids
        sumSquares samples (m.map (· / (ids.length : K))) ids v) v =
      .ok (v + (cls.map (fun ids =>
        ((members samples ids).map (fun x => squaredGap dim x (meanOf dim (members samples ids)))).sum)).sum) := by
    intro cls
    induction cls with
    | nil => intro v _; simp
    | cons ids cls ih =>
      intro v h
      obtain ⟨w, a1, a2, a3⟩ := addSamples_ok samples dim ids (h ids (by simp)) (List.replicate dim 0) (by simp)
      have hw : w.map (· / (ids.length : K)) = meanOf dim (members samples ids) := by
        apply List.ext_getElem (by simp [a2, meanOf])
        intro j hj hj'
        have hjd : j < dim := by simpa [meanOf] using hj'
        have := a3 j hjd
        rw [List.getD_eq_getElem _ _ (by omega)] at this
        simp only [List.getElem_map, this, meanOf, List.getElem_range]
        simp [members, hjd]
      rw [List.foldlM_cons, a1, Res_bind_ok, hw,
        sumSquares_ok samples dim _ (by simp [meanOf]) ids (h ids (by simp)), Res_bind_ok,
        ih _ (fun ids hi => h ids (by simp [hi]))]
      rw [List.map_cons, List.sum_cons, add_assoc]
  rw [key cls 0 h, zero_add]

end
end MLTK.KMeans
