import Mathlib.Tactic.IntervalCases
import Verif.Lemmas.Clustering
import Verif.Model.DoubleKMeans
import Verif.Props.DoubleKnn
import Verif.Props.DoubleMetric
/-!
# C229: k-means in `double` arithmetic
-/
namespace MLTK.Props
open MLTK.Fp
open MLTK.KMeans (KM)
open MLTK.Spec (groupBy)
open MLTK.Data (Res_bind_ok Res_bind_error Res_pure)

attribute [local irreducible] Fp.rnd Fp.near Fp.huge Fp.two

theorem minLoop_rank : ∀ (l : List Dbl) (i best : Nat) (v : Dbl), D0 v → (∀ x ∈ l, D0 x) →
    Fp.minLoop l i best v = MLTK.KMeans.minLoop (l.map rank) i best (rank v) := by
  intro l
  induction l with
  | nil => intros; rfl
  | cons x l ih =>
    intro i best v hv hl
    have hx := hl x (by simp)
    unfold Fp.minLoop
    rw [List.map_cons, MLTK.KMeans.minLoop, lt_rank hx hv]
    by_cases h : rank x < rank v
    · rw [if_pos (by simpa using h), if_pos h]; exact ih _ _ _ hx (fun y hy => hl y (by simp [hy]))
    · rw [if_neg (by simpa using h), if_neg h]; exact ih _ _ _ hv (fun y hy => hl y (by simp [hy]))

theorem minElement_rank (l : List Dbl) (hl : ∀ x ∈ l, D0 x) :
    Fp.minElement l = MLTK.KMeans.minElement (l.map rank) := by
  cases l with
  | nil => rfl
  | cons x l => exact minLoop_rank l 1 0 x (hl x (by simp)) (fun y hy => hl y (by simp [hy]))

/-- `c` is the first of the indices `0 … k-1` at which the double `d` is least. -/
def FirstLeast (k : Nat) (d : Nat → Dbl) (c : Nat) : Prop :=
  c < k ∧ (∀ j < k, (d c).le (d j) = true) ∧ ∀ j < c, (d c).lt (d j) = true

theorem minElement_least {α : Type} (cs : List α) (z : α) (f : α → Dbl) (hf : ∀ c ∈ cs, D0 (f c)) (hne : cs ≠ []) :
    FirstLeast cs.length (fun j => f (cs.getD j z)) (Fp.minElement (cs.map f)) := by
  have h := MLTK.KMeans.minElement_spec ((cs.map f).map rank) (by simpa using hne)
  rw [← minElement_rank (cs.map f) (by simpa using hf)] at h
  obtain ⟨h1, h2, h3⟩ := h
  simp only [List.length_map] at h1 h2
  have hval : ∀ j < cs.length, ((cs.map f).map rank).getD j 0 = rank (f (cs.getD j z)) := by
    intro j hj; simp [hj]
  have hD : ∀ j < cs.length, D0 (f (cs.getD j z)) := by
    intro j hj; rw [List.getD_eq_getElem _ _ hj]; exact hf _ (List.getElem_mem hj)
  refine ⟨h1, fun j hj => ?_, fun j hj => ?_⟩
  · have := h2 j hj
    simp only at this ⊢
    rw [hval _ h1, hval j hj] at this
    exact le_rank (hD _ h1) (hD _ hj) this
  · have hj' := lt_trans hj h1
    have := h3 j hj
    simp only at this ⊢
    rw [hval _ h1, hval j hj'] at this
    rw [lt_rank (hD _ h1) (hD _ hj')]
    simpa using this

/-- The cluster chosen for a sample. -/
def nearestCentre (d : List Dbl → List Dbl → Dbl) (centers : List (List Dbl)) (q : Pt Dbl) : Nat :=
  Fp.minElement (centers.map (d q.x))

theorem square_of_D0 {a : Dbl} (h : D0 a) : D0 (a.mul a) := by
  rcases h with ⟨q, rfl, _, _⟩ | rfl
  · exact rnd_D0 (mul_self_nonneg q)
  · exact .inr rfl

/-- The clusters after assigning the points, starting from any clusters. -/
def appendedTo (d : List Dbl → List Dbl → Dbl) (s : KM Dbl) (points : List (Pt Dbl)) : List (List Nat) :=
  s.clusters.mapIdx (fun c cl => cl ++ (points.filter (fun q => nearestCentre d s.centers q == c)).map (fun q => decSize q.id))

/-- C229: with distances that are numbers from zero to infinity, assigning the samples puts each of them, in exactly one
cluster, to the first nearest centre, and the cost is the sum of the squared distances to these centres, added up in `double`
arithmetic; it is not NaN. -/
theorem C229_assign (dist : List Dbl → List Dbl → Res Dbl) (d : List Dbl → List Dbl → Dbl) (s : KM Dbl)
    (hk : s.clusters.length = s.centers.length) (hne : s.centers ≠ []) (hc : ∀ cl ∈ s.clusters, cl = [])
    (points : List (Pt Dbl)) (hid : ∀ q ∈ points, 1 ≤ q.id)
    (hd : ∀ q ∈ points, ∀ c ∈ s.centers, dist q.x c = .ok (d q.x c))
    (h0 : ∀ q ∈ points, ∀ c ∈ s.centers, d q.x c = .inf false ∨ ∃ r, d q.x c = .fin r ∧ IsDbl r ∧ 0 ≤ r) :
    ∃ (choice : Pt Dbl → Nat) (s' : KM Dbl) (cost : Dbl),
      (∀ q ∈ points, FirstLeast s.centers.length (fun j => d q.x (s.centers.getD j [])) (choice q)) ∧
      assignClusters dist s points = .ok (s', cost) ∧
      cost = (points.map (fun q => (d q.x (s.centers.getD (choice q) [])).mul (d q.x (s.centers.getD (choice q) [])))).foldl
        Dbl.add (.fin 0) ∧
      (cost = .inf false ∨ ∃ r, cost = .fin r ∧ IsDbl r ∧ 0 ≤ r) ∧
      s'.centers = s.centers ∧ s'.clusters = groupBy s.centers.length choice points ∧
      s'.clusters.flatten.Perm (points.map (fun q => q.id - 1)) := by
  have hD : ∀ q ∈ points, ∀ c ∈ s.centers, D0 (d q.x c) := fun q hq c hc' => by
    rcases h0 q hq c hc' with h | ⟨r, h1, h2, h3⟩
    · exact .inr h
    · exact .inl ⟨r, h1, h2, h3⟩
  have hpick : ∀ q ∈ points, FirstLeast s.centers.length (fun j => d q.x (s.centers.getD j [])) (nearestCentre d s.centers q) :=
    fun q hq => minElement_least s.centers [] (d q.x) (hD q hq) hne
  have hgrp : appendedTo d s points = groupBy s.centers.length (nearestCentre d s.centers) points := by
    unfold appendedTo groupBy
    apply List.ext_getElem (by simp [hk])
    intro i h1 h2
    have h1' : i < s.clusters.length := by simpa [appendedTo] using h1
    rw [List.getElem_mapIdx, List.getElem_map, List.getElem_range, hc _ (List.getElem_mem h1'), List.nil_append]
    apply List.map_congr_left
    intro q hq
    have := hid q (List.mem_of_mem_filter hq)
    unfold decSize
    rw [if_neg (by omega)]
  have key : ∀ l : List (Pt Dbl), (∀ q ∈ l, q ∈ points) → l.foldlM (assignOne dist) (s, .fin 0) =
      .ok ({ s with clusters := appendedTo d s l },
        (l.map (fun q => (d q.x (s.centers.getD (nearestCentre d s.centers q) [])).mul
          (d q.x (s.centers.getD (nearestCentre d s.centers q) [])))).foldl Dbl.add (.fin 0)) := by
    intro l
    induction l using List.reverseRecOn with
    | nil =>
      intro _
      have : appendedTo d s [] = s.clusters := by
        unfold appendedTo
        apply List.ext_getElem <;> simp
      rw [this]; rfl
    | append_singleton l q ih =>
      intro hl
      have hq := hl q (by simp)
      rw [List.foldlM_append, ih (fun q' hq' => hl q' (by simp [hq'])), Res_bind_ok, List.foldlM_cons]
      have hlt := (hpick q hq).1
      have hlen : (appendedTo d s l).length = s.centers.length := by simp [appendedTo, hk]
      have hds : s.centers.mapM (fun c => dist q.x c) = .ok (s.centers.map (d q.x)) :=
        MLTK.KMeans.mapM_map _ _ _ (fun c hc => hd q hq c hc)
      have h1 : assignOne dist ({ s with clusters := appendedTo d s l },
          (l.map (fun q => (d q.x (s.centers.getD (nearestCentre d s.centers q) [])).mul
            (d q.x (s.centers.getD (nearestCentre d s.centers q) [])))).foldl Dbl.add (.fin 0)) q =
          .ok ({ s with clusters := appendedTo d s (l ++ [q]) },
            ((l ++ [q]).map (fun q => (d q.x (s.centers.getD (nearestCentre d s.centers q) [])).mul
              (d q.x (s.centers.getD (nearestCentre d s.centers q) [])))).foldl Dbl.add (.fin 0)) := by
        unfold assignOne
        dsimp only
        rw [hds, Res_bind_ok]
        rw [show Fp.minElement (s.centers.map (d q.x)) = nearestCentre d s.centers q from rfl]
        rw [MLTK.KMeans.vget_lt _ _ (by omega), Res_bind_ok]
        have hset : vset (appendedTo d s l) (nearestCentre d s.centers q)
            ((appendedTo d s l)[nearestCentre d s.centers q]'(by omega) ++ [decSize q.id]) =
              .ok (appendedTo d s (l ++ [q])) := by
          unfold vset
          rw [if_pos (by omega)]
          congr 1
          apply List.ext_getElem (by simp [appendedTo])
          intro i h1 h2
          rw [List.getElem_set]
          by_cases hi : nearestCentre d s.centers q = i
          · subst hi
            rw [if_pos rfl]
            simp [appendedTo, List.filter_append]
          · rw [if_neg hi]
            simp [appendedTo, List.filter_append, hi]
        rw [hset, Res_bind_ok, MLTK.KMeans.vget_lt _ _ (by simpa using hlt), Res_bind_ok]
        have hg : (s.centers.map (d q.x))[nearestCentre d s.centers q]'(by simpa using hlt) =
            d q.x (s.centers.getD (nearestCentre d s.centers q) []) := by
          rw [List.getElem_map, List.getD_eq_getElem _ _ hlt]
        rw [hg]
        simp only [List.map_append, List.map_cons, List.map_nil, List.foldl_append, List.foldl_cons, List.foldl_nil]
        rfl
      rw [h1, Res_bind_ok]; rfl
  have hcost := (sum_D0 (points.map (fun q => (d q.x (s.centers.getD (nearestCentre d s.centers q) [])).mul
          (d q.x (s.centers.getD (nearestCentre d s.centers q) [])))) (by
    intro x hx
    obtain ⟨q, hq, rfl⟩ := List.mem_map.1 hx
    apply square_of_D0
    have hlt := (hpick q hq).1
    rw [List.getD_eq_getElem _ _ hlt]
    exact hD q hq _ (List.getElem_mem hlt)) _ zero_D0).1
  refine ⟨nearestCentre d s.centers, _, _, hpick, key points (fun _ h => h), rfl, ?_, rfl, hgrp, ?_⟩
  · rcases hcost with ⟨r, h1, h2, h3⟩ | h
    · exact .inr ⟨r, h1, h2, h3⟩
    · exact .inl h
  · rw [show ({ s with clusters := appendedTo d s points } : KM Dbl).clusters = _ from hgrp]
    exact MLTK.KMeans.groupBy_flatten _ _ _ (fun q hq => (hpick q hq).1)

/-- C229: with distances that are numbers from zero to infinity, `evaluate` answers the first nearest centre. -/
theorem C229_evaluate (dist : List Dbl → List Dbl → Res Dbl) (d : List Dbl → List Dbl → Dbl) (s : KM Dbl)
    (hne : s.centers ≠ []) (p : List Dbl) (hd : ∀ c ∈ s.centers, dist c p = .ok (d c p))
    (h0 : ∀ c ∈ s.centers, d c p = .inf false ∨ ∃ r, d c p = .fin r ∧ IsDbl r ∧ 0 ≤ r) :
    ∃ i, kmEvaluate dist s p = .ok i ∧ FirstLeast s.centers.length (fun j => d (s.centers.getD j []) p) i := by
  have h1 : s.centers.mapM (fun c => dist c p) = .ok (s.centers.map (fun c => d c p)) :=
    MLTK.KMeans.mapM_map _ _ _ hd
  refine ⟨Fp.minElement (s.centers.map (fun c => d c p)), ?_, ?_⟩
  · unfold kmEvaluate
    rw [h1, Res_bind_ok]; rfl
  · refine minElement_least s.centers [] (fun c => d c p) ?_ hne
    intro c hc
    rcases h0 c hc with h | ⟨r, h1, h2, h3⟩
    · exact .inr h
    · exact .inl ⟨r, h1, h2, h3⟩

/-- Three samples, at one, two and four. -/
def oneTwoFour : List (Pt Dbl) := [{ x := [.fin 1, .fin 0], y := 1, id := 1 }, { x := [.fin 2, .fin 0], y := 1, id := 2 },
  { x := [.fin 4, .fin 0], y := 1, id := 3 }]

/-- The clusterer of two clusters as constructed. -/
def twoClusters : KM Dbl := { centers := [[.fin 0, .fin 0], [.fin 0, .fin 0]], clusters := [[], []] }

theorem nan_addL (a : Dbl) : Dbl.nan.add a = .nan := by cases a <;> rfl
theorem nan_addR (a : Dbl) : a.add .nan = .nan := by cases a <;> rfl
theorem nan_subL (a : Dbl) : Dbl.nan.sub a = .nan := nan_addL _
theorem nan_ltR (a : Dbl) : a.lt .nan = false := by cases a <;> rfl

theorem assignOne_two (dist : List Dbl → List Dbl → Res Dbl) (c0 c1 : List Dbl) (cls : List (List Nat)) (cost r1 r2 : Dbl)
    (q : Pt Dbl) (h1 : dist q.x c0 = .ok r1) (h2 : dist q.x c1 = .ok r2) :
    assignOne dist ({ centers := [c0, c1], clusters := cls }, cost) q = (do
        let ds := [r1, r2]
        let cl ← vget cls (Fp.minElement ds)
        let cls ← vset cls (Fp.minElement ds) (cl ++ [decSize q.id])
        let d ← vget ds (Fp.minElement ds)
        pure ({ centers := [c0, c1], clusters := cls }, cost.add (d.mul d))) := by
  unfold assignOne
  simp only [List.mapM_cons, List.mapM_nil, h1, h2, Res_bind_ok, Res_pure]

/-- Once the first centre has a NaN at every sample, the loop goes on for ever. -/
theorem nan_centre_loops (dist : List Dbl → List Dbl → Res Dbl)
    (hn : ∀ q ∈ oneTwoFour, dist q.x [.inf false, .nan] = .ok .nan)
    (hd : ∀ q ∈ oneTwoFour, ∀ a b, ∃ r, dist q.x [a, b] = .ok r) (eps : Dbl) (fuel : Nat) :
    ∀ (i : Nat) (a b old : Dbl), kmLoop dist oneTwoFour oneTwoFour eps (fun _ => false) fuel i
      { centers := [[.inf false, .nan], [a, b]], clusters := [[], []] } old = .error .diverges := by
  induction fuel with
  | zero => intros; rfl
  | succ fuel ih =>
    intro i a b old
    have m1 : ∀ r, Fp.minElement [.nan, r] = 0 := by
      intro r; simp only [Fp.minElement, Fp.minLoop, nan_ltR]; rfl
    have step : ∀ q ∈ oneTwoFour, ∀ (cl : List Nat) (cost : Dbl),
        assignOne dist ({ centers := [[.inf false, .nan], [a, b]], clusters := [cl, []] }, cost) q =
          .ok ({ centers := [[.inf false, .nan], [a, b]], clusters := [cl ++ [decSize q.id], []] }, .nan) := by
      intro q hq cl cost
      obtain ⟨r, hr⟩ := hd q hq a b
      rw [assignOne_two dist _ _ _ _ _ _ _ (hn q hq) hr]
      simp only [m1]
      change Except.ok (_, cost.add .nan) = _
      rw [nan_addR]; rfl
    have hassign : assignClusters dist { centers := [[.inf false, .nan], [a, b]], clusters := [[], []] } oneTwoFour =
        .ok ({ centers := [[.inf false, .nan], [a, b]], clusters := [[0, 1, 2], []] }, .nan) := by
      unfold assignClusters
      rw [oneTwoFour, List.foldlM_cons, step _ (by simp [oneTwoFour]), Res_bind_ok, List.foldlM_cons,
        step _ (by simp [oneTwoFour]), Res_bind_ok, List.foldlM_cons, step _ (by simp [oneTwoFour]), Res_bind_ok]
      rfl
    have hcomp : computeCenters oneTwoFour { centers := [[.inf false, .nan], [a, b]], clusters := [[0, 1, 2], []] } =
        .ok { centers := [[.inf false, .nan], [a.div (.ofNat 0), b.div (.ofNat 0)]], clusters := [[0, 1, 2], []] } := by
      have c0 : newCenter oneTwoFour ([.inf false, .nan], [0, 1, 2]) = .ok [.inf false, .nan] := by decide +kernel
      have c1 : newCenter oneTwoFour ([a, b], []) = .ok [a.div (.ofNat 0), b.div (.ofNat 0)] := rfl
      unfold computeCenters
      simp only [List.zip_cons_cons, List.zip_nil_right, List.mapM_cons, List.mapM_nil, c0, c1, Res_bind_ok, Res_pure]
    unfold kmLoop
    rw [hassign, Res_bind_ok]
    simp only [hcomp, Res_bind_ok, nan_subL]
    exact ih _ _ _ _

/-- With these distances training does not end. -/
theorem kmeans_forever (dist : List Dbl → List Dbl → Res Dbl)
    (he : ∀ t ∈ ([(1, 4, 3), (1, 1, 0), (2, 4, 2), (2, 1, 1), (4, 4, 0), (4, 1, 3), (1, 8, 7), (1, 2, 1), (2, 8, 6), (2, 2, 0),
      (4, 8, 4), (4, 2, 2)] : List (ℚ × ℚ × ℚ)), dist [.fin t.1, .fin 0] [.fin t.2.1, .fin 0] = .ok (.fin t.2.2))
    (hn : ∀ q ∈ oneTwoFour, dist q.x [.inf false, .nan] = .ok .nan)
    (hd : ∀ q ∈ oneTwoFour, ∀ a b, ∃ r, dist q.x [a, b] = .ok r) (eps : ℚ) (h1 : eps < 1) (fuel : Nat) :
    kmTrain dist oneTwoFour oneTwoFour [2, 0] (.fin eps) (fun _ => false) fuel twoClusters = .error .diverges := by
  have pass1 : assignClusters dist { centers := [[.fin 4, .fin 0], [.fin 1, .fin 0]], clusters := [[], []] } oneTwoFour =
      .ok ({ centers := [[.fin 4, .fin 0], [.fin 1, .fin 0]], clusters := [[2], [0, 1]] }, .fin 1) := by
    unfold assignClusters oneTwoFour
    have s1 := assignOne_two dist [.fin 4, .fin 0] [.fin 1, .fin 0] [[], []] (.fin 0) (.fin 3) (.fin 0)
      { x := [.fin 1, .fin 0], y := 1, id := 1 } (he (1, 4, 3) (by simp)) (he (1, 1, 0) (by simp))
    have s2 := assignOne_two dist [.fin 4, .fin 0] [.fin 1, .fin 0] [[], [0]] (.fin 0) (.fin 2) (.fin 1)
      { x := [.fin 2, .fin 0], y := 1, id := 2 } (he (2, 4, 2) (by simp)) (he (2, 1, 1) (by simp))
    have s3 := assignOne_two dist [.fin 4, .fin 0] [.fin 1, .fin 0] [[], [0, 1]] (.fin 1) (.fin 0) (.fin 3)
      { x := [.fin 4, .fin 0], y := 1, id := 3 } (he (4, 4, 0) (by simp)) (he (4, 1, 3) (by simp))
    rw [List.foldlM_cons, s1]
    have t1 : (Dbl.fin 0).add ((Dbl.fin 0).mul (.fin 0)) = .fin 0 := by decide +kernel
    have m1 : Fp.minElement [.fin 3, .fin 0] = 1 := by decide +kernel
    simp only [m1]
    change assignOne dist ({ centers := [[.fin 4, .fin 0], [.fin 1, .fin 0]], clusters := [[], [0]] },
      (Dbl.fin 0).add ((Dbl.fin 0).mul (.fin 0))) _ >>= _ = _
    rw [t1, s2]
    have t2 : (Dbl.fin 0).add ((Dbl.fin 1).mul (.fin 1)) = .fin 1 := by decide +kernel
    have m2 : Fp.minElement [.fin 2, .fin 1] = 1 := by decide +kernel
    simp only [m2]
    change assignOne dist ({ centers := [[.fin 4, .fin 0], [.fin 1, .fin 0]], clusters := [[], [0, 1]] },
      (Dbl.fin 0).add ((Dbl.fin 1).mul (.fin 1))) _ >>= _ = _
    rw [t2, s3]
    have t3 : (Dbl.fin 1).add ((Dbl.fin 0).mul (.fin 0)) = .fin 1 := by decide +kernel
    have m3 : Fp.minElement [.fin 0, .fin 3] = 0 := by decide +kernel
    simp only [m3]
    change Except.ok (_, (Dbl.fin 1).add ((Dbl.fin 0).mul (.fin 0))) = _
    rw [t3]; rfl
  have pass2 : assignClusters dist { centers := [[.fin 8, .fin 0], [.fin 2, .fin 0]], clusters := [[], []] } oneTwoFour =
      .ok ({ centers := [[.fin 8, .fin 0], [.fin 2, .fin 0]], clusters := [[], [0, 1, 2]] }, .fin 5) := by
    unfold assignClusters oneTwoFour
    have s1 := assignOne_two dist [.fin 8, .fin 0] [.fin 2, .fin 0] [[], []] (.fin 0) (.fin 7) (.fin 1)
      { x := [.fin 1, .fin 0], y := 1, id := 1 } (he (1, 8, 7) (by simp)) (he (1, 2, 1) (by simp))
    have s2 := assignOne_two dist [.fin 8, .fin 0] [.fin 2, .fin 0] [[], [0]] (.fin 1) (.fin 6) (.fin 0)
      { x := [.fin 2, .fin 0], y := 1, id := 2 } (he (2, 8, 6) (by simp)) (he (2, 2, 0) (by simp))
    have s3 := assignOne_two dist [.fin 8, .fin 0] [.fin 2, .fin 0] [[], [0, 1]] (.fin 1) (.fin 4) (.fin 2)
      { x := [.fin 4, .fin 0], y := 1, id := 3 } (he (4, 8, 4) (by simp)) (he (4, 2, 2) (by simp))
    rw [List.foldlM_cons, s1]
    have t1 : (Dbl.fin 0).add ((Dbl.fin 1).mul (.fin 1)) = .fin 1 := by decide +kernel
    have m1 : Fp.minElement [.fin 7, .fin 1] = 1 := by decide +kernel
    simp only [m1]
    change assignOne dist ({ centers := [[.fin 8, .fin 0], [.fin 2, .fin 0]], clusters := [[], [0]] },
      (Dbl.fin 0).add ((Dbl.fin 1).mul (.fin 1))) _ >>= _ = _
    rw [t1, s2]
    have t2 : (Dbl.fin 1).add ((Dbl.fin 0).mul (.fin 0)) = .fin 1 := by decide +kernel
    have m2 : Fp.minElement [.fin 6, .fin 0] = 1 := by decide +kernel
    simp only [m2]
    change assignOne dist ({ centers := [[.fin 8, .fin 0], [.fin 2, .fin 0]], clusters := [[], [0, 1]] },
      (Dbl.fin 1).add ((Dbl.fin 0).mul (.fin 0))) _ >>= _ = _
    rw [t2, s3]
    have t3 : (Dbl.fin 1).add ((Dbl.fin 2).mul (.fin 2)) = .fin 5 := by decide +kernel
    have m3 : Fp.minElement [.fin 4, .fin 2] = 1 := by decide +kernel
    simp only [m3]
    change Except.ok (_, (Dbl.fin 1).add ((Dbl.fin 2).mul (.fin 2))) = _
    rw [t3]; rfl
  have comp1 : computeCenters oneTwoFour { centers := [[.fin 4, .fin 0], [.fin 1, .fin 0]], clusters := [[2], [0, 1]] } =
      .ok { centers := [[.fin 8, .fin 0], [.fin 2, .fin 0]], clusters := [[2], [0, 1]] } := by
    have c0 : newCenter oneTwoFour ([.fin 4, .fin 0], [2]) = .ok [.fin 8, .fin 0] := by decide +kernel
    have c1 : newCenter oneTwoFour ([.fin 1, .fin 0], [0, 1]) = .ok [.fin 2, .fin 0] := by decide +kernel
    unfold computeCenters
    simp only [List.zip_cons_cons, List.zip_nil_right, List.mapM_cons, List.mapM_nil, c0, c1, Res_bind_ok, Res_pure]
  have comp2 : computeCenters oneTwoFour { centers := [[.fin 8, .fin 0], [.fin 2, .fin 0]], clusters := [[], [0, 1, 2]] } =
      .ok { centers := [[.inf false, .nan], [.fin 3, .fin 0]], clusters := [[], [0, 1, 2]] } := by
    have c0 : newCenter oneTwoFour ([.fin 8, .fin 0], []) = .ok [.inf false, .nan] := by decide +kernel
    have c1 : newCenter oneTwoFour ([.fin 2, .fin 0], [0, 1, 2]) = .ok [.fin 3, .fin 0] := by decide +kernel
    unfold computeCenters
    simp only [List.zip_cons_cons, List.zip_nil_right, List.mapM_cons, List.mapM_nil, c0, c1, Res_bind_ok, Res_pure]
  change kmLoop dist oneTwoFour oneTwoFour (.fin eps) (fun _ => false) fuel 0
    { centers := [[.fin 4, .fin 0], [.fin 1, .fin 0]], clusters := [[], []] } (.fin 0) = _
  cases fuel with
  | zero => rfl
  | succ fuel =>
    have g1 : (((Dbl.fin 1).sub (.fin 0)).abs).le (.fin eps) = false := by
      have : ((Dbl.fin 1).sub (.fin 0)).abs = .fin 1 := by decide +kernel
      rw [this]; simpa [Dbl.le] using h1
    unfold kmLoop
    rw [pass1, Res_bind_ok]
    simp only [comp1, Res_bind_ok, g1]
    change kmLoop dist oneTwoFour oneTwoFour (.fin eps) (fun _ => false) fuel 1
      { centers := [[.fin 8, .fin 0], [.fin 2, .fin 0]], clusters := [[], []] } (.fin 1) = _
    cases fuel with
    | zero => rfl
    | succ fuel =>
      have g2 : (((Dbl.fin 5).sub (.fin 1)).abs).le (.fin eps) = false := by
        have : ((Dbl.fin 5).sub (.fin 1)).abs = .fin 4 := by decide +kernel
        rw [this]
        have : eps < 4 := by linarith
        simpa [Dbl.le] using this
      unfold kmLoop
      rw [pass2, Res_bind_ok]
      simp only [comp2, Res_bind_ok, g2]
      exact nan_centre_loops dist hn hd (.fin eps) fuel 2 (.fin 3) (.fin 0) (.fin 5)

/-- C229 refuted: training need not end.  With the Manhattan distance, samples at 1, 2 and 4 and the centres drawn at 4 and 1,
the second pass leaves the first cluster empty, its centre becomes infinity and NaN, from then on every sample goes to this
cluster and the cost is NaN: unless the time runs out, no number of passes is enough, however large the tolerance below
one. -/
theorem C229_training_ends_refuted (eps : ℚ) (h1 : eps < 1) (fuel : Nat) :
    kmTrain manhattan oneTwoFour oneTwoFour [2, 0] (.fin eps) (fun _ => false) fuel twoClusters = .error .diverges := by
  apply kmeans_forever _ _ _ _ eps h1
  · decide +kernel
  · decide +kernel
  · intro q hq a b
    have : ∃ u v, q.x = [u, v] := by
      simp only [oneTwoFour, List.mem_cons, List.not_mem_nil, or_false] at hq
      rcases hq with rfl | rfl | rfl <;> exact ⟨_, _, rfl⟩
    obtain ⟨u, v, h⟩ := this
    rw [h]
    exact ⟨_, rfl⟩

/-- C229 refuted, the default distance: the same with `Euclidean` and a `sqrt` that is exact at squares of numbers up to 7
and gives NaN for NaN. -/
theorem C229_training_ends_euclidean_refuted (sqrt : Dbl → Dbl) (hs : ∀ n : ℕ, n ≤ 7 → sqrt (.fin ((n * n : ℕ) : ℚ)) = .fin n)
    (hnan : sqrt .nan = .nan) (eps : ℚ) (h1 : eps < 1) (fuel : Nat) :
    kmTrain (euclidean sqrt) oneTwoFour oneTwoFour [2, 0] (.fin eps) (fun _ => false) fuel twoClusters =
      .error .diverges := by
  have hz : ∀ t ∈ ([(1, 4, 3), (1, 1, 0), (2, 4, 2), (2, 1, 1), (4, 4, 0), (4, 1, 3), (1, 8, 7), (1, 2, 1), (2, 8, 6), (2, 2, 0),
      (4, 8, 4), (4, 2, 2)] : List (ℕ × ℕ × ℕ)), total ([(Dbl.fin t.1).sub (.fin t.2.1), (Dbl.fin 0).sub (.fin 0)].map
        (fun v => v.mul v)) = .fin ((t.2.2 * t.2.2 : ℕ) : ℚ) ∧ t.2.2 ≤ 7 := by decide +kernel
  apply kmeans_forever _ _ _ _ eps h1
  · intro t ht
    have : ∃ u ∈ ([(1, 4, 3), (1, 1, 0), (2, 4, 2), (2, 1, 1), (4, 4, 0), (4, 1, 3), (1, 8, 7), (1, 2, 1), (2, 8, 6), (2, 2, 0),
      (4, 8, 4), (4, 2, 2)] : List (ℕ × ℕ × ℕ)), t = ((u.1 : ℚ), (u.2.1 : ℚ), (u.2.2 : ℚ)) := by
      revert t; decide +kernel
    obtain ⟨u, hu, rfl⟩ := this
    obtain ⟨z1, z2⟩ := hz u hu
    change Except.ok (sqrt (total ([(Dbl.fin u.1).sub (.fin u.2.1), (Dbl.fin 0).sub (.fin 0)].map (fun v => v.mul v)))) = _
    rw [z1, hs _ z2]
  · intro q hq
    have : ∃ u v, q.x = [.fin u, .fin v] := by
      simp only [oneTwoFour, List.mem_cons, List.not_mem_nil, or_false] at hq
      rcases hq with rfl | rfl | rfl <;> exact ⟨_, _, rfl⟩
    obtain ⟨u, v, h⟩ := this
    rw [h]
    change Except.ok (sqrt (Dbl.add (Dbl.add (.fin 0) (((Dbl.fin u).sub (.inf false)).mul ((Dbl.fin u).sub (.inf false)))) .nan)) = _
    rw [nan_addR, hnan]
  · intro q hq a b
    have : ∃ u v, q.x = [u, v] := by
      simp only [oneTwoFour, List.mem_cons, List.not_mem_nil, or_false] at hq
      rcases hq with rfl | rfl | rfl <;> exact ⟨_, _, rfl⟩
    obtain ⟨u, v, h⟩ := this
    rw [h]
    exact ⟨_, rfl⟩

/-- Such square roots exist. -/
example : ∃ sqrt : Dbl → Dbl, (∀ n : ℕ, n ≤ 7 → sqrt (.fin ((n * n : ℕ) : ℚ)) = .fin n) ∧ sqrt .nan = .nan := by
  refine ⟨fun a => match a with | .fin q => .fin (Nat.sqrt q.num.toNat : ℕ) | a => a, ?_, rfl⟩
  intro n hn
  interval_cases n <;> decide +kernel

/-- C229 refuted: when the time runs out in that training, `evaluate` answers the emptied cluster for every point of two
finite features, although its centre is no point and the other centre is at a finite distance. -/
theorem C229_emptied_cluster_refuted (eps : ℚ) (h1 : eps < 1) : ∃ s, kmTrain manhattan oneTwoFour oneTwoFour [2, 0] (.fin eps)
      (fun i => decide (i = 1)) 3 twoClusters = .ok s ∧ s.centers = [[.inf false, .nan], [.fin 3, .fin 0]] ∧
      s.clusters = [[], [0, 1, 2]] ∧ ∀ u v : ℚ, kmEvaluate manhattan s [.fin u, .fin v] = .ok 0 := by
  have pass1 : assignClusters manhattan { centers := [[.fin 4, .fin 0], [.fin 1, .fin 0]], clusters := [[], []] } oneTwoFour >>=
      (fun r => (computeCenters oneTwoFour r.1) >>= fun t => pure (t, r.2)) =
      .ok ({ centers := [[.fin 8, .fin 0], [.fin 2, .fin 0]], clusters := [[2], [0, 1]] }, .fin 1) := by decide +kernel
  have pass2 : assignClusters manhattan { centers := [[.fin 8, .fin 0], [.fin 2, .fin 0]], clusters := [[], []] } oneTwoFour >>=
      (fun r => computeCenters oneTwoFour r.1) =
      .ok { centers := [[.inf false, .nan], [.fin 3, .fin 0]], clusters := [[], [0, 1, 2]] } := by decide +kernel
  refine ⟨{ centers := [[.inf false, .nan], [.fin 3, .fin 0]], clusters := [[], [0, 1, 2]] }, ?_, rfl, rfl, ?_⟩
  · change kmLoop manhattan oneTwoFour oneTwoFour (.fin eps) (fun i => decide (i = 1)) 3 0
      { centers := [[.fin 4, .fin 0], [.fin 1, .fin 0]], clusters := [[], []] } (.fin 0) = _
    have g1 : (((Dbl.fin 1).sub (.fin 0)).abs).le (.fin eps) = false := by
      have : ((Dbl.fin 1).sub (.fin 0)).abs = .fin 1 := by decide +kernel
      rw [this]; simpa [Dbl.le] using h1
    unfold kmLoop
    cases ha : assignClusters manhattan { centers := [[.fin 4, .fin 0], [.fin 1, .fin 0]], clusters := [[], []] } oneTwoFour with
    | error e => rw [ha] at pass1; cases pass1
    | ok r =>
      rw [ha, Res_bind_ok] at pass1
      rw [Res_bind_ok]
      cases hb : computeCenters oneTwoFour r.1 with
      | error e => rw [hb] at pass1; cases pass1
      | ok t =>
        rw [hb, Res_bind_ok] at pass1
        rw [Res_pure] at pass1
        obtain ⟨pt, pr⟩ := Prod.mk.inj (Except.ok.inj pass1)
        subst pt
        simp only [hb, Res_bind_ok, pr, g1]
        change kmLoop manhattan oneTwoFour oneTwoFour (.fin eps) (fun i => decide (i = 1)) 2 1
          { centers := [[.fin 8, .fin 0], [.fin 2, .fin 0]], clusters := [[], []] } _ = _
        unfold kmLoop
        cases hc : assignClusters manhattan { centers := [[.fin 8, .fin 0], [.fin 2, .fin 0]], clusters := [[], []] } oneTwoFour with
        | error e => rw [hc] at pass2; cases pass2
        | ok r =>
          rw [hc, Res_bind_ok] at pass2
          rw [Res_bind_ok]
          simp only [pass2, Res_bind_ok]
          rfl
  · intro u v
    have e0 : manhattan [.inf false, .nan] [.fin u, .fin v] = .ok .nan := by
      change Except.ok (Dbl.add (Dbl.add (.fin 0) ((Dbl.inf false).sub (.fin u)).abs) .nan) = _
      rw [nan_addR]
    have e1 : ∃ r, manhattan [.fin 3, .fin 0] [.fin u, .fin v] = .ok r := ⟨_, rfl⟩
    obtain ⟨r, e1⟩ := e1
    unfold kmEvaluate
    simp only [List.mapM_cons, List.mapM_nil, e0, e1, Res_bind_ok, Res_pure, Fp.minElement, Fp.minLoop, nan_ltR]
    rfl

/-- The hypotheses are met: two centres and the three samples. -/
example : ∃ d : List Dbl → List Dbl → Dbl,
    let s : KM Dbl := { centers := [[.fin 4, .fin 0], [.fin 1, .fin 0]], clusters := [[], []] }
    (∀ q ∈ oneTwoFour, ∀ c ∈ s.centers, manhattan q.x c = .ok (d q.x c)) ∧
    (∀ q ∈ oneTwoFour, ∀ c ∈ s.centers, d q.x c = .inf false ∨ ∃ r, d q.x c = .fin r ∧ IsDbl r ∧ 0 ≤ r) ∧
    (assignClusters manhattan s oneTwoFour).toOption.map (fun r => (r.1.clusters, r.2)) = some ([[2], [0, 1]], .fin 1) ∧
    (kmEvaluate manhattan s [.fin 3, .fin 0]).toOption = some 0 := by
  refine ⟨fun p q => (manhattan p q).toOption.getD .nan, by decide +kernel, ?_, by decide +kernel, by decide +kernel⟩
  intro q hq c hc
  right
  refine ⟨((manhattan q.x c).toOption.map rank).getD 0, ?_⟩
  revert q c
  decide +kernel

end MLTK.Props
