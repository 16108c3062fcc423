import Mathlib.Tactic.NormNum
import Verif.Lemmas.Clustering
/-!
# C49-C51, C80-C84: k-means
-/
namespace MLTK.Props
open MLTK.Spec MLTK.KMeans
open MLTK.Data (Res_bind_ok Res_bind_error Res_pure)

section
variable {K : Type} [Field K] [LinearOrder K]

/-- C49.  Assigning the points to cleared clusters puts every sample in the cluster of its (first)
nearest centre and nowhere else; the cost is the sum of the squared distances. -/
theorem C49_partition (dist : List K → List K → Res K) (d : List K → List K → K) (s : KM K)
    (hk : s.clusters.length = s.centers.length) (hne : s.centers ≠ []) (hc : ∀ cl ∈ s.clusters, cl = [])
    (points : List (Pt K)) (hid : ∀ q ∈ points, 1 ≤ q.id)
    (hd : ∀ q ∈ points, ∀ c ∈ s.centers, dist q.x c = .ok (d q.x c)) :
    ∃ (choice : Pt K → Nat) (s' : KM K),
      (∀ q ∈ points, FirstMin s.centers.length (fun j => d q.x (s.centers.getD j [])) (choice q)) ∧
      assignClusters dist s points =
        .ok (s', (points.map (fun q => d q.x (s.centers.getD (choice q) []) ^ 2)).sum) ∧
      s'.centers = s.centers ∧ s'.clusters = groupBy s.centers.length choice points ∧
      s'.clusters.flatten.Perm (points.map (fun q => q.id - 1)) := by
  refine ⟨pick d s.centers, { s with clusters := appended d s points }, fun q _ => pick_spec d s.centers hne q,
    assign_spec dist d s hk hne points hd, rfl, appended_cleared d s hc hk points hid, ?_⟩
  rw [appended_cleared d s hc hk points hid]
  exact groupBy_flatten _ _ _ (fun q _ => (pick_spec d s.centers hne q).1)

/-- C49.  `evaluate` returns the index of the first centre at minimal distance. -/
theorem C49_evaluate (dist : List K → List K → Res K) (d : List K → List K → K) (s : KM K)
    (hne : s.centers ≠ []) (p : List K) (hd : ∀ c ∈ s.centers, dist c p = .ok (d c p)) :
    ∃ i, evaluate dist s p = .ok i ∧
      FirstMin s.centers.length (fun j => d (s.centers.getD j []) p) i := by
  have h1 : s.centers.mapM (fun c => dist c p) = .ok (s.centers.map (fun c => d c p)) := mapM_map _ _ _ hd
  refine ⟨minElement (s.centers.map (fun c => d c p)), ?_, ?_⟩
  · unfold evaluate
    rw [h1, Res_bind_ok]; rfl
  · exact pick_spec (fun x c => d c x) s.centers hne { x := p, y := 0 }

/-- C50, what the code computes: the new centre is the mean plus the old centre divided by the size of
the cluster.  It is the mean for a centre that was zero. -/
theorem C50_zero_centre_partial [IsStrictOrderedRing K] (samples : List (Pt K)) (dim : Nat) (ids : List Nat)
    (hne : ids ≠ []) (h : ∀ (i : Nat), i ∈ ids → ∃ p, samples[i]? = some p ∧ p.x.length = dim) :
    newCenter samples (List.replicate dim 0, ids) = .ok (meanOf dim (members samples ids)) := by
  obtain ⟨w, h1, h2, h3⟩ := newCenter_ok samples dim (List.replicate dim 0) (by simp) ids hne h
  rw [h1]
  congr 1
  apply List.ext_getElem (by simp [h2, meanOf])
  intro j hj hj'
  have := h3 j (by omega)
  rw [List.getD_eq_getElem _ _ hj, List.getD_eq_getElem (meanOf _ _) _ hj'] at this
  rw [this]
  have : (List.replicate dim (0 : K)).getD j 0 = 0 := by
    rw [List.getD_eq_getElem?_getD, List.getElem?_replicate]
    by_cases hjd : j < dim <;> simp [hjd]
  rw [this, zero_div, zero_add]

/-- C50 refuted for every other centre: the new centre is never the mean of the cluster. -/
theorem C50_mean_refuted [IsStrictOrderedRing K] (samples : List (Pt K)) (dim : Nat) (v : List K)
    (hv : v.length = dim) (hnz : ∃ x ∈ v, x ≠ 0) (ids : List Nat) (hne : ids ≠ [])
    (h : ∀ (i : Nat), i ∈ ids → ∃ p, samples[i]? = some p ∧ p.x.length = dim) :
    ∃ w, newCenter samples (v, ids) = .ok w ∧ w ≠ meanOf dim (members samples ids) := by
  obtain ⟨w, h1, h2, h3⟩ := newCenter_ok samples dim v hv ids hne h
  refine ⟨w, h1, ?_⟩
  rintro rfl
  obtain ⟨x, hx, hx0⟩ := hnz
  obtain ⟨j, hj, rfl⟩ := List.getElem_of_mem hx
  have h4 := h3 j (by omega)
  have h5 : v.getD j 0 / (ids.length : K) = 0 := by linarith
  rw [List.getD_eq_getElem _ _ hj] at h5
  have hn : (ids.length : K) ≠ 0 := by
    have : ids.length ≠ 0 := fun hc => hne (List.length_eq_zero_iff.mp hc)
    exact_mod_cast this
  exact hx0 ((div_eq_zero_iff.mp h5).resolve_right hn)

/-- C50 refuted for empty clusters: the update divides by zero. -/
theorem C50_empty_cluster_refuted (samples : List (Pt K)) (v : List K) (hv : v ≠ []) :
    newCenter samples (v, []) = .error .nonFinite := by
  unfold newCenter addSamples divCenter
  dsimp only [List.foldlM_nil]
  rw [Res_pure, Res_bind_ok, if_pos ⟨rfl, hv⟩]

/-- The successive calls of `clusters()`: the state after `n` calls. -/
def callTimes (dist : List K → List K → Res K) (samples : List (Pt K)) : Nat → KM K → Res (KM K)
  | 0, s => .ok s
  | n+1, s => do
    let s ← callTimes dist samples n s
    let (s, _) ← clusters dist samples s
    pure s

/-- C51 for the first call after the clusters were cleared (as a training that converges leaves them):
every sample is listed once, under its nearest centre. -/
theorem C51_first_call_partial (dist : List K → List K → Res K) (d : List K → List K → K) (s : KM K)
    (hk : s.clusters.length = s.centers.length) (hne : s.centers ≠ []) (hc : ∀ cl ∈ s.clusters, cl = [])
    (samples : List (Pt K)) (hid : ∀ q ∈ samples, 1 ≤ q.id)
    (hd : ∀ q ∈ samples, ∀ c ∈ s.centers, dist q.x c = .ok (d q.x c)) :
    ∃ (choice : Pt K → Nat) (s' : KM K),
      (∀ q ∈ samples, FirstMin s.centers.length (fun j => d q.x (s.centers.getD j [])) (choice q)) ∧
      clusters dist samples s = .ok (s', groupBy s.centers.length choice samples) := by
  obtain ⟨choice, s', h1, h2, _, h4, _⟩ := C49_partition dist d s hk hne hc samples hid hd
  refine ⟨choice, s', h1, ?_⟩
  unfold clusters
  rw [h2, Res_bind_ok]
  dsimp only
  rw [h4]; rfl

/-- C51 refuted: the call number `n + 1` lists every sample `n + 1` times. -/
theorem C51_repeated_calls_refuted (dist : List K → List K → Res K) (d : List K → List K → K) (s : KM K)
    (hk : s.clusters.length = s.centers.length) (hne : s.centers ≠ []) (hc : ∀ cl ∈ s.clusters, cl = [])
    (samples : List (Pt K)) (hid : ∀ q ∈ samples, 1 ≤ q.id)
    (hd : ∀ q ∈ samples, ∀ c ∈ s.centers, dist q.x c = .ok (d q.x c)) (n : Nat) :
    ∃ s1 s2 answer, callTimes dist samples n s = .ok s1 ∧ clusters dist samples s1 = .ok (s2, answer) ∧
      answer.flatten.length = (n + 1) * samples.length := by
  have key : ∀ n, ∃ s1, callTimes dist samples n s = .ok s1 ∧ s1.centers = s.centers ∧
      s1.clusters.length = s.clusters.length ∧ s1.clusters.flatten.length = n * samples.length := by
    intro n
    induction n with
    | zero =>
      refine ⟨s, rfl, rfl, rfl, ?_⟩
      rw [List.length_flatten]
      simp only [Nat.zero_mul]
      apply List.sum_eq_zero
      intro x hx
      obtain ⟨cl, hcl, rfl⟩ := List.mem_map.mp hx
      rw [hc cl hcl]; rfl
    | succ n ih =>
      obtain ⟨s1, a1, a2, a3, a4⟩ := ih
      have hap := assign_spec dist d s1 (by rw [a3, a2, hk]) (by rw [a2]; exact hne) samples (by rw [a2]; exact hd)
      refine ⟨{ s1 with clusters := appended d s1 samples }, ?_, a2, by simp [appended, a3], ?_⟩
      · rw [callTimes, a1, Res_bind_ok]
        unfold clusters
        rw [hap]; rfl
      · have hlen : (appended d s1 samples).flatten.length =
            s1.clusters.flatten.length + samples.length := by
          have hg := (groupBy_flatten s1.centers.length (pick d s1.centers) samples
            (fun q _ => (pick_spec d s1.centers (by rw [a2]; exact hne) q).1)).length_eq
          rw [List.length_map] at hg
          rw [← hg, List.length_flatten, List.length_flatten, List.length_flatten]
          have hl : s1.clusters.length = s1.centers.length := by rw [a3, a2, hk]
          have h1 : (appended d s1 samples).map List.length = List.zipWith (· + ·) (s1.clusters.map List.length)
              ((groupBy s1.centers.length (pick d s1.centers) samples).map List.length) := by
            apply List.ext_getElem (by simp [appended, groupBy, hl])
            intro i h1 h2
            simp [appended, groupBy]
          have h2 : ∀ (a b : List Nat), a.length = b.length → (List.zipWith (· + ·) a b).sum = a.sum + b.sum := by
            intro a
            induction a with
            | nil => intro b hb; simp [List.length_eq_zero_iff.mp hb.symm]
            | cons x a ih =>
              intro b hb
              cases b with
              | nil => simp at hb
              | cons y b =>
                simp only [List.zipWith_cons_cons, List.sum_cons]
                rw [ih b (by simpa using hb)]
                omega
          rw [h1, h2 _ _ (by simp [groupBy, hl])]
        show (appended d s1 samples).flatten.length = _
        rw [hlen, a4]; ring
  obtain ⟨s1, a1, a2, a3, a4⟩ := key n
  obtain ⟨s2, b1, b2, b3, b4⟩ := key (n + 1)
  have hap := assign_spec dist d s1 (by rw [a3, a2, hk]) (by rw [a2]; exact hne) samples (by rw [a2]; exact hd)
  have hcl : clusters dist samples s1 =
      .ok ({ s1 with clusters := appended d s1 samples }, appended d s1 samples) := by
    unfold clusters
    rw [hap, Res_bind_ok]; rfl
  refine ⟨s1, _, _, a1, hcl, ?_⟩
  rw [callTimes, a1, Res_bind_ok, hcl, Res_bind_ok] at b1
  injection b1 with b1
  rw [← b4, ← b1]

/-- C80 (part).  Training again right after a training that converged, with the same initial centres
drawn, gives the same model. -/
theorem C80_retrain_partial (dist : List K → List K → Res K) (samples points : List (Pt K)) (init : Init)
    (hi : init ≠ .other) (draws : List Nat) (eps : K) (fuel k dim : Nat) (s : KM K)
    (h : train dist samples points init draws eps (fun _ => false) fuel (create k dim) = .ok s) :
    train dist samples points init draws eps (fun _ => false) fuel s = .ok s := by
  have hcl := train_clusters dist samples points init draws eps fuel (create k dim) s h
  rw [← h]
  apply train_eq_of _ _ _ _ _ _ _ _ _ _ hi
  rw [hcl]
  simp [create]

/-- C81 (part).  When every draw is a valid index the initial centres are samples, one per cluster. -/
theorem C81_random_partial (dist : List K → List K → Res K) (samples points : List (Pt K)) (draws : List Nat)
    (hdr : ∀ i ∈ draws, i < samples.length) (s : KM K) :
    ∃ cs, initCenters dist samples points .random draws s = .ok cs ∧ cs.length = draws.length ∧
      ∀ c ∈ cs, ∃ q ∈ samples, q.x = c := by
  refine ⟨draws.map (fun i => ((samples[i]?).map (·.x)).getD []), ?_, by simp, ?_⟩
  · apply mapM_map
    intro i hi
    have := hdr i hi
    rw [vget_lt _ _ this, Res_bind_ok, List.getElem?_eq_getElem this]; rfl
  · intro c hc
    obtain ⟨i, hi, rfl⟩ := List.mem_map.mp hc
    have := hdr i hi
    refine ⟨samples[i], List.getElem_mem this, ?_⟩
    rw [List.getElem?_eq_getElem this]; rfl

/-- C81 (part).  The centres chosen by `kmeanspp` are samples, one per cluster. -/
theorem C81_plusplus_partial (dist : List K → List K → Res K) (samples points : List (Pt K)) (draws : List Nat)
    (hp : points.Perm samples) (s : KM K) (cs : List (List K))
    (h : initCenters dist samples points .kmeanspp draws s = .ok cs) :
    cs.length = draws.length ∧ ∀ c ∈ cs, ∃ q ∈ samples, q.x = c := by
  cases draws with
  | nil => simp [initCenters] at h
  | cons i is =>
    unfold initCenters at h
    dsimp only at h
    cases h2 : vget points i with
    | error f => rw [h2] at h; simp at h
    | ok p =>
      rw [h2, Res_bind_ok] at h
      cases h3 : plusPlus dist points p.x is with
      | error f => rw [h3] at h; simp at h
      | ok cs' =>
        rw [h3, Res_bind_ok] at h
        injection h with h
        obtain ⟨a, b⟩ := plusPlus_mem dist points is p.x cs' h3
        rw [← h]
        refine ⟨by simp [a], fun c hc => ?_⟩
        rcases List.mem_cons.mp hc with rfl | hc
        · refine ⟨p, ?_, rfl⟩
          rw [← hp.mem_iff]
          unfold vget at h2
          cases h4 : points[i]? with
          | none => rw [h4] at h2; simp at h2
          | some p' =>
            rw [h4] at h2
            injection h2 with h2
            subst h2
            exact List.mem_of_getElem? h4
        · obtain ⟨q, hq, e⟩ := b c hc
          exact ⟨q, hp.mem_iff.mp hq, e⟩

/-- C81 refuted: `intInRange(0, size)` may deliver `size`, and then the training reads past the end,
whatever the data and the other draws. -/
theorem C81_draw_refuted (dist : List K → List K → Res K) (samples points : List (Pt K)) (draws : List Nat)
    (hdr : samples.length ∈ draws) (hle : ∀ i ∈ draws, i ≤ samples.length) (eps : K) (expired : Nat → Bool)
    (fuel : Nat) (s : KM K) :
    train dist samples points .random draws eps expired fuel s = .error .outOfBounds := by
  have h1 : initCenters dist samples points .random draws s = .error .outOfBounds := by
    unfold initCenters
    dsimp only
    induction draws with
    | nil => simp at hdr
    | cons i is ih =>
      rw [List.mapM_cons]
      by_cases hi : i < samples.length
      · rw [vget_lt _ _ hi, Res_bind_ok, Res_pure, Res_bind_ok,
          ih ((List.mem_cons.mp hdr).resolve_left (by omega)) (fun j hj => hle j (by simp [hj]))]
        rfl
      · have : vget samples i = .error .outOfBounds := by
          unfold vget
          rw [List.getElem?_eq_none (by omega)]
        rw [this]; rfl
  unfold train
  rw [h1]; rfl

/-- C82.  `clusters_variance` is the sum over the clusters of the squared distances of the members to
the mean of their cluster. -/
theorem C82_variance (samples : List (Pt K)) (dim : Nat) (cls : List (List Nat))
    (h : ∀ ids ∈ cls, ∀ (i : Nat), i ∈ ids → ∃ p, samples[i]? = some p ∧ p.x.length = dim) :
    variance samples dim cls = .ok ((cls.map (fun ids =>
      ((members samples ids).map (fun x => squaredGap dim x (meanOf dim (members samples ids)))).sum)).sum) :=
  variance_ok samples dim cls h

/-- C84 refuted: `kmeanspp` chooses the sample drawn whatever its distance, so drawing the same index
again repeats the centre. -/
theorem C84_plusplus_refuted (dist : List K → List K → Res K) (d : List K → List K → K) (samples points : List (Pt K))
    (s : KM K) (i : Nat) (p : Pt K) (hp : points[i]? = some p) (hd : ∀ q ∈ points, dist p.x q.x = .ok (d p.x q.x))
    (hs : (points.map (fun q => d p.x q.x)).sum ≠ 0) :
    initCenters dist samples points .kmeanspp [i, i] s = .ok [p.x, p.x] := by
  have h1 : vget points i = .ok p := by simp [vget, hp]
  have h2 : points.mapM (fun q => dist p.x q.x) = .ok (points.map (fun q => d p.x q.x)) := mapM_map _ _ _ hd
  unfold initCenters
  dsimp only
  rw [h1, Res_bind_ok]
  have h3 : plusPlus dist points p.x [i] = .ok [p.x] := by
    unfold plusPlus
    rw [h2, Res_bind_ok, if_neg hs, h1, Res_bind_ok]; rfl
  rw [h3]; rfl

/-- C83 (part).  The cost of an iteration is the least cost of any assignment of the samples to the centres it started
from, so assigning the samples never raises the cost.  Missing with respect to C83: the new centres
(`C83_cost_refuted`). -/
theorem C83_assignment_partial [IsStrictOrderedRing K] (dist : List K → List K → Res K) (d : List K → List K → K)
    (s s' : KM K) (samples : List (Pt K)) (cost : K) (hk : s.clusters.length = s.centers.length) (hne : s.centers ≠ [])
    (hd : ∀ q ∈ samples, ∀ c ∈ s.centers, dist q.x c = .ok (d q.x c) ∧ 0 ≤ d q.x c)
    (h : iterate dist samples samples s = .ok (s', cost)) (assigned : Pt K → List K)
    (ha : ∀ q ∈ samples, assigned q ∈ s.centers) :
    cost ≤ (samples.map (fun q => d q.x (assigned q) ^ 2)).sum := by
  have e := assign_spec dist d s hk hne samples (fun q hq c hc => (hd q hq c hc).1)
  unfold iterate at h
  rw [e, Res_bind_ok] at h
  dsimp only at h
  cases h2 : computeCenters samples { s with clusters := appended d s samples } with
  | error f => rw [h2] at h; simp at h
  | ok s2 =>
    rw [h2, Res_bind_ok] at h
    injection h with h
    injection h with _ h
    rw [← h]
    refine List.sum_le_sum fun q hq => ?_
    obtain ⟨hlt, hmin, _⟩ := pick_spec d s.centers hne q
    obtain ⟨j, hj, hje⟩ := List.getElem_of_mem (ha q hq)
    have h1 := hmin j hj
    have e2 : s.centers.getD j [] = assigned q := by
      rw [List.getD_eq_getElem?_getD, List.getElem?_eq_getElem hj, hje]; rfl
    simp only [e2] at h1
    have h0 : 0 ≤ d q.x (s.centers.getD (pick d s.centers q) []) := by
      refine (hd q hq _ ?_).2
      rw [List.getD_eq_getElem?_getD, List.getElem?_eq_getElem hlt]
      exact List.getElem_mem hlt
    exact pow_le_pow_left₀ h0 h1 2

/-- C84 (part).  Two centres chosen one after the other are different when the draws are indices of different samples:
`kmeanspp` chooses exactly the samples drawn.  Missing with respect to C84: repeated draws
(`C84_plusplus_refuted`). -/
theorem C84_different_draws_partial (dist : List K → List K → Res K) (samples points : List (Pt K)) (draws : List Nat)
    (s : KM K) (cs : List (List K)) (h : initCenters dist samples points .kmeanspp draws s = .ok cs) :
    cs.map some = draws.map (fun i => points[i]?.map Pt.x) ∧
      ((draws.Nodup ∧ (points.map Pt.x).Nodup) → cs.Nodup) := by
  have key : ∀ (is : List Nat) (prev : List K) (cs : List (List K)), plusPlus dist points prev is = .ok cs →
      cs.map some = is.map (fun i => points[i]?.map Pt.x) := by
    intro is
    induction is with
    | nil => intro prev cs h; simp [plusPlus] at h; simp [← h]
    | cons i is ih =>
      intro prev cs h
      unfold plusPlus at h
      cases h1 : points.mapM (fun q => dist prev q.x) with
      | error f => rw [h1] at h; simp at h
      | ok ds =>
        rw [h1, Res_bind_ok] at h
        split at h
        · simp at h
        · cases h2 : vget points i with
          | error f => rw [h2] at h; simp at h
          | ok p =>
            rw [h2, Res_bind_ok] at h
            cases h3 : plusPlus dist points p.x is with
            | error f => rw [h3] at h; simp at h
            | ok cs' =>
              rw [h3, Res_bind_ok] at h
              injection h with h
              rw [← h, List.map_cons, List.map_cons, ih _ _ h3, (vget_eq_ok.1 h2)]
              rfl
  have h1 : cs.map some = draws.map (fun i => points[i]?.map Pt.x) := by
    cases draws with
    | nil => simp [initCenters] at h
    | cons i is =>
      unfold initCenters at h
      dsimp only at h
      cases h2 : vget points i with
      | error f => rw [h2] at h; simp at h
      | ok p =>
        rw [h2, Res_bind_ok] at h
        cases h3 : plusPlus dist points p.x is with
        | error f => rw [h3] at h; simp at h
        | ok cs' =>
          rw [h3, Res_bind_ok] at h
          injection h with h
          rw [← h, List.map_cons, List.map_cons, key _ _ _ h3, (vget_eq_ok.1 h2)]
          rfl
  refine ⟨h1, fun hn => ?_⟩
  refine List.Nodup.of_map some ?_
  rw [h1]
  refine List.Nodup.map_on ?_ hn.1
  intro i hi j hj hij
  have hs : ∀ i ∈ draws, ∃ c, points[i]?.map Pt.x = some c := by
    intro i hi
    have : points[i]?.map Pt.x ∈ cs.map some := by rw [h1]; exact List.mem_map.2 ⟨i, hi, rfl⟩
    obtain ⟨c, _, hc⟩ := List.mem_map.1 this
    exact ⟨c, hc.symm⟩
  obtain ⟨c, hc⟩ := hs i hi
  have hlen : i < (points.map Pt.x).length := by
    rcases Nat.lt_or_ge i points.length with h | h
    · simpa using h
    · rw [List.getElem?_eq_none h] at hc; cases hc
  refine (List.getElem?_inj hlen hn.2).1 ?_
  rw [List.getElem?_map, List.getElem?_map]
  exact hij

end

/-! ### Concrete cases -/

private def absDist (a b : List ℚ) : Res ℚ := .ok |a.getD 0 0 - b.getD 0 0|

private def two : List (Pt ℚ) := [{ x := [1], y := 0, id := 1 }, { x := [2], y := 0, id := 2 }]

private def four : List (Pt ℚ) :=
  [{ x := [0], y := 0, id := 1 }, { x := [10], y := 0, id := 2 }, { x := [2], y := 0, id := 3 }, { x := [11], y := 0, id := 4 }]

/-- A state that meets the hypotheses of C49 and C51. -/
private def cleared2 : KM ℚ := { centers := [[1], [9]], clusters := [[], []] }

example : cleared2.clusters.length = cleared2.centers.length ∧ cleared2.centers ≠ [] ∧
    (∀ cl ∈ cleared2.clusters, cl = []) ∧ (∀ q ∈ four, 1 ≤ q.id) ∧
    (∀ q ∈ four, ∀ c ∈ cleared2.centers, absDist q.x c = .ok ((fun a b => |a.getD 0 0 - b.getD 0 0|) q.x c)) := by
  refine ⟨rfl, by decide, by decide, by decide, fun q _ c _ => rfl⟩

example : clusters absDist four cleared2 = .ok ({ cleared2 with clusters := [[0, 2], [1, 3]] }, [[0, 2], [1, 3]]) := by
  decide +kernel

example : evaluate absDist cleared2 [8] = .ok 1 := by decide +kernel

example : ∀ (i : Nat), i ∈ [1, 3] → ∃ p, four[i]? = some p ∧ p.x.length = 1 := by
  intro i hi
  simp only [List.mem_cons, List.not_mem_nil, or_false] at hi
  rcases hi with rfl | rfl
  · exact ⟨_, rfl, rfl⟩
  · exact ⟨_, rfl, rfl⟩

/-- C50 refuted for the trained model: with the samples 1 and 2 and one cluster the training ends with the
centre 5/2, not 3/2. -/
theorem C50_train_refuted :
    train absDist two two .random [0] (1 / 10000000) (fun _ => false) 10 (create 1 1) =
      .ok { centers := [[5 / 2]], clusters := [[]] } ∧
    meanOf 1 (members two [0, 1]) = [3 / 2] := by
  refine ⟨by decide +kernel, by decide +kernel⟩

/-- C80 refuted: reading the clusters between two trainings with the same draws changes the centres. -/
theorem C80_clusters_refuted :
    ∃ s1 s2 s3 ans, train absDist two two .random [0] (1 / 10000000) (fun _ => false) 40 (create 1 1) = .ok s1 ∧
      clusters absDist two s1 = .ok (s2, ans) ∧
      train absDist two two .random [0] (1 / 10000000) (fun _ => false) 40 s2 = .ok s3 ∧
      s3.centers ≠ s1.centers := by
  have h : (do
      let s1 ← train absDist two two .random [0] (1 / 10000000) (fun _ => false) 40 (create 1 1)
      let (s2, _) ← clusters absDist two s1
      let s3 ← train absDist two two .random [0] (1 / 10000000) (fun _ => false) 40 s2
      pure (decide (s3.centers ≠ s1.centers)) : Res Bool) = .ok true := by decide +kernel
  cases h1 : train absDist two two .random [0] (1 / 10000000) (fun _ => false) 40 (create 1 1) with
  | error f => rw [h1] at h; simp at h
  | ok s1 =>
    rw [h1, Res_bind_ok] at h
    cases h2 : clusters absDist two s1 with
    | error f => rw [h2] at h; simp at h
    | ok r =>
      rw [h2, Res_bind_ok] at h
      dsimp only at h
      cases h3 : train absDist two two .random [0] (1 / 10000000) (fun _ => false) 40 r.1 with
      | error f => rw [h3] at h; simp at h
      | ok s3 =>
        rw [h3, Res_bind_ok] at h
        injection h with h
        exact ⟨s1, r.1, s3, r.2, rfl, h2, h3, of_decide_eq_true h⟩

/-- C83 refuted: an iteration of the training raises the cost from 1 to 101/2. -/
theorem C83_cost_refuted :
    ∃ (samples : List (Pt ℚ)) (s0 s1 s2 : KM ℚ),
      iterate absDist samples samples s0 = .ok (s1, 1) ∧ s0.clusters = [[]] ∧
      iterate absDist samples samples (clear s1) = .ok (s2, 101 / 2) :=
  ⟨[{ x := [10], y := 0, id := 1 }, { x := [11], y := 0, id := 2 }], { centers := [[10]], clusters := [[]] },
    { centers := [[31 / 2]], clusters := [[0, 1]] }, { centers := [[73 / 4]], clusters := [[0, 1]] },
    by decide +kernel, rfl, by decide +kernel⟩

example : iterate absDist four four cleared2 =
      .ok ({ centers := [[3 / 2], [15]], clusters := [[0, 2], [1, 3]] }, 7) ∧
    ∀ q ∈ four, ∀ c ∈ cleared2.centers, absDist q.x c = .ok |q.x.getD 0 0 - c.getD 0 0| ∧ 0 ≤ |q.x.getD 0 0 - c.getD 0 0| :=
  ⟨by decide +kernel, fun _ _ _ _ => ⟨rfl, abs_nonneg _⟩⟩

example : (four.map Pt.x).Nodup ∧ [1, 2, 0].Nodup := by decide +kernel

example : variance four 1 [[0, 2], [1, 3], []] = .ok (5 / 2) := by decide +kernel

example : (four.map (fun q => |([0] : List ℚ).getD 0 0 - q.x.getD 0 0|)).sum ≠ 0 := by decide +kernel

example : initCenters absDist four four .kmeanspp [1, 2, 0] (create 3 1) = .ok [[10], [2], [0]] := by decide +kernel

end MLTK.Props
