import Mathlib.Data.List.Sort
import Mathlib.Algebra.BigOperators.Ring.List
import Mathlib.Algebra.Order.Field.Basic
import Mathlib.Tactic.LinearCombination
import Verif.Lemmas.Artificial
import Verif.Lemmas.Subspace
import Verif.Props.DataCopy
/-!
# C62, C63, C93-C97: over-sampling, feature subspaces and artificial datasets
-/
namespace MLTK.Props
open MLTK MLTK.Data MLTK.Spec MLTK.Sampling

section
variable {K : Type} [Field K]

/-! ## SMOTE -/

/-- **C62** (partial: the new samples do not lie between a minority sample and its neighbour, they are not in the requested
number, and the neighbour may belong to another class, see the refutations below).
On every consistent dataset whose listed classes all have samples, SMOTE keeps every original sample (features, label, id and
order) and appends samples of a class with the fewest samples only.  It appends, for every sample of that class, one sample
per neighbour, `k` at most.  Each is `z + a (z - q)` for a minority sample `z`, one of the random numbers `a`, and the dataset
sample `q` standing at the position which one of the `k` nearest neighbours of `z` has *in the minority class*; if the
minority samples come first in the dataset, `q` is that neighbour. -/
theorem C62_smote_partial [LinearOrder K] (dist : List K → List K → K) (srt : List (Nat × K) → List (Nat × K))
    (hs : ∀ l, (srt l).Perm l ∧ (srt l).Pairwise (fun x y => x.2 ≤ y.2)) (k : Nat) (r : K) (alpha : Nat → K)
    (σ : List Nat → List Nat) (hσ : ∀ l, (σ l).Perm l) (m : Mem K) (d : Data) (h : Consistent m d) (hne : d.points ≠ [])
    (hall : ∀ c ∈ d.classes, c ∈ labels m d) :
    ∃ c m' d' added, MinorityClass (labels m d) c ∧ smote dist srt k r alpha σ m d = .ok (m', d') ∧ Consistent m' d' ∧
      samples m' d' = samples m d ++ added ∧ (∀ p ∈ added, p.y = c) ∧
      added.length = ((samplesOf m d c).map (fun z => min k (distinctDistances dist (samplesOf m d c) z))).sum ∧
      (∀ p ∈ added, ∃ z ∈ samplesOf m d c, ∃ (j : Nat) (q0 q : Pt K), (samplesOf m d c)[j]? = some q0 ∧
        NearNeighbour dist (samplesOf m d c) k z q0 ∧ (samples m d)[j]? = some q ∧ ∃ a, BeyondPoint (alpha a) z.x q.x p.x) ∧
      (samplesOf m d c <+: samples m d → ∀ p ∈ added, ∃ z ∈ samplesOf m d c, ∃ q, NearNeighbour dist (samplesOf m d c) k z q ∧
        ∃ a, BeyondPoint (alpha a) z.x q.x p.x) := by
  obtain ⟨c, m', d', added, hc1, hc2, e, hcon, hsam, _, hlen, hmade⟩ := smote_ok dist srt hs k r alpha σ hσ m d h hne
  refine ⟨c, m', d', added, ⟨hall c hc1, fun c' hc' => hc2 c' (h.counts.covers c' hc')⟩, e, hcon, hsam,
    fun p hp => (hmade p hp).1, hlen, fun p hp => (hmade p hp).2, ?_⟩
  intro hpre p hp
  obtain ⟨_, z, hz, j, q0, q, hq0, hnear, hq, hb⟩ := hmade p hp
  have : (samples m d)[j]? = some q0 := by
    obtain ⟨t, ht⟩ := hpre
    rw [← ht, List.getElem?_append_left (List.getElem?_eq_some_iff.1 hq0).1]
    exact hq0
  rw [this] at hq
  cases hq
  exact ⟨z, hz, q0, hnear, hb⟩

/-- The distance used in the examples: one feature. -/
def lineDist (a b : List ℚ) : ℚ := |a.getD 0 0 - b.getD 0 0|

/-- A sort by distance used in the examples. -/
def distSort (l : List (Nat × ℚ)) : List (Nat × ℚ) := l.insertionSort (fun a b => a.2 ≤ b.2)

theorem distSort_sorts (l : List (Nat × ℚ)) : (distSort l).Perm l ∧ (distSort l).Pairwise (fun x y => x.2 ≤ y.2) := by
  refine ⟨List.perm_insertionSort _ _, ?_⟩
  have : Std.Total (fun a b : Nat × ℚ => a.2 ≤ b.2) := ⟨fun a b => le_total a.2 b.2⟩
  have : IsTrans (Nat × ℚ) (fun a b => a.2 ≤ b.2) := ⟨fun a b c h1 h2 => le_trans h1 h2⟩
  exact List.pairwise_insertionSort _ _

/-- A dataset built by inserting points with one feature. -/
def lineOps (l : List (ℚ × Int)) : List (PointOp ℚ) := l.map (fun p => .insert (.val ⟨[p.1], p.2, 0, 0⟩ false))

/-- Features, labels and ids of a dataset. -/
def view (m : Mem ℚ) (d : Data) : List (List ℚ × Int × Nat) := (samples m d).map (fun p => (p.x, p.y, p.id))

/-- Run a history and then a function, and look at the dataset. -/
def runThen (ops : List (PointOp ℚ)) (f : Mem ℚ → Data → Res (Mem ℚ × Data)) : Res (List (List ℚ × Int × Nat)) := do
  let (m, d) ← runOps [] Data.empty ops
  let (m, d) ← f m d
  pure (view m d)

theorem lineOps_consistent (ops : List (PointOp ℚ)) (m : Mem ℚ) (d : Data) (h : runOps [] Data.empty ops = .ok (m, d)) :
    Consistent m d := C03_history_consistent [] Data.empty (inv_empty []).consistent ops m d h

/-- The minority class is first. -/
def minorityFirst : Mem ℚ × Data := ((runOps [] Data.empty (lineOps [(0, -1), (1, -1), (5, 1), (6, 1), (7, 1)])).toOption).getD ([], {})

theorem minorityFirst_reached :
    runOps [] Data.empty (lineOps [(0, -1), (1, -1), (5, 1), (6, 1), (7, 1)]) = .ok minorityFirst := by decide +kernel

example : Consistent minorityFirst.1 minorityFirst.2 ∧ minorityFirst.2.points ≠ [] ∧
    (∀ c ∈ minorityFirst.2.classes, c ∈ labels minorityFirst.1 minorityFirst.2) ∧
    samplesOf minorityFirst.1 minorityFirst.2 (-1) <+: samples minorityFirst.1 minorityFirst.2 ∧
    (∀ l, (distSort l).Perm l ∧ (distSort l).Pairwise (fun x y => x.2 ≤ y.2)) :=
  ⟨lineOps_consistent _ _ _ minorityFirst_reached, by decide +kernel, by decide +kernel,
    ⟨(samples minorityFirst.1 minorityFirst.2).drop 2, by rfl⟩, distSort_sorts⟩

/-- **C62 refuted** (segment): what is made from `z` and a different neighbour `q` is never on the segment between them unless
the random number is zero: it lies on the other side of `z`.  Moreover, on a concrete dataset, with draws in `[0,1]`, the new
samples lie on no segment between samples of the minority class. -/
theorem C62_between_refuted :
    (∀ (K : Type) [Field K] [LinearOrder K] [IsStrictOrderedRing K] (t : K) (z q p : List K), 0 < t → z.length = q.length → z ≠ q →
      BeyondPoint t z q p → ¬ OnSegment z q p) ∧
    (∃ (m : Mem ℚ) (d : Data) (ops : List (PointOp ℚ)), runOps [] Data.empty ops = .ok (m, d) ∧
      ∃ m' d' added, smote lineDist distSort 1 (2 / 5) (fun _ => 1 / 2) id m d = .ok (m', d') ∧
        samples m' d' = samples m d ++ added ∧ added.length = 2 ∧ (∀ p ∈ added, p.y = -1) ∧
        ∀ p ∈ added, ∀ a ∈ samplesOf m d (-1), ∀ b ∈ samplesOf m d (-1), ¬ OnSegment a.x b.x p.x) := by
  constructor
  · intro K _ _ _ t z q p ht hlen hne hb ⟨s, hs0, _, hs⟩
    apply hne
    unfold BeyondPoint at hb
    rw [hb] at hs
    apply List.ext_getElem hlen
    intro i h1 h2
    have := congrArg (fun l => l[i]?) hs
    simp only [List.getElem?_zipWith, List.getElem?_eq_getElem h1, List.getElem?_eq_getElem h2, Option.some.injEq] at this
    have h3 : (t + s) * (z[i] - q[i]) = 0 := by linear_combination this
    rcases mul_eq_zero.1 h3 with h4 | h4
    · linarith
    · exact sub_eq_zero.1 h4
  · refine ⟨minorityFirst.1, minorityFirst.2, _, minorityFirst_reached,
      ((smote lineDist distSort 1 (2 / 5) (fun _ => 1 / 2) id minorityFirst.1 minorityFirst.2).toOption.getD ([], {})).1,
      ((smote lineDist distSort 1 (2 / 5) (fun _ => 1 / 2) id minorityFirst.1 minorityFirst.2).toOption.getD ([], {})).2,
      [{ x := [-1 / 2], y := -1, id := 6 }, { x := [3 / 2], y := -1, id := 7 }], ?_, ?_, rfl, by simp, ?_⟩
    · decide +kernel
    · decide +kernel
    · have hset : samplesOf minorityFirst.1 minorityFirst.2 (-1) =
          [{ x := [0], y := -1, id := 1 }, { x := [1], y := -1, id := 2 }] := by decide +kernel
      rw [hset]
      intro p hp a ha b hb ⟨t, h0, h1, h2⟩
      simp only [List.mem_cons, List.not_mem_nil, or_false] at hp ha hb
      rcases hp with rfl | rfl <;> rcases ha with rfl | rfl <;> rcases hb with rfl | rfl <;>
        simp at h2 <;> linarith

/-- **C62 refuted** (number): the replication factor `r` is ignored: the result does not depend on it. -/
theorem C62_amount_refuted :
    (∀ (K : Type) [Field K] [DecidableEq K] (dist : List K → List K → K) (srt : List (Nat × K) → List (Nat × K)) (k : Nat) (r r' : K)
      (alpha : Nat → K) (σ : List Nat → List Nat) (m : Mem K) (d : Data),
      smote dist srt k r alpha σ m d = smote dist srt k r' alpha σ m d) ∧
    (∃ (m : Mem ℚ) (d : Data) (ops : List (PointOp ℚ)), runOps [] Data.empty ops = .ok (m, d) ∧ d.size = 5 ∧
      ∀ r, ∃ m' d', smote lineDist distSort 1 r (fun _ => 1 / 2) id m d = .ok (m', d') ∧ d'.size = d.size + 2) := by
  refine ⟨fun _ _ _ _ _ _ _ _ _ _ _ _ => rfl, minorityFirst.1, minorityFirst.2, _, minorityFirst_reached, by decide +kernel, ?_⟩
  intro r
  refine ⟨((smote lineDist distSort 1 0 (fun _ => 1 / 2) id minorityFirst.1 minorityFirst.2).toOption.getD ([], {})).1,
    ((smote lineDist distSort 1 0 (fun _ => 1 / 2) id minorityFirst.1 minorityFirst.2).toOption.getD ([], {})).2, ?_, ?_⟩
  · show smote lineDist distSort 1 0 (fun _ => 1 / 2) id minorityFirst.1 minorityFirst.2 = _
    decide +kernel
  · decide +kernel

/-- **C62 refuted** (neighbour): when majority samples come first, the "neighbours" are majority samples: the new samples are
`0 + (0-6)/2` and `1 + (1-5)/2`. -/
theorem C62_neighbour_refuted :
    runThen (lineOps [(5, 1), (6, 1), (7, 1), (0, -1), (1, -1)]) (smote lineDist distSort 1 (2 / 5) (fun _ => 1 / 2) id) =
      .ok [([5], 1, 1), ([6], 1, 2), ([7], 1, 3), ([0], -1, 4), ([1], -1, 5), ([0 + 1 / 2 * (0 - 6)], -1, 6),
        ([1 + 1 / 2 * (1 - 5)], -1, 7)] := by decide +kernel

/-- **C62 refuted** (emptied class): a class that has lost its last sample is taken for the minority class, and nothing is
added although class `-1` is in the minority. -/
theorem C62_empty_class_refuted :
    runThen (lineOps [(5, 1), (6, 1), (7, 1), (0, -1), (1, -1), (9, 2)] ++ [.remove 6])
      (smote lineDist distSort 1 (2 / 5) (fun _ => 1 / 2) id) =
      .ok [([5], 1, 1), ([6], 1, 2), ([7], 1, 3), ([0], -1, 4), ([1], -1, 5)] := by decide +kernel

/-! ## Borderline SMOTE -/

/-- **C97** (partial: what is added is mostly a repetition of original samples, ids are not kept, see below).
If every sample has `m` neighbours at distinct distances, BorderlineSMOTE ends; features, labels and order of the original
samples are kept in front; and everything after them is either a repetition of an original sample or `z + a (z - q)` for two
original samples, with the label of `z`. -/
theorem C97_borderline_partial [LinearOrder K] (dist : List K → List K → K) (srt : List (Nat × K) → List (Nat × K))
    (hs : ∀ l, (srt l).Perm l ∧ (srt l).Pairwise (fun x y => x.2 ≤ y.2)) (k : Nat) (r : K) (mm : Nat) (alpha : Nat → K)
    (σ : List Nat → List Nat) (hσ : ∀ l, (σ l).Perm l) (m : Mem K) (d : Data) (h : Consistent m d) (hne : d.points ≠ [])
    (hnb : ∀ z ∈ samples m d, mm ≤ distinctDistances dist (samples m d) z) :
    ∃ m' d' orig added, borderline dist srt k r mm alpha σ m d = .ok (m', d') ∧ Consistent m' d' ∧
      samples m' d' = orig ++ added ∧ orig.map content = (samples m d).map content ∧
      ∀ p ∈ added, (∃ q ∈ samples m d, q.x = p.x ∧ q.y = p.y) ∨
        (∃ z ∈ samples m d, ∃ q ∈ samples m d, p.y = z.y ∧ ∃ a, BeyondPoint (alpha a) z.x q.x p.x) :=
  borderline_ok dist srt hs k r mm alpha σ hσ m d h hne hnb

example : Consistent minorityFirst.1 minorityFirst.2 ∧ minorityFirst.2.points ≠ [] ∧
    ∀ z ∈ samples minorityFirst.1 minorityFirst.2, 2 ≤ distinctDistances lineDist (samples minorityFirst.1 minorityFirst.2) z :=
  ⟨lineOps_consistent _ _ _ minorityFirst_reached, by decide +kernel, by decide +kernel⟩

/-- **C97 refuted** (few samples): on every non-empty dataset with at most `m` samples, and every distance that is zero from a
point to itself, a null pointer is dereferenced. -/
theorem C97_few_samples_refuted [LinearOrder K] (dist : List K → List K → K) (hd : ∀ x, dist x x = 0)
    (srt : List (Nat × K) → List (Nat × K)) (hs : ∀ l, (srt l).Perm l ∧ (srt l).Pairwise (fun x y => x.2 ≤ y.2)) (k : Nat) (r : K)
    (mm : Nat) (alpha : Nat → K) (σ : List Nat → List Nat) (m : Mem K) (d : Data) (h : Consistent m d) (hne : d.points ≠ [])
    (hsz : d.size ≤ mm) : borderline dist srt k r mm alpha σ m d = .error .badPointer := by
  have hlen : (samples m d).length = d.size := h.livePts.length
  have hpos : 0 < d.size := List.length_pos_of_ne_nil hne
  have h0 : 0 < (samples m d).length := by omega
  refine borderline_null dist srt hs k r mm alpha σ m d h (samples m d)[0] (List.getElem?_eq_getElem h0) ?_
  unfold distinctDistances
  have hmem : (0 : K) ∈ ((samples m d).map (fun p => dist (samples m d)[0].x p.x)).toFinset := by
    rw [List.mem_toFinset, List.mem_map]
    exact ⟨(samples m d)[0], List.getElem_mem h0, hd _⟩
  rw [Finset.card_erase_of_mem hmem]
  have := List.toFinset_card_le ((samples m d).map (fun p => dist (samples m d)[0].x p.x))
  rw [List.length_map] at this
  have := Finset.card_pos.2 ⟨_, hmem⟩
  omega

/-- **C97 refuted** (what is added): on this dataset with two samples of class `-1` and three of class `1`, no new point is
made: a sample of each class is present twice, and afterwards two pairs of samples share an id. -/
theorem C97_repetition_refuted :
    runThen (lineOps [(0, -1), (4, -1), (5, 1), (6, 1), (8, 1)]) (borderline lineDist distSort 1 (1 / 10) 2 (fun _ => 1 / 2) id) =
      .ok [([0], -1, 6), ([4], -1, 2), ([5], 1, 2), ([6], 1, 7), ([8], 1, 5), ([0], -1, 6), ([6], 1, 7)] := by decide +kernel

/-! ## Blobs -/

/-- Samples of every label among the points generated for a list of groups. -/
theorem count_order (n c : Nat) (hc : c < n) : ∀ l : List Nat, (∀ x ∈ l, x < n) →
    (l.map (groupLabel n)).count (groupLabel n c) = l.count c
  | [], _ => rfl
  | a :: l, h => by
    rw [List.map_cons, List.count_cons, List.count_cons, count_order n c hc l (fun x hx => h x (by simp [hx]))]
    by_cases hac : a = c
    · subst hac; simp
    · have : groupLabel n a ≠ groupLabel n c := fun he => hac (groupLabel_inj (h a (by simp)) hc he)
      simp [hac, this]

theorem count_blobOrder (ns : List Nat) (C c : Nat) (hc : c < C) : (blobOrder ns C).count c = ns.sum := by
  induction ns with
  | nil => simp [blobOrder]
  | cons n ns ih =>
    have e : blobOrder (n :: ns) C = (List.range C).flatMap (fun c => List.replicate n c) ++ blobOrder ns C := by simp [blobOrder]
    rw [e, List.count_append, ih, List.sum_cons]
    congr 1
    rw [List.count_flatMap]
    have key : ∀ C, c < C → ((List.range C).map (List.count c ∘ fun c => List.replicate n c)).sum = n := by
      intro C
      induction C with
      | zero => intro h; omega
      | succ C ihC =>
        intro h
        rw [List.range_succ, List.map_append, List.sum_append]
        by_cases hcC : c < C
        · rw [ihC hcC]
          have hne : C ≠ c := by omega
          simp [List.count_replicate, hne]
        · have hcc : c = C := by omega
          subst hcc
          have hz : ((List.range c).map (List.count c ∘ fun c => List.replicate n c)).sum = 0 := by
            apply List.sum_eq_zero
            intro x hx
            obtain ⟨y, hy, rfl⟩ := List.mem_map.1 hx
            have := List.mem_range.1 hy
            have hne : y ≠ c := by omega
            simp [List.count_replicate, hne]
          rw [hz]
          simp
    exact key C hc

theorem blobOrder_lt (ns : List Nat) (C : Nat) : ∀ x ∈ blobOrder ns C, x < C := by
  intro x hx
  unfold blobOrder at hx
  obtain ⟨n, _, hx⟩ := List.mem_flatMap.1 hx
  obtain ⟨c, hc, hx⟩ := List.mem_flatMap.1 hx
  rw [List.eq_of_mem_replicate hx]
  exact List.mem_range.1 hc

/-- **C63** (partial: the number of points of a class is the sum of all entries of `n_samples`, see the refutation).
`make_blobs` with given centres and deviations: the dataset is consistent; its points are, up to the order when it is
shuffled, for every entry of `n_samples` that many points around every centre, labelled with the centre, each coordinate drawn
around the centre's coordinate with the deviation of the centre; ids are 1, 2, … and the index 0, 1, …. -/
theorem C63_blobs_partial (normal : Nat → K → K → K) (shuffled : Bool) (σ : List Nat → List Nat) (hσ : ∀ l, (σ l).Perm l)
    (ns : List Nat) (centers : List (List K)) (sds : List K) (dims : Nat) (hd : ∀ x ∈ centers, dims ≤ x.length)
    (hs : centers.length ≤ sds.length) :
    ∃ m d, makeBlobs normal shuffled true σ ns centers sds dims = .ok (m, d) ∧ Consistent m d ∧
      ((samples m d).map labelledPoint).Perm ((blobOrder ns centers.length).zipIdx.map (fun q =>
        (blobRow normal centers sds dims q.1 q.2, groupLabel centers.length q.1))) ∧
      (shuffled = false → (samples m d).map labelledPoint = (blobOrder ns centers.length).zipIdx.map (fun q =>
        (blobRow normal centers sds dims q.1 q.2, groupLabel centers.length q.1))) ∧
      (samples m d).map Pt.id = List.range' 1 d.size ∧ d.index = iota 0 d.size ∧
      d.size = ns.sum * centers.length ∧
      ∀ c < centers.length, (labels m d).count (groupLabel centers.length c) = ns.sum := by
  obtain ⟨m1, d1, e1, g1⟩ := blobLoop_ok normal dims centers sds hd hs ns [] { Data.empty with name := "blobs" } []
    (growing_empty dims _ rfl rfl rfl rfl rfl rfl rfl)
  obtain ⟨m, d, e, hcon, hperm, hord, hid, hidx, hsz, _⟩ := finish_ok g1 shuffled σ hσ
  simp only [List.nil_append, List.length_nil] at e1 hperm hord hid hidx hsz
  have hL : (blobOrder ns centers.length).length = ns.sum * centers.length := by
    unfold blobOrder
    rw [List.length_flatMap]
    have : ns.map (fun n => ((List.range centers.length).flatMap (fun c => List.replicate n c)).length) =
        ns.map (fun n => n * centers.length) := by
      apply List.map_congr_left
      intro n _
      rw [List.length_flatMap]
      simp [Nat.mul_comm]
    rw [this, List.sum_map_mul_right]
    simp
  refine ⟨m, d, ?_, hcon, hperm, hord, ?_, ?_, ?_, ?_⟩
  · rw [makeBlobs]
    simp only [if_true]
    rw [Nat.zero_mul] at e1
    have e1' : blobLoop normal dims true centers sds ns 0 [] { Data.empty with name := "blobs", type := "Classification" } =
        .ok (m1, d1) := e1
    rw [e1', Res_bind_ok, e]
  · rw [hid, hsz]
  · rw [hidx, hsz]
  · rw [hsz, List.length_map, List.length_zipIdx, hL]
  · intro c hc
    have h1 := (hperm.map Prod.snd)
    rw [List.map_map, List.map_map] at h1
    have h2 : labels m d = (samples m d).map (Prod.snd ∘ labelledPoint) := rfl
    have h3 : (Prod.snd ∘ fun q : Nat × Nat => (blobRow normal centers sds dims q.1 q.2, groupLabel centers.length q.1)) =
        groupLabel centers.length ∘ Prod.fst := rfl
    have h1' : (labels m d).Perm ((blobOrder ns centers.length).zipIdx.map (groupLabel centers.length ∘ Prod.fst)) := h1
    rw [h1'.count_eq, ← List.map_map, List.zipIdx_map_fst, count_order _ c hc _ (blobOrder_lt ns _), count_blobOrder ns _ c hc]

example : (∀ x ∈ [[(0 : ℚ), 0], [5, 5]], 2 ≤ x.length) ∧ [[(0 : ℚ), 0], [5, 5]].length ≤ [(1 : ℚ), 1].length := by simp

/-- **C63 refuted**: as soon as another entry of `n_samples` is not zero, a centre gets more points than its entry says; with
entries 1 and 2 for two centres there are three points of each class. -/
theorem C63_blobs_refuted (normal : Nat → K → K → K) (shuffled : Bool) (σ : List Nat → List Nat) (hσ : ∀ l, (σ l).Perm l)
    (ns : List Nat) (centers : List (List K)) (sds : List K) (dims : Nat) (hd : ∀ x ∈ centers, dims ≤ x.length)
    (hs : centers.length ≤ sds.length) (c : Nat) (hc : c < centers.length)
    (hother : ∃ c', c' ≠ c ∧ 0 < ns.getD c' 0) :
    ∃ m d, makeBlobs normal shuffled true σ ns centers sds dims = .ok (m, d) ∧
      ns.getD c 0 < (labels m d).count (groupLabel centers.length c) := by
  obtain ⟨m, d, e, _, _, _, _, _, _, hcnt⟩ := C63_blobs_partial normal shuffled σ hσ ns centers sds dims hd hs
  refine ⟨m, d, e, ?_⟩
  rw [hcnt c hc]
  obtain ⟨c', hne, hpos⟩ := hother
  have key : ∀ (l : List Nat) (a b : Nat), a ≠ b → l.getD a 0 + l.getD b 0 ≤ l.sum := by
    intro l
    induction l with
    | nil => intro a b _; simp
    | cons x l ih =>
      intro a b hab
      have hone : ∀ (l : List Nat) (a : Nat), l.getD a 0 ≤ l.sum := by
        intro l
        induction l with
        | nil => intro a; simp
        | cons x l ih =>
          intro a
          rw [List.sum_cons]
          cases a with
          | zero => simp
          | succ a => have := ih a; simp only [List.getD_cons_succ]; omega
      rw [List.sum_cons]
      cases a with
      | zero =>
        cases b with
        | zero => omega
        | succ b => have := hone l b; simp only [List.getD_cons_succ, List.getD_cons_zero]; omega
      | succ a =>
        cases b with
        | zero => have := hone l a; simp only [List.getD_cons_succ, List.getD_cons_zero]; omega
        | succ b => have := ih a b (by omega); simp only [List.getD_cons_succ]; omega
  have := key ns c c' hne.symm
  omega

example : 0 < [[(0 : ℚ)], [5]].length ∧ (∃ c', c' ≠ 0 ∧ 0 < [1, 2].getD c' 0) := ⟨by decide, 1, by decide, by decide⟩

/-- **C63** (partial: only for sizes divisible by the number of centres) The overload that draws the centres gives each of the
`n_centers` blobs `n_samples` points, as documented, if `n_centers` divides `n_samples`; in general each blob gets
`n_centers * (n_samples / n_centers)` points. -/
theorem C63_drawn_partial (normal : Nat → K → K → K) (shuffled : Bool) (σ : List Nat → List Nat) (hσ : ∀ l, (σ l).Perm l)
    (n : Nat) (centers : List (List K)) (sd : K) (dims : Nat) (hd : ∀ x ∈ centers, x.length = dims) (hne : centers ≠ []) :
    ∃ m d, makeBlobsDrawn normal shuffled true σ n centers sd dims = .ok (m, d) ∧ Consistent m d ∧
      (∀ c < centers.length, (labels m d).count (groupLabel centers.length c) = centers.length * (n / centers.length)) ∧
      (centers.length ∣ n → ∀ c < centers.length, (labels m d).count (groupLabel centers.length c) = n) := by
  obtain ⟨m, d, e, hcon, _, _, _, _, _, hcnt⟩ := C63_blobs_partial normal shuffled σ hσ
    (List.replicate centers.length (n / centers.length)) centers (List.replicate centers.length sd) dims
    (fun x hx => Nat.le_of_eq (hd x hx).symm) (by simp)
  have hsum : (List.replicate centers.length (n / centers.length)).sum = centers.length * (n / centers.length) := by simp
  refine ⟨m, d, ?_, hcon, ?_, ?_⟩
  · rw [makeBlobsDrawn, if_neg (by simpa using hne)]
    exact e
  · intro c hc
    rw [hcnt c hc, hsum]
  · intro hdvd c hc
    rw [hcnt c hc, hsum, Nat.mul_div_cancel' hdvd]

example : (∀ x ∈ [[(0 : ℚ), 0], [5, 5]], x.length = 2) ∧ [[(0 : ℚ), 0], [5, 5]] ≠ [] ∧ [[(0 : ℚ), 0], [5, 5]].length ∣ 100 :=
  ⟨by simp, by simp, by decide⟩

/-- **C63 refuted** (drawn centres): five samples asked for each of two blobs give four, and no centre is a division by zero. -/
theorem C63_drawn_refuted :
    (∃ (m : Mem ℚ) (d : Data), makeBlobsDrawn (fun _ mu _ => mu) false true id 5 [[0], [5]] 1 1 = .ok (m, d) ∧
      (labels m d).count (-1) = 4 ∧ (labels m d).count 1 = 4) ∧
    ∀ n, makeBlobsDrawn (fun _ (mu : ℚ) _ => mu) false true id n [] 1 1 = .error .divByZero := by
  refine ⟨⟨((makeBlobsDrawn (fun _ (mu : ℚ) _ => mu) false true id 5 [[0], [5]] 1 1).toOption.getD ([], {})).1,
    ((makeBlobsDrawn (fun _ (mu : ℚ) _ => mu) false true id 5 [[0], [5]] 1 1).toOption.getD ([], {})).2, ?_, ?_, ?_⟩, ?_⟩
  · decide +kernel
  · decide +kernel
  · decide +kernel
  · intro n; rfl

/-! ## Spirals -/

omit [Field K] in
/-- **C93** (partial: only for sizes divisible by the number of classes, see the refutation).  `make_spirals` gives a
consistent dataset with `n_classes * (n_samples / n_classes)` points, `n_samples / n_classes` of every class, whose points are
(up to the shuffle) the computed ones, with ids 1, 2, …. -/
theorem C93_spirals_partial (coord : Nat → Nat → K × K) (shuffled : Bool) (σ : List Nat → List Nat) (hσ : ∀ l, (σ l).Perm l)
    (n classes : Nat) (hc : 0 < classes) :
    ∃ m d, makeSpirals coord shuffled σ n classes = .ok (m, d) ∧ Consistent m d ∧
      ((samples m d).map labelledPoint).Perm ((List.range classes).flatMap (fun i => (List.range (n / classes)).map
        (fun j => ([(coord i j).1, (coord i j).2], groupLabel classes i)))) ∧
      (samples m d).map Pt.id = List.range' 1 d.size ∧ d.index = iota 0 d.size ∧
      d.size = classes * (n / classes) ∧ (classes ∣ n → d.size = n) ∧
      ∀ i < classes, (labels m d).count (groupLabel classes i) = n / classes := by
  obtain ⟨m1, d1, e1, g1⟩ := spiralLoop_ok coord classes (n / classes) (List.range classes) []
    { Data.empty with name := "spirals" } [] (growing_empty 2 _ rfl rfl rfl rfl rfl rfl rfl)
  obtain ⟨m, d, e, hcon, hperm, _, hid, hidx, hsz, _⟩ := finish_ok g1 shuffled σ hσ
  simp only [List.nil_append] at hperm hid hidx hsz
  have hL : d.size = classes * (n / classes) := by
    rw [hsz, List.length_flatMap]
    simp
  refine ⟨m, d, ?_, hcon, hperm, ?_, ?_, hL, ?_, ?_⟩
  · rw [makeSpirals, if_neg (by omega), e1, Res_bind_ok]
    exact e
  · rw [hid, hsz]
  · rw [hidx, hsz]
  · intro hdvd
    rw [hL, Nat.mul_div_cancel' hdvd]
  · intro i hi
    have h1' : (labels m d).Perm (((List.range classes).flatMap (fun i => List.replicate (n / classes) i)).map (groupLabel classes)) := by
      refine ((show (labels m d).Perm (((samples m d).map labelledPoint).map Prod.snd) by
        rw [List.map_map]; exact List.Perm.refl _).trans (hperm.map Prod.snd)).trans ?_
      rw [List.map_flatMap, List.map_flatMap]
      apply List.Perm.of_eq
      apply List.flatMap_congr
      intro i _
      rw [List.map_map, List.map_replicate]
      apply List.ext_getElem <;> simp
    rw [h1'.count_eq]
    have hb : (List.range classes).flatMap (fun i => List.replicate (n / classes) i) = blobOrder [n / classes] classes := by
      simp [blobOrder]
    rw [hb, count_order _ i hi _ (blobOrder_lt _ _), count_blobOrder _ _ i hi]
    simp

omit [Field K] in
/-- **C93 refuted**: 100 samples in three classes give 99, and no class is a division by zero. -/
theorem C93_spirals_refuted (coord : Nat → Nat → K × K) (shuffled : Bool) (σ : List Nat → List Nat) (hσ : ∀ l, (σ l).Perm l) :
    (∃ m d, makeSpirals coord shuffled σ 100 3 = .ok (m, d) ∧ d.size = 99) ∧
    ∀ n, makeSpirals coord shuffled σ n 0 = .error .divByZero := by
  obtain ⟨m, d, e, _, _, _, _, h, _⟩ := C93_spirals_partial coord shuffled σ hσ 100 3 (by omega)
  exact ⟨⟨m, d, e, h⟩, fun n => rfl⟩

/-! ## Regression problems -/

/-- **C94** `make_regression` gives `n` samples with `n_dims` features and distinct ids 1 … n, and `n_dims` coefficients, of which
those from `n_informative` on are zero; without noise every label is the scalar product of features and coefficients plus the
bias, and with noise it differs from that by a noise value. -/
theorem C94_regression (g e : Nat → K) (bias : K) (noisy shuffled : Bool) (σ : List (RegPt K) → List (RegPt K))
    (hσ : ∀ l, (σ l).Perm l) (n dims informative : Nat) :
    let out := makeRegression g e bias noisy shuffled σ n dims informative
    out.1.length = n ∧ (out.1.map RegPt.id).Perm (List.range' 1 n) ∧ (∀ p ∈ out.1, p.x.length = dims) ∧
      out.2.length = dims ∧ (∀ j, informative ≤ j → out.2.getD j 0 = 0) ∧
      (∀ j, j < informative → j < dims → out.2.getD j 0 = g (n * dims + j)) ∧
      (∀ p ∈ out.1, ∃ i < n, p.id = i + 1 ∧ (∀ j < dims, p.x.getD j 0 = g (i * dims + j)) ∧
        p.y = (List.zipWith (· * ·) p.x out.2).sum + bias + (if noisy then e i else 0)) ∧
      (noisy = false → ∀ p ∈ out.1, p.y = (List.zipWith (· * ·) p.x out.2).sum + bias) := by
  intro out
  set rows := regLabels e bias noisy (regCoef g dims informative (n * dims)) 0 (regRows g dims 0 (List.range n)) with hrows
  have hout1 : out.1.Perm rows := by
    show (if shuffled then σ rows else rows).Perm rows
    cases shuffled
    · exact List.Perm.refl _
    · exact hσ rows
  have hout2 : out.2 = (List.range dims).map (fun j => if j < informative then g (n * dims + j) else 0) :=
    regCoef_spec g dims informative (n * dims)
  let row (i : Nat) : RegPt K := ⟨(List.range dims).map (fun j => g (i * dims + j)),
    dotLoop ((List.range dims).map (fun j => g (i * dims + j))) out.2 + bias + (if noisy then e i else 0), i + 1⟩
  have hlen : rows.length = n := by
    rw [hrows, regLabels_spec, regRows_spec]
    simp
  have hrow : ∀ i (hi : i < rows.length), rows[i] = row i := by
    intro i hi
    have hc : out.2 = regCoef g dims informative (n * dims) := rfl
    simp only [row, hrows, regLabels_spec, regRows_spec, hc, List.getElem_map, List.getElem_zipIdx, List.getElem_range]
    simp
  have hmem : ∀ p ∈ out.1, ∃ i < n, p = row i := by
    intro p hp
    obtain ⟨i, hi, hie⟩ := List.getElem_of_mem (hout1.mem_iff.1 hp)
    exact ⟨i, by omega, by rw [← hie, hrow i hi]⟩
  have hlab : ∀ p ∈ out.1, ∃ i < n, p.id = i + 1 ∧ (∀ j < dims, p.x.getD j 0 = g (i * dims + j)) ∧
        p.y = (List.zipWith (· * ·) p.x out.2).sum + bias + (if noisy then e i else 0) := by
    intro p hp
    obtain ⟨i, hi, rfl⟩ := hmem p hp
    refine ⟨i, hi, rfl, ?_, ?_⟩
    · intro j hj
      show ((List.range dims).map (fun j => g (i * dims + j))).getD j 0 = _
      rw [List.getD_eq_getElem _ _ (by simpa using hj)]
      simp
    · simp only [row, dotLoop_eq]
  refine ⟨by rw [hout1.length_eq, hlen], ?_, ?_, by rw [hout2]; simp, ?_, ?_, hlab, ?_⟩
  · refine (hout1.map _).trans (List.Perm.of_eq ?_)
    apply List.ext_getElem
    · simp [hlen]
    · intro i h1 h2
      rw [List.length_map] at h1
      rw [List.getElem_map, hrow i h1]
      simp [row, Nat.add_comm]
  · intro p hp
    obtain ⟨i, _, rfl⟩ := hmem p hp
    simp [row]
  · intro j hj
    rw [hout2]
    rcases Nat.lt_or_ge j dims with h | h
    · rw [List.getD_eq_getElem _ _ (by simpa using h)]
      simp [Nat.not_lt.2 hj]
    · rw [List.getD_eq_default _ _ (by simpa using h)]
  · intro j hj h
    rw [hout2, List.getD_eq_getElem _ _ (by simpa using h)]
    simp [hj]
  · intro hn p hp
    obtain ⟨i, _, _, _, hy⟩ := hlab p hp
    rw [hy, hn]
    simp

end

/-! ## Feature subspaces -/

/-- **C95** (partial: for a fraction above one see the refutation) For every fraction `r` in `[0,1]` and every sequence of
calls, the random subspace method returns each time the same number of features, the least number that is at least
`r * dims`, all different and all below `dims`. -/
theorem C95_random_subspaces_partial (r : ℚ) (h0 : 0 ≤ r) (h1 : r ≤ 1) (dims : Nat) (σs : List (List Nat → List Nat))
    (hσ : ∀ σ ∈ σs, ∀ l, (σ l).Perm l) :
    ∃ n feats ls, rsmInit r dims = .ok (n, feats) ∧ rsmCalls n σs feats = .ok ls ∧
      (r * (dims : ℚ) ≤ (n : ℚ) ∧ (n : ℚ) < r * (dims : ℚ) + 1) ∧ ls.length = σs.length ∧
      ∀ l ∈ ls, l.length = n ∧ l.Nodup ∧ ∀ f ∈ l, f < dims := by
  have hnn : 0 ≤ r * (dims : ℚ) := mul_nonneg h0 (Nat.cast_nonneg _)
  have hc0 : 0 ≤ ⌈r * (dims : ℚ)⌉ := Int.ceil_nonneg hnn
  have hcle : ⌈r * (dims : ℚ)⌉ ≤ (dims : ℤ) := by
    rw [Int.ceil_le]
    have : (0 : ℚ) ≤ (dims : ℚ) := Nat.cast_nonneg _
    push_cast
    nlinarith
  have hcast : ((⌈r * (dims : ℚ)⌉.toNat : ℕ) : ℚ) = ((⌈r * (dims : ℚ)⌉ : ℤ) : ℚ) := by
    have : ((⌈r * (dims : ℚ)⌉.toNat : ℕ) : ℤ) = ⌈r * (dims : ℚ)⌉ := Int.toNat_of_nonneg hc0
    exact_mod_cast congrArg (fun z : ℤ => (z : ℚ)) this
  obtain ⟨ls, e, h2, h3⟩ := rsmCalls_ok (n := ⌈r * (dims : ℚ)⌉.toNat) (dims := dims) (by omega) σs hσ (List.range dims)
    (List.Perm.refl _)
  refine ⟨_, _, ls, ?_, e, ?_, h2, h3⟩
  · rw [rsmInit, if_neg (not_lt.2 hc0)]
  · rw [hcast]
    exact ⟨Int.le_ceil _, Int.ceil_lt_add_one _⟩

example : (0 : ℚ) ≤ 1 / 2 ∧ (1 / 2 : ℚ) ≤ 1 ∧ ∀ σ ∈ [List.reverse, id], ∀ l : List Nat, (σ l).Perm l := by
  refine ⟨by norm_num, by norm_num, ?_⟩
  intro σ hσ l
  simp only [List.mem_cons, List.not_mem_nil, or_false] at hσ
  rcases hσ with rfl | rfl
  · exact List.reverse_perm l
  · exact List.Perm.refl _

/-- **C95 refuted** for fractions above one: the features are read out of bounds. -/
theorem C95_large_fraction_refuted (r : ℚ) (h1 : 1 < r) (dims : Nat) (hd : 0 < dims) (σ : List Nat → List Nat)
    (hσ : ∀ l, (σ l).Perm l) :
    ∃ n feats, rsmInit r dims = .ok (n, feats) ∧ rsmCall n σ feats = .error .outOfBounds := by
  have hpos : (0 : ℚ) < (dims : ℚ) := by exact_mod_cast hd
  have hgt : (dims : ℤ) < ⌈r * (dims : ℚ)⌉ := by
    rw [Int.lt_ceil]
    push_cast
    nlinarith
  refine ⟨⌈r * (dims : ℚ)⌉.toNat, List.range dims, ?_, ?_⟩
  · rw [rsmInit, if_neg (by omega)]
  · have hl : (σ (List.range dims)).length = dims := by rw [(hσ _).length_eq, List.length_range]
    have key : ∀ n, dims < n → (List.range n).mapM (fun j => vget (σ (List.range dims)) j) = .error .outOfBounds := by
      intro n hn
      have hsplit : List.range n = List.range dims ++ List.range' dims (n - dims) := by
        have := List.range'_append_1 (s := 0) (m := dims) (n := n - dims)
        rw [Nat.zero_add] at this
        rw [List.range_eq_range', List.range_eq_range', this]
        congr 1
        omega
      obtain ⟨t, ht⟩ : ∃ t, n - dims = t + 1 := ⟨n - dims - 1, by omega⟩
      have ok : (List.range dims).mapM (fun j => vget (σ (List.range dims)) j) =
          .ok ((List.range dims).map (fun j => (σ (List.range dims)).getD j 0)) := by
        apply Feat.mapM_ok
        intro j hj
        rw [List.mem_range] at hj
        have : j < (σ (List.range dims)).length := by omega
        simp only [vget, List.getElem?_eq_getElem this, List.getD_eq_getElem _ _ this]
      rw [hsplit, ht, List.range'_succ, List.mapM_append, ok, Res_bind_ok, List.mapM_cons]
      have : vget (σ (List.range dims)) dims = .error .outOfBounds := by
        simp only [vget, List.getElem?_eq_none (Nat.le_of_eq hl)]
      rw [this]
      rfl
    unfold rsmCall
    simp only [key _ (by omega : dims < ⌈r * (dims : ℚ)⌉.toNat)]
    rfl

example : (1 : ℚ) < 3 / 2 := by norm_num

/-- **C96** (partial: for `n_dims` equal to the dimension only the first call, see the refutation) With a weight in `[0,1]` and
correlations in `[-1,1]`, the diverse subspace method returns `k` subspaces of `n_dims` different features each, if `n_dims`
is at most the dimension; and if it is below the dimension, so does every later call. -/
theorem C96_diverse_subspaces_partial (corr : Nat → ℚ) (alpha : ℚ) (ha : 0 ≤ alpha) (ha1 : alpha ≤ 1) (dim : Nat)
    (hc : ∀ c < dim, |corr c| ≤ 1) (hdim : dim < 2 ^ 31) (n k : Nat) (hn : n ≤ dim) :
    ((dsmCall corr alpha dim n (dsmInit k n)).length = k ∧
      ∀ s ∈ dsmCall corr alpha dim n (dsmInit k n), s.length = n ∧ s.Nodup ∧ ∀ f ∈ s, f < dim) ∧
    (n < dim → ∀ calls : Nat,
      (Nat.iterate (dsmCall corr alpha dim n) (calls + 1) (dsmInit k n)).length = k ∧
      ∀ s ∈ Nat.iterate (dsmCall corr alpha dim n) (calls + 1) (dsmInit k n), s.length = n ∧ s.Nodup ∧ ∀ f ∈ s, f < dim) := by
  have hun : dim ≤ unset := by unfold unset; omega
  have hfirst := dsmCall_first ha ha1 hc hun hn k
  refine ⟨hfirst, ?_⟩
  intro hlt calls
  induction calls with
  | zero => exact hfirst
  | succ c ih =>
    rw [Function.iterate_succ_apply']
    obtain ⟨h1, h2⟩ := dsmCall_again ha ha1 hc hlt _ ih.2
    exact ⟨h1.trans ih.1, h2⟩

example : (0 : ℚ) ≤ 1 / 2 ∧ (1 / 2 : ℚ) ≤ 1 ∧ (∀ c < 3, |(fun c => if c = 0 then 1 else -1 / 2 : Nat → ℚ) c| ≤ 1) ∧ 2 < 3 := by
  refine ⟨by norm_num, by norm_num, ?_, by norm_num⟩
  intro c _
  by_cases h : c = 0 <;> simp [h, abs_le] <;> norm_num

/-- **C96 refuted** for a second call with as many features as dimensions: every feature counts as used, so the first one is
chosen again and again. -/
theorem C96_second_call_refuted :
    dsmCall (fun _ => 0) (1 / 2) 2 2 (dsmInit 1 2) = [[0, 1]] ∧
    dsmCall (fun _ => 0) (1 / 2) 2 2 (dsmCall (fun _ => 0) (1 / 2) 2 2 (dsmInit 1 2)) = [[0, 0]] := by
  constructor <;> decide +kernel

/-- **C96 refuted** for quality weights outside `[0,1]`: with weight two and a correlation of -1 a used feature has the
greater score and is chosen twice. -/
theorem C96_weight_refuted : dsmCall (fun _ => -1) 2 2 2 (dsmInit 1 2) = [[0, 0]] := by decide +kernel

end MLTK.Props
