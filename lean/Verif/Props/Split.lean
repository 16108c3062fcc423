import Verif.Lemmas.TrainTest
import Verif.Props.DataCopy
/-!
# C09-C13: splitting datasets

`σ`, `σtrain`, `σtest` are the rearrangements made by `std::shuffle`; the theorems hold for all of
them.  `content` is what a sample carries apart from its id.
-/
namespace MLTK.Props
open MLTK MLTK.Data MLTK.Spec

variable {T : Type}

/-- **C09** (and C06 for `splitSample`) For every consistent dataset, every `k ≥ 1`, either value of
`keepIndex` and every shuffle, the stratified split succeeds; its `k` parts together hold every sample
exactly once (ids included when `keepIndex`), no object is in two parts, sizes and per-class counts
differ by at most one between parts, the parts' own class tables are right, and the source still shows
the same samples. -/
theorem C09_stratified_split (m : Mem T) (d : Data) (h : Consistent m d)
    (hidx : d.size ≤ d.index.length) (k : Nat) (hk : 0 < k) (keep : Bool) (σ : List Nat → List Nat)
    (hσ : ∀ l, (σ l).Perm l) :
    ∃ m' parts, splitSample m d k true keep σ = .ok (m', parts) ∧ parts.length = k ∧
      ((parts.flatMap (samples m')).map content).Perm ((samples m d).map content) ∧
      (keep = true → (parts.flatMap (samples m')).Perm (samples m d)) ∧
      (parts.flatMap Data.points).Nodup ∧
      (∀ p ∈ parts, ∀ q ∈ parts, p.size ≤ q.size + 1) ∧
      (∀ c : Int, ∀ p ∈ parts, ∀ q ∈ parts, (labels m' p).count c ≤ (labels m' q).count c + 1) ∧
      (∀ p ∈ parts, Consistent m' p) ∧ samples m' d = samples m d := by
  obtain ⟨m', parts, order, e, hr, ho, hsorted, hp⟩ := splitSample_strat h hidx hk keep hσ
  obtain ⟨u1, u2, u3⟩ := hr.union h ((strat_flat hk hp).trans ho)
  refine ⟨m', parts, e, hr.length, u1, u2, u3, ?_, ?_, fun p hp' => (hr.ok p hp').cons,
    hr.source h.livePts⟩
  · intro p hpm q hqm
    obtain ⟨i, hi, ei⟩ := getElem_of_map_points hp hpm
    obtain ⟨j, hj, ej⟩ := getElem_of_map_points hp hqm
    rw [size, size, ei, ej]
    exact deal_balanced k i j hi hj order 0
  · intro c p hpm q hqm
    have hcount : ∀ p ∈ parts, (labels m' p).count c
        = (p.points.filter (fun r => keyOf (m ++ samples m d) r = labelKey c)).length := by
      intro p hpm
      have hl : labels m' p = (pts (m ++ samples m d) p.points).map Pt.y := by
        unfold labels
        rw [samples_eq_pts, content_y, content_y, SameUpToIds_pts hr.same]
      rw [hl]
      exact count_labels_pts _ c _ (SameUpToIds_live hr.same.symm (hr.ok p hpm).cons.livePts)
    rw [hcount p hpm, hcount q hqm]
    obtain ⟨i, hi, ei⟩ := getElem_of_map_points hp hpm
    obtain ⟨j, hj, ej⟩ := getElem_of_map_points hp hqm
    rw [ei, ej]
    exact deal_key_balanced (keyOf (m ++ samples m d)) order hsorted (labelKey c) k i j hi hj 0

/-- The demo dataset meets the hypotheses; its stratified split in two, computed. -/
example : Consistent demoMem demoData ∧ demoData.size ≤ demoData.index.length ∧
    (∀ l : List Nat, (l.reverse).Perm l) ∧
    (splitSample demoMem demoData 2 true true List.reverse).toOption.map
        (fun r => r.2.map (fun p => (samples r.1 p).map (fun s => (s.id, s.y))))
      = some [[(2, -1), (1, 1)], [(3, 1)]] :=
  ⟨demo_consistent, by decide, fun l => List.reverse_perm l, rfl⟩

/-- `splitSample(0, …)` has no defined result. -/
theorem C09_zero_parts_undefined (m : Mem T) (d : Data) (stratified keep : Bool)
    (σ : List Nat → List Nat) : splitSample m d 0 stratified keep σ = .error .divByZero := rfl

/-- **C10 (partial)** The plain split succeeds, gives `k` parts of exactly `⌊n/k⌋` samples each, in
which no sample is altered or repeated; the samples in the parts and the `n mod k` left out are together
exactly the samples of the dataset.  In particular nothing is lost when `k` divides `n`.
Missing with respect to C10: the remainder samples are in no part (`C10_remainder_lost_refuted`). -/
theorem C10_plain_split_partial (m : Mem T) (d : Data) (h : Consistent m d)
    (hidx : d.size ≤ d.index.length) (k : Nat) (hk : 0 < k) (keep : Bool) (σ : List Nat → List Nat)
    (hσ : ∀ l, (σ l).Perm l) :
    ∃ m' parts, ∃ lost : List (Pt T), splitSample m d k false keep σ = .ok (m', parts) ∧
      parts.length = k ∧ (∀ p ∈ parts, p.size = d.size / k) ∧ lost.length = d.size % k ∧
      (((parts.flatMap (samples m')) ++ lost).map content).Perm ((samples m d).map content) ∧
      (keep = true → ((parts.flatMap (samples m')) ++ lost).Perm (samples m d)) ∧
      (parts.flatMap Data.points).Nodup ∧
      (k ∣ d.size → lost = [] ∧
        ((parts.flatMap (samples m')).map content).Perm ((samples m d).map content)) ∧
      (∀ p ∈ parts, Consistent m' p) ∧ samples m' d = samples m d := by
  obtain ⟨m', parts, order, e, hr, ho, hp⟩ := splitSample_plain h hidx hk keep hσ
  have hlen : order.length = d.size := by rw [ho.length_eq]; simp
  have hdm := Nat.div_add_mod d.size k
  have hq : k * (d.size / k) ≤ order.length := by rw [hlen]; exact Nat.mul_div_le _ _
  have hflat := plain_flat hq hp
  have hl : (samples m d).length = d.size := h.livePts.length
  have hfresh : pts (m ++ samples m d) (List.range' m.length d.size) = samples m d := by
    rw [← hl]; exact pts_fresh _ _
  have hLo : Live (m ++ samples m d) order := by
    have hf := live_fresh m (samples m d)
    rw [hl] at hf
    intro r hr'; exact hf r (ho.mem_iff.1 hr')
  have hLm' : Live m' order := SameUpToIds_live hr.same hLo
  obtain ⟨lost, hlost⟩ : ∃ lost, lost = pts m' (order.drop (k * (d.size / k))) := ⟨_, rfl⟩
  have hall : parts.flatMap (samples m') ++ lost = pts m' order := by
    rw [flatMap_samples, ← List.flatMap_def, hflat, hlost, ← pts_append, List.take_append_drop]
  have hperm : ((parts.flatMap (samples m') ++ lost).map content).Perm ((samples m d).map content) := by
    rw [hall, ← SameUpToIds_pts hr.same]
    have := (ho.filterMap (fun r => (m ++ samples m d)[r]?)).map content
    refine this.trans ?_
    exact List.Perm.of_eq (congrArg _ hfresh)
  have hll : lost.length = d.size % k := by
    have h1 : lost.length = (order.drop (k * (d.size / k))).length := by
      rw [hlost]
      exact Live.length (fun r hr' => hLm' r (List.mem_of_mem_drop hr'))
    rw [h1, List.length_drop, hlen]; omega
  refine ⟨m', parts, lost, e, hr.length, ?_, hll, hperm, ?_, ?_, ?_, fun p hp' => (hr.ok p hp').cons,
    hr.source h.livePts⟩
  · intro p hpm
    obtain ⟨j, hj, ej⟩ := getElem_of_map_points hp hpm
    rw [size, ej, List.length_take, List.length_drop, hlen]
    have h3 : (j + 1) * (d.size / k) ≤ k * (d.size / k) := Nat.mul_le_mul_right _ hj
    have h4 : (j + 1) * (d.size / k) = j * (d.size / k) + d.size / k := by ring
    omega
  · intro hkp
    rw [hall, hr.keeps hkp]
    refine (ho.filterMap (fun r => (m ++ samples m d)[r]?)).trans ?_
    exact List.Perm.of_eq hfresh
  · rw [hflat]
    exact ((ho.nodup_iff.2 List.nodup_range')).sublist (List.take_sublist _ _)
  · intro hdvd
    have h0 : lost = [] := by
      apply List.eq_nil_of_length_eq_zero
      rw [hll]; exact Nat.mod_eq_zero_of_dvd hdvd
    rw [h0, List.append_nil] at hperm
    exact ⟨h0, hperm⟩

/-- **C10 (refuted)** Splitting any consistent dataset whose size `k` does not divide loses samples:
the parts together hold strictly fewer samples than the dataset, for every shuffle. -/
theorem C10_remainder_lost_refuted (m : Mem T) (d : Data) (h : Consistent m d)
    (hidx : d.size ≤ d.index.length) (k : Nat) (hk : 0 < k) (hnd : ¬ k ∣ d.size) (keep : Bool)
    (σ : List Nat → List Nat) (hσ : ∀ l, (σ l).Perm l) :
    ∃ m' parts, splitSample m d k false keep σ = .ok (m', parts) ∧
      (parts.flatMap (samples m')).length < (samples m d).length := by
  obtain ⟨m', parts, lost, e, _, _, hl, hp, _⟩ := C10_plain_split_partial m d h hidx k hk keep σ hσ
  refine ⟨m', parts, e, ?_⟩
  have h1 := hp.length_eq
  simp only [List.length_map, List.length_append] at h1
  have h2 : d.size % k ≠ 0 := fun h0 => hnd (Nat.dvd_of_mod_eq_zero h0)
  omega

/-- Three samples split in two: one is lost. -/
example : ¬ 2 ∣ demoData.size ∧
    (splitSample demoMem demoData 2 false true id).toOption.map
        (fun r => r.2.map (fun p => (samples r.1 p).map Pt.id)) = some [[1], [2]] := ⟨by decide, rfl⟩

/-- **C11 (partial)** For `k ≥ 3` folds, in stratified mode or when `k` divides the size: `kfoldsplit`
returns `k` pairs numbered `1..k`; in every pair training and test set together hold every sample
exactly once and share no object; over all pairs every sample is tested exactly once; all returned
datasets have right class tables; the source is unchanged (C06).
Missing with respect to C11: two folds (`C11_two_folds_refuted`), one fold (`C11_one_fold_diverges`)
and plain mode with a remainder (`C11_plain_remainder_refuted`), where the claim is false. -/
theorem C11_kfold_partial (m : Mem T) (d : Data) (h : Consistent m d)
    (hidx : d.size ≤ d.index.length) (k : Nat) (hk : 3 ≤ k) (stratified keep : Bool)
    (hs : stratified = true ∨ k ∣ d.size) (σ : List Nat → List Nat)
    (σtrain σtest : Nat → List Nat → List Nat) (hσ : ∀ l, (σ l).Perm l)
    (hσ1 : ∀ i l, (σtrain i l).Perm l) (hσ2 : ∀ i l, (σtest i l).Perm l) :
    ∃ m' prs, kfoldsplit m d k stratified keep σ σtrain σtest = .ok (m', prs) ∧ prs.length = k ∧
      (∀ pr ∈ prs,
        ((samples m' pr.train ++ samples m' pr.test).map content).Perm ((samples m d).map content) ∧
        (keep = true → (samples m' pr.train ++ samples m' pr.test).Perm (samples m d)) ∧
        Consistent m' pr.train ∧ Consistent m' pr.test ∧
        (∀ r ∈ pr.train.points, r ∉ pr.test.points)) ∧
      ((prs.flatMap (fun pr => samples m' pr.test)).map content).Perm ((samples m d).map content) ∧
      (keep = true → (prs.flatMap (fun pr => samples m' pr.test)).Perm (samples m d)) ∧
      prs.map TrainTest.fold = (List.range k).map (· + 1) ∧
      samples m' d = samples m d :=
  kfoldsplit_ok h hidx hk stratified keep hs hσ hσ1 hσ2

example : (kfoldsplit demoMem demoData 3 true true id (fun _ => id) (fun _ => id)).toOption.map
      (fun r => r.2.map (fun p => ((samples r.1 p.train).map Pt.id, (samples r.1 p.test).map Pt.id)))
    = some [([2, 1], [3]), ([1, 3], [2]), ([3, 2], [1])] := by decide +kernel

/-- When ids are distinct and kept, the pairs of C11 are disjoint by id. -/
theorem C11_kfold_ids_disjoint_partial (m : Mem T) (d : Data) (h : Consistent m d)
    (hidx : d.size ≤ d.index.length) (hid : ((samples m d).map Pt.id).Nodup) (k : Nat) (hk : 3 ≤ k)
    (stratified : Bool) (hs : stratified = true ∨ k ∣ d.size) (σ : List Nat → List Nat)
    (σtrain σtest : Nat → List Nat → List Nat) (hσ : ∀ l, (σ l).Perm l)
    (hσ1 : ∀ i l, (σtrain i l).Perm l) (hσ2 : ∀ i l, (σtest i l).Perm l) :
    ∃ m' prs, kfoldsplit m d k stratified true σ σtrain σtest = .ok (m', prs) ∧
      ∀ pr ∈ prs, ∀ p ∈ samples m' pr.train, ∀ q ∈ samples m' pr.test, p.id ≠ q.id := by
  obtain ⟨m', prs, e, _, hp, _⟩ := kfoldsplit_ok h hidx hk stratified true hs hσ hσ1 hσ2
  refine ⟨m', prs, e, ?_⟩
  intro pr hpr p hp1 q hq1
  have := ((hp pr hpr).2.1 rfl).map Pt.id
  have hn := this.nodup_iff.2 hid
  rw [List.map_append] at hn
  exact (List.nodup_append.1 hn).2.2 _ (List.mem_map.2 ⟨p, hp1, rfl⟩) _ (List.mem_map.2 ⟨q, hq1, rfl⟩)

example : ((samples demoMem demoData).map Pt.id).Nodup := by decide

/-- Reading off a computed outcome. -/
theorem res_check {α : Type} (r : Res α) (P : α → Bool)
    (h : (match r with | .ok a => P a | .error _ => false) = true) : ∃ a, r = .ok a ∧ P a = true := by
  cases r with
  | ok a => exact ⟨a, rfl, h⟩
  | error e => simp at h

/-- **C11 (refuted)** With two folds, training and test set of each pair are the same samples. -/
theorem C11_two_folds_refuted :
    ∃ (m' : Mem Int) (prs : List TrainTest),
      kfoldsplit demoMem demoData 2 true true id (fun _ => id) (fun _ => id) = .ok (m', prs) ∧
      prs.length = 2 ∧
      ∀ pr ∈ prs, samples m' pr.train = samples m' pr.test ∧ samples m' pr.test ≠ [] := by
  obtain ⟨r, e, h⟩ := res_check
    (kfoldsplit demoMem demoData 2 true true id (fun _ => id) (fun _ => id))
    (fun r => decide (r.2.length = 2 ∧
      ∀ pr ∈ r.2, samples r.1 pr.train = samples r.1 pr.test ∧ samples r.1 pr.test ≠ []))
    (by decide +kernel)
  exact ⟨r.1, r.2, e, of_decide_eq_true h⟩

/-- With one fold the call does not return (the unsigned bound `folds - 2` wraps around). -/
theorem C11_one_fold_diverges (m : Mem T) (d : Data) (h : Consistent m d)
    (hidx : d.size ≤ d.index.length) (stratified keep : Bool) (σ : List Nat → List Nat)
    (σtrain σtest : Nat → List Nat → List Nat) (hσ : ∀ l, (σ l).Perm l) :
    kfoldsplit m d 1 stratified keep σ σtrain σtest = .error .diverges := by
  obtain ⟨s, e1, hp, h1, h2, h3, h4, h5, h6, h7, _⟩ := copy_ok h
  have hsc := copy_consistent h hp h2 h3 h4 h5 h7
  have hsz : s.size = d.size := by rw [size, hp]; simp
  obtain ⟨m2, parts, e2, _⟩ :=
    splitSample_full hsc (by rw [hsz, h6]; exact hidx) Nat.one_pos stratified keep
      (Or.inr (one_dvd _)) hσ
  unfold kfoldsplit
  simp only [e1, Res_bind_ok, e2]
  rfl

/-- The model's `diverges` for one fold is what its joining loop does: run with any finite number of
iterations `n` in place of the wrapped bound, it is still going, holding `n + 1` copies of the fold. -/
theorem C11_one_fold_grows (m : Mem T) (D : Nat) (f t : Data) (hf : FoldOK m D f) (ht : FoldOK m D t)
    (h0 : t.mdim = 0) (n : Nat) :
    ∃ m' t', joinLoop [f] n m t 0 0 = .ok (m', t', 0) ∧
      (samples m' t').length = (samples m t).length + n * (samples m f).length := by
  obtain ⟨e, t', e1, _, _, hs⟩ := joinLoop_ok [f] (by simp) n m t 0 0 (by simp) (by simpa using hf) ht h0
  refine ⟨m ++ e, t', by rw [e1]; simp [Nat.mod_one], ?_⟩
  rw [hs, List.length_append]
  have : (List.range n).flatMap (fun t => samples m (foldAt [f] (0 + t)))
      = (List.range n).flatMap (fun _ => samples m f) := by
    apply List.flatMap_congr; intro t _; simp [foldAt, Nat.mod_one]
  rw [this, List.length_flatMap]
  simp

/-- A reachable heap with four samples. -/
def demo4Mem : Mem Int := [⟨[1], 1, 0, 1⟩, ⟨[2], -1, 0, 2⟩, ⟨[3], 1, 0, 3⟩, ⟨[4], 1, 0, 4⟩]

/-- The dataset on `demo4Mem`. -/
def demo4Data : Data :=
  { points := [0, 1, 2, 3], fnames := [1], index := [0, 1, 2, 3], classNames := ["1", "-1"],
    classes := [1, -1], dist := [3, 1], msize := 4, mdim := 1, isEmpty := false }

theorem demo4_consistent : Consistent demo4Mem demo4Data :=
  C03_history_consistent [] Data.empty (inv_empty []).consistent
    ([.insert (.val ⟨[1], 1, 0, 0⟩ false), .insert (.val ⟨[2], -1, 0, 0⟩ false),
      .insert (.val ⟨[3], 1, 0, 0⟩ false), .insert (.val ⟨[4], 1, 0, 0⟩ false)]) _ _ rfl

/-- **C11 (refuted)** In plain mode with a remainder some sample is in no fold at all. -/
theorem C11_plain_remainder_refuted :
    ∃ (m : Mem Int) (d : Data), Consistent m d ∧ d.size = 4 ∧ d.index.length = 4 ∧
    ∃ (m' : Mem Int) (prs : List TrainTest),
      kfoldsplit m d 3 false true id (fun _ => id) (fun _ => id) = .ok (m', prs) ∧
      ∃ p ∈ samples m d, ∀ pr ∈ prs, p ∉ samples m' pr.train ∧ p ∉ samples m' pr.test := by
  obtain ⟨r, e, h⟩ := res_check
    (kfoldsplit demo4Mem demo4Data 3 false true id (fun _ => id) (fun _ => id))
    (fun r => decide (∃ p ∈ samples demo4Mem demo4Data,
      ∀ pr ∈ r.2, p ∉ samples r.1 pr.train ∧ p ∉ samples r.1 pr.test))
    (by decide +kernel)
  exact ⟨demo4Mem, demo4Data, demo4_consistent, rfl, rfl, r.1, r.2, e, of_decide_eq_true h⟩

/-- **C12 (partial)** In stratified mode, or when `k` divides the size: `partTrainTest` gives a training
and a test set which together hold every sample exactly once and share no object; the test set has
exactly `⌊n/k⌋` samples; class tables are right; the source is unchanged (C06).
Missing with respect to C12: plain mode with a remainder (`C12_plain_remainder_refuted`). -/
theorem C12_partTrainTest_partial (m : Mem T) (d : Data) (h : Consistent m d)
    (hidx : d.size ≤ d.index.length) (k : Nat) (hk : 0 < k) (stratified keep : Bool)
    (hs : stratified = true ∨ k ∣ d.size) (σ σtrain σtest : List Nat → List Nat)
    (hσ : ∀ l, (σ l).Perm l) (hσ1 : ∀ l, (σtrain l).Perm l) (hσ2 : ∀ l, (σtest l).Perm l) :
    ∃ m' pr, partTrainTest m d k stratified keep σ σtrain σtest = .ok (m', pr) ∧
      ((samples m' pr.train ++ samples m' pr.test).map content).Perm ((samples m d).map content) ∧
      (keep = true → (samples m' pr.train ++ samples m' pr.test).Perm (samples m d)) ∧
      (pr.train.points ++ pr.test.points).Nodup ∧
      pr.test.size = d.size / k ∧ Counted m' pr.train ∧ Counted m' pr.test ∧
      samples m' d = samples m d :=
  partTrainTest_ok h hidx hk stratified keep hs hσ hσ1 hσ2

example : (partTrainTest demoMem demoData 3 true true id id id).toOption.map
      (fun r => ((samples r.1 r.2.train).map Pt.id, (samples r.1 r.2.test).map Pt.id))
    = some ([2, 1], [3]) := rfl

/-- **C12 (refuted)** Plain mode with a remainder: three samples in two folds give a training set of
one sample and a test set of one sample. -/
theorem C12_plain_remainder_refuted :
    ∃ (m' : Mem Int) (pr : TrainTest),
      partTrainTest demoMem demoData 2 false true id id id = .ok (m', pr) ∧
      (samples demoMem demoData).length = 3 ∧
      (samples m' pr.train ++ samples m' pr.test).length = 2 := ⟨_, _, rfl, rfl, rfl⟩

/-- **C13** `splitByClasses` gives one dataset per class in the order of `classes()`; the `i`-th holds
exactly the samples with label `classes()[i]` in their original order (ids included when `keepIndex`);
together they hold every sample exactly once; each has a right class table; the source is unchanged. -/
theorem C13_splitByClasses (m : Mem T) (d : Data) (h : Consistent m d) (keep : Bool) :
    ∃ m' parts, splitByClasses m d keep = .ok (m', parts) ∧ parts.length = d.classes.length ∧
      (∀ (j : Nat) (c : Int), d.classes[j]? = some c → ∃ part, parts[j]? = some part ∧
        (samples m' part).map content = ((samples m d).filter (fun p => p.y = c)).map content ∧
        (keep = true → samples m' part = (samples m d).filter (fun p => p.y = c))) ∧
      ((parts.flatMap (samples m')).map content).Perm ((samples m d).map content) ∧
      (∀ p ∈ parts, Consistent m' p) ∧ samples m' d = samples m d := by
  obtain ⟨m', parts, e, hl, hok, hf, hp, _⟩ := splitByClasses_ok h keep
  refine ⟨m', parts, e, hl, hp, ?_, fun p hp' => (hok p hp').cons,
    pts_frame (fun x hx => h.livePts.lt hx) hf⟩
  have hcov : ∀ a ∈ samples m d, a.y ∈ d.classes :=
    fun a ha => h.counts.covers _ (List.mem_map.2 ⟨a, ha, rfl⟩)
  have h1 := (filter_partition (fun p : Pt T => p.y) d.classes h.counts.nodup (samples m d) hcov).map content
  refine List.Perm.trans (List.Perm.of_eq ?_) h1
  rw [List.map_flatMap, List.map_flatMap]
  have h2 : parts.map (fun a => (samples m' a).map content)
      = d.classes.map (fun c => ((samples m d).filter (fun p => p.y = c)).map content) := by
    apply List.ext_getElem (by simp [hl])
    intro n g1 g2
    have hn : n < d.classes.length := by simpa using g2
    obtain ⟨part, q1, q2, _⟩ := hp n _ (List.getElem?_eq_getElem hn)
    obtain ⟨q3, q4⟩ := List.getElem?_eq_some_iff.1 q1
    rw [List.getElem_map, List.getElem_map, q4, q2]
  rw [List.flatMap_def, List.flatMap_def, h2]

example : (splitByClasses demoMem demoData true).toOption.map
      (fun r => r.2.map (fun p => (samples r.1 p).map Pt.id)) = some [[1, 3], [2]] := rfl

end MLTK.Props
