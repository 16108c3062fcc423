import Verif.Lemmas.Bagging
import Verif.Props.Split
/-!
# C127, C128: bootstrap samples of a dataset; C129, C130, C131: training of `BaggingClassifier`
-/
namespace MLTK.Props
open MLTK.Spec MLTK.Bag
open MLTK.Data
variable {T : Type}

/-! ## C127 -/

/-- **C127** Sampling with replacement ends, whatever is drawn.  The sample has the classes of the dataset in their order,
each with its share rounded down (at least one) of samples, all of them copies of samples of that class; its class table is
right.  The dataset sampled from, and every other sample in memory, is as before; the sample shares no object with it. -/
theorem C127_bootstrap {m : Mem T} {d : Data} (h : Consistent m d) (hcl : ∀ c ∈ d.classes, c ∈ labels m d)
    (draw : Nat → Nat → Nat) (hdraw : InRange draw) (fuel samp : Nat) (h1 : 0 < samp) (h2 : samp ≤ d.size) :
    ∃ m' s, samplingData m d draw fuel samp true = .ok (some (m', s)) ∧ Bootstrap m d samp m' s ∧
      (∀ x, x < m.length → m'[x]? = m[x]?) ∧ (∀ r ∈ s.points, m.length ≤ r) := by
  obtain ⟨m', s, e, hb, -, hf, hr, -⟩ := samplingData_ok h hcl hdraw fuel h1 h2
  exact ⟨m', s, e, hb, hf, hr⟩

theorem demo4_full : ∀ c ∈ demo4Data.classes, c ∈ labels demo4Mem demo4Data := by decide

example : Consistent demo4Mem demo4Data ∧ (∀ c ∈ demo4Data.classes, c ∈ labels demo4Mem demo4Data) ∧
    InRange (fun _ hi => hi) ∧ 3 ≤ demo4Data.size := ⟨demo4_consistent, demo4_full, fun _ _ => Nat.le_refl _, by decide⟩

/-- The sample of three with the last candidate always drawn: two of class 1, one of class -1. -/
example : ∃ r, samplingData demo4Mem demo4Data (fun _ hi => hi) 0 3 true = .ok r ∧
    r.map (fun r => ((samples r.1 r.2).map Pt.x, labels r.1 r.2)) = some ([[3], [3], [2]], [1, 1, -1]) := by
  obtain ⟨r, e, h⟩ := res_check (samplingData demo4Mem demo4Data (fun _ hi => hi) 0 3 true)
    (fun r => decide (r.map (fun r => ((samples r.1 r.2).map Pt.x, labels r.1 r.2))
      = some ([[3], [3], [2]], [1, 1, -1]))) (by decide +kernel)
  exact ⟨r, e, by simpa using h⟩

/-! ## C128 -/

/-- **C128 (partial)** When no sample is drawn twice, the samples are different objects and have the ids 1, 2, …  Missing:
repeated draws (`C128_refuted`), which are what a bootstrap sample is for. -/
theorem C128_ids_partial {m : Mem T} {d : Data} (h : Consistent m d) (hcl : ∀ c ∈ d.classes, c ∈ labels m d)
    (draw : Nat → Nat → Nat) (hdraw : InRange draw) (fuel samp : Nat) (h1 : 0 < samp) (h2 : samp ≤ d.size) :
    ∃ m' s, samplingData m d draw fuel samp true = .ok (some (m', s)) ∧
      (s.points.Nodup → (samples m' s).map Pt.id = List.range' 1 s.points.length) := by
  obtain ⟨m', s, e, -, -, -, -, -, hi, -⟩ := samplingData_ok h hcl hdraw fuel h1 h2
  exact ⟨m', s, e, hi⟩

/-- A sample without repetition. -/
example : ∃ r, samplingData demo4Mem demo4Data (fun k hi => min k hi) 0 4 true = .ok r ∧
    r.map (fun r => decide (r.2.points.Nodup ∧ r.2.points.length = 4)) = some true := by
  obtain ⟨r, e, h⟩ := res_check (samplingData demo4Mem demo4Data (fun k hi => min k hi) 0 4 true)
    (fun r => decide (r.map (fun r => decide (r.2.points.Nodup ∧ r.2.points.length = 4)) = some true))
    (by decide +kernel)
  exact ⟨r, e, by simpa using h⟩

/-- **C128 (refuted)** A sample drawn again is not a second sample but the same object: the positions 0, 1 and 2 of the
bootstrap sample are one object, ids are repeated and no sample has the id 1.  Changing the label through position 0
changes it at position 2 as well. -/
theorem C128_refuted : ∃ (m : Mem Int) (d : Data) (draw : Nat → Nat → Nat), Consistent m d ∧
    (∀ c ∈ d.classes, c ∈ labels m d) ∧ InRange draw ∧
    ∃ m' s, samplingData m d draw 0 4 true = .ok (some (m', s)) ∧ s.points.length = 4 ∧
      ¬ s.points.Nodup ∧ ¬ ((samples m' s).map Pt.id).Nodup ∧ 1 ∉ (samples m' s).map Pt.id ∧
      ∃ r p, s.points[0]? = some r ∧ m'[r]? = some p ∧
        labels m' s = [1, 1, 1, -1] ∧ labels (m'.set r { p with y := 7 }) s = [7, 7, 7, -1] := by
  refine ⟨demo4Mem, demo4Data, fun _ _ => 0, demo4_consistent, demo4_full, fun _ _ => Nat.zero_le _, ?_⟩
  obtain ⟨r, e, h⟩ := res_check (samplingData demo4Mem demo4Data (fun _ _ => 0) 0 4 true)
    (fun r => match r with
      | none => false
      | some (m', s) => decide (s.points = [8, 8, 8, 9]) && decide (labels m' s = [1, 1, 1, -1]) &&
        decide ((samples m' s).map Pt.id = [3, 3, 3, 4]) && decide (m'[8]? = some ⟨[1], 1, 0, 3⟩) &&
        decide (labels (m'.set 8 ⟨[1], 7, 0, 3⟩) s = [7, 7, 7, -1])) (by decide +kernel)
  match r, e, h with
  | some (m', s), e, h =>
    simp only [Bool.and_eq_true, decide_eq_true_eq] at h
    obtain ⟨⟨⟨⟨h1, h2⟩, h3⟩, h4⟩, h5⟩ := h
    exact ⟨m', s, e, by rw [h1]; rfl, by rw [h1]; decide, by rw [h3]; decide, by rw [h3]; decide, 8, ⟨[1], 1, 0, 3⟩,
      by rw [h1]; rfl, h4, h2, h5⟩

/-! ## C129 -/

/-- **C129 (partial)** With between one estimator and as many as there are samples, training gives every estimator a
bootstrap sample of ⌊size / n⌋ samples of the training set.  The estimators' datasets share no sample with one another or
with the training set, which is as before.  Missing: more estimators than samples and none at all
(`C129_too_many_refuted`). -/
theorem C129_bagging_partial {m : Mem T} {d : Data} (h : Consistent m d) (hcl : ∀ c ∈ d.classes, c ∈ labels m d)
    (draws : Nat → Nat → Nat → Nat) (hdraw : ∀ i, InRange (draws i)) (fuel n : Nat) (h1 : 0 < n) (h2 : n ≤ d.size) :
    ∃ m' cs, train m d n draws fuel = .ok (some (m', cs)) ∧ cs.length = n ∧
      (∀ c ∈ cs, Bootstrap m d (d.size / n) m' c) ∧ (cs.flatMap Data.points).Nodup ∧
      (∀ r ∈ cs.flatMap Data.points, m.length ≤ r) ∧ (∀ x, x < m.length → m'[x]? = m[x]?) := by
  obtain ⟨m', cs, e, a1, a2, a3, a4, a5, a6⟩ := trainLoop_ok hdraw fuel (Nat.div_pos h2 h1) (Nat.div_le_self _ _) n 0 m h hcl
  refine ⟨m', cs, ?_, a1, fun c hc => (a6 c hc).1, a4, a5, a3⟩
  unfold train
  have : ¬ n = 0 := by omega
  simp only [if_neg this, Res_bind_ok, Res_pure]
  exact e

example : ∃ r, train demo4Mem demo4Data 2 (fun i _ hi => min i hi) 0 = .ok r ∧
    r.map (fun r => r.2.map (fun s => (samples r.1 s).map Pt.x)) = some [[[1], [2]], [[1], [2]]] := by
  obtain ⟨r, e, h⟩ := res_check (train demo4Mem demo4Data 2 (fun i _ hi => min i hi) 0)
    (fun r => decide (r.map (fun r => r.2.map (fun s => (samples r.1 s).map Pt.x)) = some [[[1], [2]], [[1], [2]]]))
    (by decide +kernel)
  exact ⟨r, e, by simpa using h⟩

/-- **C129 (refuted)** With more estimators than samples the behaviour is undefined (a negative number is converted to an
unsigned one), for every non-empty dataset and whatever is drawn; the default is ten estimators.  With no estimator it is
undefined, too. -/
theorem C129_too_many_refuted {m : Mem T} {d : Data} (h : Consistent m d) (hne : d.classes ≠ [])
    (draws : Nat → Nat → Nat → Nat) (fuel n : Nat) (hn : d.size < n) :
    train m d n draws fuel = .error .overflow ∧ train m d 0 draws fuel = .error .divByZero := by
  refine ⟨?_, by simp [train]⟩
  have h0 : ¬ n = 0 := by omega
  obtain ⟨k, rfl⟩ : ∃ k, n = k + 1 := ⟨n - 1, by omega⟩
  obtain ⟨m1, parts, e, -⟩ := splitByClasses_ok h false
  have hup : (d.dist.map (Feat.share d.size 0)).mapM Feat.upper = .error .overflow := by
    have hd : d.dist ≠ [] := by rw [h.counts.counts]; simpa using hne
    obtain ⟨a, l, hal⟩ := List.exists_cons_of_ne_nil hd
    rw [hal, List.map_cons, List.mapM_cons]
    have : Feat.upper (Feat.share d.size 0 a) = .error .overflow := by
      simp [Feat.upper, Feat.share]
    rw [this, Res_bind_error]
  unfold train
  simp only [if_neg h0, Res_bind_ok, Res_pure, Nat.div_eq_of_lt hn, Bag.trainLoop, samplingData,
    if_neg (show ¬ 0 > d.size by omega), e, hup, Res_bind_error]

example : Consistent demo4Mem demo4Data ∧ demo4Data.classes ≠ [] ∧ demo4Data.size < 10 :=
  ⟨demo4_consistent, by decide, by decide⟩

/-! ## C130 -/

/-- What the estimators can see: of each class only the first samples, as many as one estimator draws of that class. -/
theorem C130_first_only {m : Mem T} {d : Data} (h : Consistent m d) (hcl : ∀ c ∈ d.classes, c ∈ labels m d)
    (draws : Nat → Nat → Nat → Nat) (hdraw : ∀ i, InRange (draws i)) (fuel n : Nat) (h1 : 0 < n) (h2 : n ≤ d.size) :
    ∃ m' cs, train m d n draws fuel = .ok (some (m', cs)) ∧ ∀ c ∈ cs, ∀ p ∈ samples m' c,
      content p ∈ ((ofClass m d p.y).take (bootShare m d (d.size / n) p.y)).map content := by
  obtain ⟨m', cs, e, a1, a2, a3, a4, a5, a6⟩ := trainLoop_ok hdraw fuel (Nat.div_pos h2 h1) (Nat.div_le_self _ _) n 0 m h hcl
  refine ⟨m', cs, ?_, fun c hc => (a6 c hc).2⟩
  unfold train
  have : ¬ n = 0 := by omega
  simp only [if_neg this, Res_bind_ok, Res_pure]
  exact e

/-- **C130 (refuted)** Samples of the training set are out of reach of every estimator, whatever the seed: of the four
samples the third and the fourth are in no bootstrap sample of two estimators. -/
theorem C130_refuted : ∃ (m : Mem Int) (d : Data), Consistent m d ∧ (∀ c ∈ d.classes, c ∈ labels m d) ∧ d.size = 4 ∧
    ∃ a b, a ∈ samples m d ∧ b ∈ samples m d ∧ a.x ≠ b.x ∧
      ∀ draws : Nat → Nat → Nat → Nat, (∀ i, InRange (draws i)) → ∀ fuel, ∃ m' cs,
        train m d 2 draws fuel = .ok (some (m', cs)) ∧ ∀ c ∈ cs, ∀ p ∈ samples m' c, p.x ≠ a.x ∧ p.x ≠ b.x := by
  refine ⟨demo4Mem, demo4Data, demo4_consistent, demo4_full, rfl, ⟨[3], 1, 0, 3⟩, ⟨[4], 1, 0, 4⟩, by decide, by decide,
    by decide, ?_⟩
  intro draws hdraw fuel
  obtain ⟨m', cs, e, hall⟩ := C130_first_only demo4_consistent demo4_full draws hdraw fuel 2 (by decide) (by decide)
  obtain ⟨m'', cs', e', -, hb, -⟩ := C129_bagging_partial demo4_consistent demo4_full draws hdraw fuel 2 (by decide) (by decide)
  rw [e] at e'
  simp only [Except.ok.injEq, Option.some.injEq, Prod.mk.injEq] at e'
  obtain ⟨rfl, rfl⟩ := e'
  refine ⟨m', cs, e, ?_⟩
  intro c hc p hp
  have hy : p.y ∈ labels m' c := List.mem_map_of_mem hp
  rw [(hb c hc).labels] at hy
  have hy2 : p.y = 1 ∨ p.y = -1 := by
    obtain ⟨a, ha, ha2⟩ := List.mem_flatMap.1 hy
    rw [List.eq_of_mem_replicate ha2]
    simpa [demo4Data] using ha
  have hg := hall c hc p hp
  have key : ∀ y : Int, (y = 1 ∨ y = -1) →
      ∀ q ∈ ((ofClass demo4Mem demo4Data y).take (bootShare demo4Mem demo4Data (demo4Data.size / 2) y)).map content,
        q.1 ≠ [3] ∧ q.1 ≠ [4] := by
    rintro y (rfl | rfl) <;> decide
  exact key p.y hy2 _ hg

/-- **C130 (partial)** Each of these first samples is reached: for some draws some estimator (the first) gets it.  So the
samples that can take part are exactly the first ones of each class; with one estimator they are all.  Missing: the
others (`C130_refuted`). -/
theorem C130_reached_partial {m : Mem T} {d : Data} (h : Consistent m d) (hcl : ∀ c ∈ d.classes, c ∈ labels m d)
    (fuel n : Nat) (h1 : 0 < n) (h2 : n ≤ d.size) (c : Int) (p : Pt T)
    (hp : p ∈ (ofClass m d c).take (bootShare m d (d.size / n) c)) :
    ∃ draws : Nat → Nat → Nat → Nat, (∀ i, InRange (draws i)) ∧ ∃ m' s cs,
      train m d n draws fuel = .ok (some (m', s :: cs)) ∧ content p ∈ (samples m' s).map content := by
  obtain ⟨k, rfl⟩ : ∃ k, n = k + 1 := ⟨n - 1, by omega⟩
  obtain ⟨i, hi, hpi⟩ := List.getElem_of_mem hp
  have hi1 : i < bootShare m d (d.size / (k + 1)) c := by simp at hi; omega
  have hi2 : (ofClass m d c)[i]? = some p := by
    have := List.getElem?_eq_getElem hi
    rw [hpi, List.getElem?_take, if_pos hi1] at this
    exact this
  have hR : ∀ j : Nat, InRange ((fun _ _ hi => min i hi : Nat → Nat → Nat → Nat) j) := fun _ _ hi => Nat.min_le_right _ _
  refine ⟨fun _ _ hi => min i hi, hR, ?_⟩
  obtain ⟨m1, s, e1, hb, hl1, hf1, hr1, hd1, -, hc⟩ := samplingData_ok h hcl (hR 0) fuel (Nat.div_pos h2 h1)
    (Nat.div_le_self _ _)
  obtain ⟨cp, e2, cpp, c1, c2, c3, c4, c5, c6, c7, -⟩ := copy_ok hb.cons
  have hcs := copy_samples hb.cons cpp
  have hcc := copy_consistent hb.cons cpp c2 c3 c4 c5 c7
  have hf2 : ∀ x, x < m.length → (m1 ++ samples m1 s)[x]? = m[x]? := by
    intro x hx
    rw [List.getElem?_append_left (by omega), hf1 x hx]
  have hld : labels (m1 ++ samples m1 s) d = labels m d := by unfold labels; rw [samples_frame h.livePts hf2]
  obtain ⟨m', cs, e3, -, -, g3, -⟩ := trainLoop_ok hR fuel (Nat.div_pos h2 h1) (Nat.div_le_self _ _) k 1
    (m1 ++ samples m1 s) (consistent_frame h hf2) (by rw [hld]; exact hcl)
  refine ⟨m', cp, cs, ?_, ?_⟩
  · unfold train
    have : ¬ k + 1 = 0 := by omega
    simp only [if_neg this, Res_bind_ok, Res_pure, Bag.trainLoop, e1, e2, e3]
  · rw [samples_frame hcc.livePts g3, hcs]
    exact hc i rfl c hi1 p hi2

/-- With one estimator the first samples of a class are all of them. -/
example : bootShare demo4Mem demo4Data (demo4Data.size / 1) 1 = (ofClass demo4Mem demo4Data 1).length := by decide

/-! ## C131 -/

/-- **C131 (partial)** An ensemble constructed with a non-zero seed gives its estimators seeds that depend on that seed
only, not on the random device: the seed plus the number of the estimator; different estimators get different seeds, and
training again gives the same ones.  Missing: seeds set with `setSeed` (`C131_setSeed_refuted`). -/
theorem C131_seed_partial (own base : Nat) (h : own ≠ 0) (rd rd' : Nat → Nat) (i j : Nat) :
    (seedOf ⟨own, base⟩ rd i).1 = own + i ∧
    (seedOf (seedOf ⟨own, base⟩ rd i).2 rd' j).1 = (seedOf ⟨own, base⟩ rd j).1 ∧
    ((seedOf ⟨own, base⟩ rd i).1 = (seedOf ⟨own, base⟩ rd j).1 → i = j) := by
  simp [seedOf, h]

example : (seedOf ⟨42, 0⟩ (fun _ => 5) 3).1 = 45 := rfl

/-- **C131 (refuted)** The seed set with `setSeed` is never used: on an ensemble constructed without seed, the seeds of the
estimators come from the random device, whatever is set; on one constructed with a seed they stay as they were. -/
theorem C131_setSeed_refuted :
    (∀ (s : Seeds) (v : Nat) (rd : Nat → Nat) (i : Nat), (seedOf (setSeed s v) rd i).1 = (seedOf s rd i).1) ∧
    (∀ v i : Nat, ∃ rd rd' : Nat → Nat, (seedOf (setSeed ⟨0, 0⟩ v) rd i).1 ≠ (seedOf (setSeed ⟨0, 0⟩ v) rd' i).1) := by
  refine ⟨fun s v rd i => rfl, fun v i => ⟨fun _ => 1, fun _ => 2, ?_⟩⟩
  simp only [seedOf, setSeed]
  simp

end MLTK.Props
