import Verif.Model.Committee
import Verif.Props.Balanced
import Verif.Props.Voting
import Verif.Props.RandomInit
/-!
# C208, C209: the perceptron committee
-/
namespace MLTK.Props
open MLTK.Spec MLTK.Bal MLTK.Committee
open MLTK.Perc (Sample)
open MLTK.Data (Res_bind_ok Res_bind_error Res_pure)

section
variable {K : Type} [Field K] [LinearOrder K] [IsStrictOrderedRing K]

omit [IsStrictOrderedRing K] in
private theorem balTrain_total (c : BCfg K) (late : Nat → Bool) (dim : Nat) (samples : List (Sample K))
    (hs : ∀ p ∈ samples, p.x.length = dim) (w0 : List K) (hw0 : w0.length = dim) :
    ∃ r, balTrain c late samples w0 = .ok r ∧ r.2.1.length = dim := by
  obtain ⟨s, e, hl, hw, _⟩ := balLoop_spec c late (fun _ => True) samples hs (fun _ _ _ _ _ _ _ => trivial)
    c.maxEpoch 0 ⟨w0, 0, 0⟩ hw0 rfl trivial (Nat.zero_le _) 0
  obtain ⟨g, hg, _⟩ := balGammas_spec s.w hw s.bias samples hs (c.big, c.big)
  refine ⟨(decide (e = 0), s.w, balShift s.bias g), ?_, hw⟩
  rw [balTrain, hl, Res_bind_ok, hg, Res_bind_ok, Res_pure]

omit [Field K] [LinearOrder K] [IsStrictOrderedRing K] in
private theorem fillLen (f : Rng.Mt → K × Rng.Mt) (n : Nat) (s : Rng.State) : (Rng.fill f n s).1.length = n := by
  induction n generalizing s with
  | zero => rfl
  | succ n ih => simp only [Rng.fill, List.length_cons, ih]

omit [Field K] [LinearOrder K] [IsStrictOrderedRing K] in
private theorem fillMem (f : Rng.Mt → K × Rng.Mt) (n : Nat) (s : Rng.State) :
    ∀ v ∈ (Rng.fill f n s).1, ∃ t, v = (f t).1 := by
  induction n generalizing s with
  | zero => simp [Rng.fill]
  | succ n ih =>
    intro v hv
    simp only [Rng.fill, List.mem_cons] at hv
    rcases hv with rfl | hv
    · exact ⟨s.gen, rfl⟩
    · exact ih _ v hv

/-- Member `i` of a committee was trained on all the samples, in some order and from start weights
that were drawn: `r` is what its
training answered, its weights and its bias. -/
def TrainedMember (W : World K) (dim : Nat) (samples : List (Sample K)) (i : Nat) (r : Bool × List K × K) : Prop :=
  ∃ (order : List (Sample K)) (w0 : List K), order.Perm samples ∧ w0.length = dim ∧ (∀ v ∈ w0, ∃ t, v = (W.draw t).1) ∧ r.2.1.length = dim ∧
    balTrain W.cfg (W.late i) order w0 = .ok r

omit [IsStrictOrderedRing K] in
private theorem trainAll_ok (W : World K) (dim : Nat) (hshuf : ∀ s l, (W.shuf s l).Perm l) (all : List (Sample K))
    (hs : ∀ p ∈ all, p.x.length = dim) (n : Nat) : ∀ (i : Nat) (samples : List (Sample K)) (g : Rng.State),
      samples.Perm all → ∃ r, trainAll W dim n i samples g = .ok r ∧ r.1.Perm all ∧ r.2.2.length = n ∧
        ∀ k r', r.2.2[k]? = some r' → TrainedMember W dim all (i + k) r' := by
  induction n with
  | zero => intro i samples g h; exact ⟨_, rfl, h, rfl, by simp⟩
  | succ n ih =>
    intro i samples g h
    have hord := (hshuf (W.dev (2 * i + 1)) samples).trans h
    have hwl := fillLen W.draw dim (Rng.initWide g memberSeed (W.dev (2 * i)))
    obtain ⟨r, hr, hrl⟩ := balTrain_total W.cfg (W.late i) dim (W.shuf (W.dev (2 * i + 1)) samples)
      (fun p hp => hs p (hord.mem_iff.1 hp)) _ hwl
    obtain ⟨t, ht, h1, h2, h3⟩ := ih (i + 1) (W.shuf (W.dev (2 * i + 1)) samples)
      (Rng.randomInto W.draw { x := [], y := 0 } dim memberSeed (W.dev (2 * i)) g).2 hord
    have hm : trainMember W dim i samples g = .ok (W.shuf (W.dev (2 * i + 1)) samples,
        (Rng.randomInto W.draw { x := [], y := 0 } dim memberSeed (W.dev (2 * i)) g).2, r) := by
      unfold trainMember
      simp only
      have : balTrain W.cfg (W.late i) (W.shuf (if memberSeed = 0 then W.dev (2 * i + 1) else memberSeed) samples)
          (Rng.randomInto W.draw { x := [], y := 0 } dim memberSeed (W.dev (2 * i)) g).1.x = .ok r := hr
      rw [this, Res_bind_ok, Res_pure]
      rfl
    refine ⟨(t.1, t.2.1, r :: t.2.2), ?_, h1, by simp [h2], ?_⟩
    · rw [trainAll, hm, Res_bind_ok, ht, Res_bind_ok, Res_pure]
    · intro k r' hk
      cases k with
      | zero =>
        simp only [List.getElem?_cons_zero, Option.some.injEq] at hk
        subst hk
        exact ⟨_, _, hord, hwl, fillMem _ _ _, hrl, hr⟩
      | succ k =>
        rw [show i + (k + 1) = i + 1 + k by omega]
        exact h3 k r' (by simpa using hk)

omit [IsStrictOrderedRing K] in
/-- **C208 (members).**  Training never fails on samples of the committee's dimension; it leaves the committee with the
same samples in some order and with as many members as asked for, each trained on all of them. -/
theorem C208_members (W : World K) (com : Com K) (g : Rng.State) (hshuf : ∀ s l, (W.shuf s l).Perm l)
    (hs : ∀ p ∈ com.samples, p.x.length = com.dim) :
    ∃ com' g', com.train W g = .ok (true, com', g') ∧ com'.samples.Perm com.samples ∧ com'.classes = com.classes ∧
      com'.dim = com.dim ∧ com'.members.length = com.n ∧
      ∀ i w b, com'.members[i]? = some (w, b) → ∃ ok, TrainedMember W com.dim com.samples i (ok, w, b) := by
  obtain ⟨r, hr, h1, h2, h3⟩ := trainAll_ok W com.dim hshuf com.samples hs com.n 0 com.samples g (List.Perm.refl _)
  refine ⟨{ com with samples := r.1, members := r.2.2.map Prod.snd }, r.2.1, by rw [Com.train, hr, Res_bind_ok, Res_pure], h1, rfl, rfl, by simp [h2], ?_⟩
  intro i w b hi
  simp only [List.getElem?_map, Option.map_eq_some_iff] at hi
  obtain ⟨⟨ok, w', b'⟩, hi, e⟩ := hi
  cases e
  exact ⟨ok, by simpa using h3 i _ hi⟩

/-- The side of the hyperplane a point is on. -/
def sideOf (dim : Nat) (x : List K) (m : List K × K) : Int := if 0 ≤ affine dim m.1 m.2 x then 1 else -1

private theorem answer_ok {dim : Nat} {m : List K × K} (hw : m.1.length = dim) {x : List K} (hx : x.length = dim) :
    answer m x = .ok (sideOf dim x m) := by
  unfold answer balEvaluate
  rw [dot_ok hw hx, Res_bind_ok]
  show Except.ok _ = _
  unfold sideOf balPredict affine
  have h1 : ¬ ((-1 : K) = 1) := by intro h; linarith
  by_cases h : 0 ≤ ip dim m.1 x + m.2
  · simp [h]
  · simp [h, h1]

/-- **C208 (vote).**  A committee whose members have weights of its dimension answers with a class most members vote for, a
member voting for the side of its hyperplane the point is on. -/
theorem C208_vote (com : Com K) (hm : ∀ m ∈ com.members, m.1.length = com.dim) (hn : com.classes.Nodup)
    (h1 : 1 ∈ com.classes) (h2 : -1 ∈ com.classes) (x : List K) (hx : x.length = com.dim) :
    ∃ c, com.evaluate x = .ok c ∧ FirstBest com.classes (fun c => (com.members.map (sideOf com.dim x)).count c) c := by
  obtain ⟨c, hc, hb⟩ := C46_committee (K := K) com.classes hn (List.ne_nil_of_mem h1) (com.members.map (sideOf com.dim x))
    (fun q hq => by
      obtain ⟨m, _, rfl⟩ := List.mem_map.1 hq
      unfold sideOf; split <;> assumption)
  refine ⟨c, ?_, hb⟩
  unfold Com.evaluate
  rw [Feat.mapM_ok _ (sideOf com.dim x) _ (fun m h => answer_ok (hm m h) hx), Res_bind_ok, hc]

/-- **C208 (labels).**  If the samples can be separated by a hyperplane through the origin, as in `C105_converges_partial`, and
the limits of the members allow it, a committee with at least one member answers every training sample by its label. -/
theorem C208_labels_partial (W : World K) (com com' : Com K) (g g' : Rng.State) (b : Bool)
    (hshuf : ∀ s l, (W.shuf s l).Perm l) (hlate : ∀ i k, W.late i k = false) (hdraw : ∀ t, 0 ≤ (W.draw t).1 ∧ (W.draw t).1 ≤ 1)
    (hs : ∀ p ∈ com.samples, p.x.length = com.dim)
    (hpm : PlusMinus com.samples) (hpos : ∃ p ∈ com.samples, p.y = 1) (hneg : ∃ p ∈ com.samples, p.y = -1)
    (hn : com.classes.Nodup) (h1 : 1 ∈ com.classes) (h2 : -1 ∈ com.classes) (hcom : 0 < com.n)
    (u : List K) (gam R2 : K) (hg : 0 < gam) (hr : 0 < W.cfg.rate) (hu1 : ip com.dim u u ≤ 1)
    (hu : ∀ p ∈ com.samples, gam ≤ p.y * ip com.dim u p.x) (hR0 : 0 ≤ R2) (hR : ∀ p ∈ com.samples, ip com.dim p.x p.x ≤ R2)
    (N : Nat) (hN : ∀ w0 : List K, w0.length = com.dim → (∀ v ∈ w0, 0 ≤ v ∧ v ≤ 1) →
      W.cfg.rate ^ 2 * R2 + 2 * (W.cfg.rate * gam) * |ip com.dim u w0| + ip com.dim w0 w0 < (N : K) * (W.cfg.rate * gam) ^ 2)
    (hup : N ≤ W.cfg.maxUp) (hep : N ≤ W.cfg.maxEpoch) (h : com.train W g = .ok (b, com', g'))
    (hbig : ∀ m ∈ com'.members, ∀ p ∈ com.samples, |ip com.dim m.1 p.x| < W.cfg.big) :
    ∀ p ∈ com.samples, ∃ c, com'.evaluate p.x = .ok c ∧ ((c : Int) : K) = p.y := by
  obtain ⟨com1, g1, e1, hperm, hcl, hdim, hlen, hmem⟩ := C208_members W com g hshuf hs
  rw [e1] at h
  cases h
  have hN0 : 0 < W.cfg.maxEpoch := by
    have h0 := hN (List.replicate com.dim 0) (by simp) (fun v hv => by rw [List.eq_of_mem_replicate hv]; simp)
    have hpos' : 0 ≤ W.cfg.rate ^ 2 * R2 + 2 * (W.cfg.rate * gam) * |ip com.dim u (List.replicate com.dim 0)| +
        ip com.dim (List.replicate com.dim 0) (List.replicate com.dim 0) := by
      have i1 : 0 ≤ ip com.dim (List.replicate com.dim (0 : K)) (List.replicate com.dim 0) :=
        Finset.sum_nonneg fun _ _ => mul_self_nonneg _
      positivity
    rcases Nat.eq_zero_or_pos N with rfl | hp
    · simp at h0; linarith
    · omega
  have hright : ∀ m ∈ com'.members, m.1.length = com.dim ∧
      ∀ p ∈ com.samples, ((sideOf com.dim p.x m : Int) : K) = p.y := by
    intro m hm
    obtain ⟨i, hi, rfl⟩ := List.mem_iff_getElem.1 hm
    obtain ⟨ok, order, w0, ho, hw0, hd, hwl, ht⟩ := hmem i com'.members[i].1 com'.members[i].2 (List.getElem?_eq_getElem hi)
    have hin : ∀ p, p ∈ order ↔ p ∈ com.samples := fun p => ho.mem_iff
    have hso : ∀ p ∈ order, p.x.length = com.dim := fun p hp => hs p ((hin p).1 hp)
    have hv : ∀ v ∈ w0, 0 ≤ v ∧ v ≤ 1 := by
      intro v hv
      obtain ⟨t, rfl⟩ := hd v hv
      exact hdraw t
    have hlf : W.late i = fun _ => false := funext (hlate i)
    obtain ⟨w, b', hok⟩ := C105_converges_partial W.cfg com.dim order hso w0 hw0 (fun p hp => hpm p ((hin p).1 hp)) u gam R2
      hg hr hu1 (fun p hp => hu p ((hin p).1 hp)) hR0 (fun p hp => hR p ((hin p).1 hp)) N (hN w0 hw0 hv) hup hep
    rw [hlf, hok] at ht
    simp only [Except.ok.injEq, Prod.mk.injEq] at ht
    obtain ⟨rfl, hw, hb⟩ := ht
    rw [hw, hb] at hok
    refine ⟨hwl, fun p hp => ?_⟩
    obtain ⟨p1, hp1, hy1⟩ := hpos
    obtain ⟨p2, hp2, hy2⟩ := hneg
    have hev := (C104_evaluate_partial W.cfg (fun _ => false) com.dim order hso w0 hw0 hN0 _ _ hok
      ⟨p1, (hin p1).2 hp1, hy1⟩ ⟨p2, (hin p2).2 hp2, hy2⟩ (fun p hp => hbig _ (List.getElem_mem hi) p ((hin p).1 hp)))
    have e1 := (hev.1 p.x (hs p hp)).2
    rw [hev.2 p ((hin p).2 hp)] at e1
    simp only [Except.ok.injEq] at e1
    rw [e1]
    unfold sideOf
    split <;> simp
  intro p hp
  obtain ⟨c, hc, a, d, hsplit, hmax, _⟩ := C208_vote com' (fun m hm => (hright m hm).1.trans hdim.symm) (hcl ▸ hn) (hcl ▸ h1) (hcl ▸ h2)
    p.x ((hs p hp).trans hdim.symm)
  refine ⟨c, hc, ?_⟩
  -- the members all vote for the label of the sample
  by_contra hne
  have hall : ∀ q ∈ com'.members.map (sideOf com'.dim p.x), ((q : Int) : K) = p.y := by
    intro q hq
    obtain ⟨m, hm, rfl⟩ := List.mem_map.1 hq
    rw [hdim]
    exact (hright m hm).2 p hp
  have hc0 : (com'.members.map (sideOf com'.dim p.x)).count c = 0 := by
    rw [List.count_eq_zero]
    intro hcm
    exact hne (hall c hcm)
  obtain ⟨m0, hm0⟩ : ∃ m, m ∈ com'.members := by
    have : com'.members ≠ [] := by
      intro h0; rw [h0] at hlen; simp at hlen; omega
    exact List.exists_mem_of_ne_nil _ this
  have hq0 : sideOf com'.dim p.x m0 ∈ com'.classes := by
    rw [hcl]; unfold sideOf; split <;> assumption
  have := hmax _ hq0
  simp only [hc0, Nat.le_zero, List.count_eq_zero] at this
  exact this (List.mem_map.2 ⟨m0, hm0, rfl⟩)

end

/-- A source of randomness without randomness: weights 1/2, samples in reverse if the number drawn is odd. -/
def calmWorld (cfg : BCfg ℚ) (dev : Nat → Nat) : World ℚ :=
  ⟨cfg, fun _ _ => false, fun g => (1 / 2, g), fun s l => if s % 2 = 1 then l.reverse else l, dev⟩

/-- Three samples of two classes. -/
def threeSamples : List (Sample ℚ) := [⟨[2, 1], 1⟩, ⟨[-1, 1], -1⟩, ⟨[-2, -2], -1⟩]

/-- A generator that was seeded with 0. -/
def calmGen : Rng.State := ⟨0, 0, []⟩

/-- The hypotheses of the theorems above are met: a committee of two with its members and its answers. -/
example : ((⟨2, threeSamples, [1, -1], 2, 7, []⟩ : Com ℚ).train (calmWorld ⟨1, 10, 10, 1000⟩ id) calmGen).map
      (fun r => (r.1, r.2.1.members.length, threeSamples.map (fun p => (r.2.1.evaluate p.x).toOption))) =
    .ok (true, 2, [some 1, some (-1), some (-1)]) := by decide +kernel

/-- **C208, negation.**  Training reports success though a member failed and the committee answers a training sample
wrongly: the samples are separable, but not through the origin, and `train` looks at no member's answer. -/
theorem C208_reported_refuted :
    SeparatesAll 1 [(-2 : ℚ)] 3 [⟨[1], 1⟩, ⟨[2], -1⟩] ∧
    ∃ (W : World ℚ) (com com' : Com ℚ) (g g' : Rng.State), (∀ s l, (W.shuf s l).Perm l) ∧
      com.samples = [⟨[1], 1⟩, ⟨[2], -1⟩] ∧ com.train W g = .ok (true, com', g') ∧
      com'.evaluate [1] ≠ .ok 1 := by
  constructor
  · intro p hp
    simp only [List.mem_cons, List.not_mem_nil, or_false] at hp
    rcases hp with rfl | rfl <;> simp [affine, ip] <;> norm_num
  · have hsh : ∀ s l, ((calmWorld ⟨1, 5, 10, 1000⟩ (fun _ => 0)).shuf s l).Perm l := by
      intro s l
      simp only [calmWorld]
      split
      · exact List.reverse_perm l
      · exact List.Perm.refl l
    have hc : ((⟨1, [⟨[1], 1⟩, ⟨[2], -1⟩], [1, -1], 1, 0, []⟩ : Com ℚ).train (calmWorld ⟨1, 5, 10, 1000⟩ (fun _ => 0)) calmGen).map
        (fun r => decide ((r.2.1.evaluate [1]).toOption = some 1)) = .ok false := by decide +kernel
    obtain ⟨com', g', h, _⟩ := C208_members (calmWorld ⟨1, 5, 10, 1000⟩ (fun _ => 0))
      (⟨1, [⟨[1], 1⟩, ⟨[2], -1⟩], [1, -1], 1, 0, []⟩ : Com ℚ) calmGen hsh (by simp)
    refine ⟨_, _, com', _, g', hsh, rfl, h, fun he => ?_⟩
    rw [h] at hc
    simp only [Except.map, he, Except.toOption, Except.ok.injEq] at hc
    simp at hc

/-- **C208, negation for other labels.**  The members answer 1 or -1 whatever the classes are: with classes 1 and 2 a vote is
written past the end of the votes. -/
theorem C208_classes_refuted {K : Type} [Field K] [LinearOrder K] [IsStrictOrderedRing K] (com : Com K)
    (hm : ∀ m ∈ com.members, m.1.length = com.dim) (x : List K) (hx : x.length = com.dim) (m : List K × K)
    (rest : List (List K × K)) (hmem : com.members = m :: rest) (hside : sideOf com.dim x m ∉ com.classes) :
    com.evaluate x = .error .outOfBounds := by
  unfold Com.evaluate
  rw [Feat.mapM_ok _ (sideOf com.dim x) _ (fun m h => answer_ok (hm m h) hx), Res_bind_ok, hmem]
  have hf : com.classes.findIdx (· == sideOf com.dim x m) = com.classes.length := by
    rw [List.findIdx_eq_length]
    intro c hc
    simpa using fun h : c = sideOf com.dim x m => hside (h ▸ hc)
  unfold Vote.evaluateCommittee
  simp only [List.map_cons, List.length_cons, List.replicate_succ]
  rw [Vote.tally, hf]
  simp [vget, Vote.addAt, Res_bind_ok, Res_bind_error]

/-- **C209, negation.**  The seed given to a committee is not used: it trains to the same members with every seed. -/
theorem C209_ignored_refuted {K : Type} [Field K] [LinearOrder K] (W : World K) (com : Com K) (g : Rng.State) (seed : Nat) :
    (({ com with seed := seed } : Com K).train W g).map (fun r => (r.1, r.2.1.members, r.2.1.samples, r.2.2)) =
      (com.train W g).map (fun r => (r.1, r.2.1.members, r.2.1.samples, r.2.2)) := by
  unfold Com.train
  cases trainAll W com.dim com.n 0 com.samples g <;> rfl

/-- **C209, negation.**  Instead the members depend on what `std::random_device` delivers: for every seed there are two
trainings of the same committee, from the same state of the program, that end with different members. -/
theorem C209_device_refuted :
    ∃ (samples : List (Sample ℚ)) (g : Rng.State) (W W' : World ℚ), W'.shuf = W.shuf ∧ W'.draw = W.draw ∧ W'.cfg = W.cfg ∧
      (∀ s l, (W.shuf s l).Perm l) ∧
      ∀ seed, ((⟨1, samples, [1, -1], 2, seed, []⟩ : Com ℚ).train W g).map (fun r => r.2.1.members) ≠
        ((⟨1, samples, [1, -1], 2, seed, []⟩ : Com ℚ).train W' g).map (fun r => r.2.1.members) := by
  refine ⟨[⟨[3], -1⟩, ⟨[1], -1⟩, ⟨[-1], 1⟩], calmGen, calmWorld ⟨1, 10, 10, 1000⟩ (fun _ => 0),
    calmWorld ⟨1, 10, 10, 1000⟩ (fun _ => 1), rfl, rfl, rfl, ?_, fun seed => ?_⟩
  · intro s l
    simp only [calmWorld]
    split
    · exact List.reverse_perm l
    · exact List.Perm.refl l
  · have hm : ∀ (W : World ℚ) (com : Com ℚ) (g : Rng.State), (com.train W g).map (fun r => r.2.1.members) =
        (trainAll W com.dim com.n 0 com.samples g).map (fun r => r.2.2.map Prod.snd) := by
      intro W com g
      unfold Com.train
      cases trainAll W com.dim com.n 0 com.samples g <;> rfl
    rw [hm, hm]
    simp only
    decide +kernel

end MLTK.Props
