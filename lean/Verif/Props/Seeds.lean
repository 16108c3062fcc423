import Verif.Spec.Seeds
import Verif.Props.Split
/-!
# C160, C161: repeated cross-validation splits and seeds
-/
namespace MLTK.Props
open MLTK MLTK.Data MLTK.Spec
variable {T : Type}

private theorem shuffleBy_perm (shuf : Nat → List Nat → List Nat) (hs : ∀ n l, (shuf n l).Perm l) (seed : Nat) (s : Nat → Nat) :
    ∃ n s', shuffleBy shuf seed s = (shuf n, s') := by
  unfold shuffleBy seedOr
  split
  · exact ⟨s 0, _, rfl⟩
  · exact ⟨seed, s, rfl⟩

private theorem foldShuffles_perm (shuf : Nat → List Nat → List Nat) (hs : ∀ n l, (shuf n l).Perm l) (sd : Nat) :
    ∀ (is : List Nat) (s : Nat → Nat), ∃ l s', foldShuffles shuf sd is s = (l, s') ∧
      ∀ p ∈ l, (∀ x, (p.1 x).Perm x) ∧ ∀ x, (p.2 x).Perm x
  | [], s => ⟨[], s, rfl, by simp⟩
  | i :: is, s => by
    obtain ⟨a, s1, h1⟩ := shuffleBy_perm shuf hs (addSize sd i) s
    obtain ⟨b, s2, h2⟩ := shuffleBy_perm shuf hs (addSize sd i) s1
    obtain ⟨l, s3, h3, h4⟩ := foldShuffles_perm shuf hs sd is s2
    refine ⟨(shuf a, shuf b) :: l, s3, ?_, ?_⟩
    · show (let r := shuffleBy shuf (addSize sd i) s; let r2 := shuffleBy shuf (addSize sd i) r.2
            let r3 := foldShuffles shuf sd is r2.2; ((r.1, r2.1) :: r3.1, r3.2)) = _
      simp only [h1, h2, h3]
    · intro p hp
      rcases List.mem_cons.1 hp with rfl | hp
      · exact ⟨hs a, hs b⟩
      · exact h4 p hp

private theorem seeded_eq (shuf : Nat → List Nat → List Nat) (hs : ∀ n l, (shuf n l).Perm l) (m : Mem T) (d : Data) (k : Nat)
    (stratified keep : Bool) (seed : Nat) (s : Nat → Nat) :
    ∃ σ σ1 σ2 s', kfoldsplitSeeded shuf m d k stratified keep seed s = (kfoldsplit m d k stratified keep σ σ1 σ2, s') ∧
      (∀ l, (σ l).Perm l) ∧ (∀ i l, (σ1 i l).Perm l) ∧ ∀ i l, (σ2 i l).Perm l := by
  set r0 := seedOr seed s with hr0
  set r1 := seedOr seed r0.2 with hr1
  obtain ⟨a, s1, h1⟩ := shuffleBy_perm shuf hs r1.1 r1.2
  obtain ⟨l, s2, h2, h3⟩ := foldShuffles_perm shuf hs r0.1 (List.range k) s1
  have hp : ∀ i, (∀ x, ((l.getD i (id, id)).1 x).Perm x) ∧ ∀ x, ((l.getD i (id, id)).2 x).Perm x := by
    intro i
    by_cases hi : i < l.length
    · rw [List.getD_eq_getElem?_getD, List.getElem?_eq_getElem hi]
      exact h3 _ (List.getElem_mem hi)
    · rw [List.getD_eq_getElem?_getD, List.getElem?_eq_none (by omega)]
      exact ⟨fun x => List.Perm.refl _, fun x => List.Perm.refl _⟩
  refine ⟨shuf a, fun i => (l.getD i (id, id)).1, fun i => (l.getD i (id, id)).2, s2, ?_, hs a, fun i => (hp i).1,
    fun i => (hp i).2⟩
  show (let r := shuffleBy shuf r1.1 r1.2; let r2 := foldShuffles shuf r0.1 (List.range k) r.2
        (kfoldsplit m d k stratified keep r.1 (fun i => (r2.1.getD i (id, id)).1) (fun i => (r2.1.getD i (id, id)).2), r2.2)) = _
  simp only [h1, h2]

/-- What the executions from number `e0` on leave. -/
private structure Runs (m : Mem T) (d : Data) (k e0 n : Nat) (keep : Bool) (m' : Mem T) (prs : List TrainTest) : Prop where
  ext : ∃ e, m' = m ++ e
  order : prs.map (fun pr => (pr.execution, pr.fold)) =
    (List.range' e0 n).flatMap (fun e => (List.range k).map (fun i => (e + 1, i + 1)))
  pair : ∀ pr ∈ prs, ((samples m' pr.train ++ samples m' pr.test).map content).Perm ((samples m d).map content) ∧
    (keep = true → (samples m' pr.train ++ samples m' pr.test).Perm (samples m d))
  tests : ∀ e, e0 ≤ e → e < e0 + n →
    (((ofExecution (e + 1) prs).flatMap (fun pr => samples m' pr.test)).map content).Perm ((samples m d).map content) ∧
    (keep = true → ((ofExecution (e + 1) prs).flatMap (fun pr => samples m' pr.test)).Perm (samples m d))
  disjoint : ∀ pr ∈ prs, ∀ r ∈ pr.train.points, r ∉ pr.test.points
  fresh : ∀ pr ∈ prs, ∀ r ∈ pr.train.points ++ pr.test.points, m.length ≤ r
  apart : ∀ pr ∈ prs, ∀ pr' ∈ prs, pr.execution ≠ pr'.execution →
    ∀ r ∈ pr.train.points ++ pr.test.points, r ∉ pr'.train.points ++ pr'.test.points
  consistent : ∀ pr ∈ prs, Consistent m' pr.train ∧ Consistent m' pr.test

private theorem execution_mem {prs : List TrainTest} {k e0 n : Nat} (h : prs.map (fun pr => (pr.execution, pr.fold)) =
    (List.range' e0 n).flatMap (fun e => (List.range k).map (fun i => (e + 1, i + 1)))) {pr : TrainTest} (hp : pr ∈ prs) :
    e0 < pr.execution ∧ pr.execution ≤ e0 + n := by
  have : (pr.execution, pr.fold) ∈ prs.map (fun pr => (pr.execution, pr.fold)) := List.mem_map.2 ⟨pr, hp, rfl⟩
  rw [h] at this
  simp at this
  obtain ⟨e, h1, _, _, h2, _⟩ := this
  omega

private theorem samples_ext {m : Mem T} {d : Data} (h : Consistent m d) (e : List (Pt T)) :
    samples (m ++ e) d = samples m d := by
  rw [samples_eq_pts, h.livePts.pts_append_mem]; rfl

private theorem runs_ok (shuf : Nat → List Nat → List Nat) (hs : ∀ n l, (shuf n l).Perm l) (d : Data) (k : Nat) (hk : 3 ≤ k)
    (hidx : d.size ≤ d.index.length) (stratified keep : Bool) (hst : stratified = true ∨ k ∣ d.size) (seed sd : Nat) :
    ∀ (n e0 : Nat) (m : Mem T) (s : Nat → Nat), Consistent m d →
      ∃ m' prs s', kfoldsplitRuns shuf d k stratified keep seed sd m (List.range' e0 n) s = (.ok (m', prs), s') ∧
        Runs m d k e0 n keep m' prs
  | 0, e0, m, s, h => ⟨m, [], s, rfl, ⟨[], by simp⟩, by simp, by simp, fun e h1 h2 => by omega, by simp, by simp, by simp,
      by simp⟩
  | n + 1, e0, m, s, h => by
    obtain ⟨other, s0, h0⟩ : ∃ other s0, (if seed = 0 then draw else pure (addSize sd e0) : Draw Nat) s = (other, s0) :=
      ⟨_, _, rfl⟩
    obtain ⟨σ, σ1, σ2, s1, e1, p1, p2, p3⟩ := seeded_eq shuf hs m d k stratified keep other s0
    obtain ⟨m1, prs1, f1, f2, f3, f4, f5, f6, f7, ⟨ex, f8⟩, f9⟩ := kfoldsplit_ext h hidx hk stratified keep hst p1 p2 p3
    rw [f1] at e1
    have hc1 : Consistent m1 d := by rw [f8]; exact consistent_alloc h ex
    obtain ⟨m2, rest, s2, e2, g⟩ := runs_ok shuf hs d k hk hidx stratified keep hst seed sd n (e0 + 1) m1 s1 hc1
    obtain ⟨ex2, g8⟩ := g.ext
    let tag : TrainTest → TrainTest := fun pr => { pr with execution := e0 + 1 }
    have hrun : kfoldsplitRuns shuf d k stratified keep seed sd m (List.range' e0 (n + 1)) s =
        (.ok (m2, prs1.map tag ++ rest), s2) := by
      show (let r0 := (if seed = 0 then draw else pure (addSize sd e0) : Draw Nat) s
            let r1 := kfoldsplitSeeded shuf m d k stratified keep r0.1 r0.2
            (match r1.1 with
              | .error e => (pure (.error e) : Draw (Res (Mem T × List TrainTest)))
              | .ok (m, prs) => do
                let r' ← kfoldsplitRuns shuf d k stratified keep seed sd m (List.range' (e0 + 1) n)
                match r' with
                | .error e => pure (.error e)
                | .ok (m, rest) => pure (.ok (m, prs.map tag ++ rest))) r1.2) = _
      simp only [h0, e1]
      show (let r' := kfoldsplitRuns shuf d k stratified keep seed sd m1 (List.range' (e0 + 1) n) s1
            (match r'.1 with
              | .error e => (pure (.error e) : Draw (Res (Mem T × List TrainTest)))
              | .ok (m, rest) => pure (.ok (m, prs1.map tag ++ rest))) r'.2) = _
      simp only [e2]
      rfl
    have hsd : samples m1 d = samples m d := f7
    have ht1 : ∀ pr ∈ prs1, samples m2 pr.train = samples m1 pr.train ∧ samples m2 pr.test = samples m1 pr.test := by
      intro pr hp
      rw [g8]
      exact ⟨samples_ext (f3 pr hp).2.2.1 _, samples_ext (f3 pr hp).2.2.2.1 _⟩
    have hlive : ∀ pr ∈ prs1, ∀ r ∈ pr.train.points ++ pr.test.points, r < m1.length := by
      intro pr hp r hr
      rcases List.mem_append.1 hr with hr | hr
      · exact (f3 pr hp).2.2.1.livePts.lt hr
      · exact (f3 pr hp).2.2.2.1.livePts.lt hr
    have hrest : ∀ pr ∈ rest, e0 + 1 < pr.execution := fun pr hp => (execution_mem g.order hp).1
    refine ⟨m2, prs1.map tag ++ rest, s2, hrun, ⟨⟨ex ++ ex2, by rw [g8, f8, List.append_assoc]⟩, ?_, ?_, ?_, ?_, ?_, ?_, ?_⟩⟩
    · rw [List.map_append, g.order, List.range'_succ, List.flatMap_cons]
      congr 1
      have : (prs1.map tag).map (fun pr => (pr.execution, pr.fold)) = (prs1.map TrainTest.fold).map (fun f => (e0 + 1, f)) := by
        simp [tag]
      rw [this, f6]; simp
    · intro pr hp
      rcases List.mem_append.1 hp with hp | hp
      · obtain ⟨q, hq, rfl⟩ := List.mem_map.1 hp
        show ((samples m2 q.train ++ samples m2 q.test).map content).Perm _ ∧ (_ → (samples m2 q.train ++ samples m2 q.test).Perm _)
        rw [(ht1 q hq).1, (ht1 q hq).2]
        exact ⟨(f3 q hq).1, (f3 q hq).2.1⟩
      · rw [← hsd]; exact g.pair pr hp
    · intro e he1 he2
      have hsplit : ofExecution (e + 1) (prs1.map tag ++ rest) =
          (if e = e0 then prs1.map tag else []) ++ ofExecution (e + 1) rest := by
        unfold ofExecution
        rw [List.filter_append]
        congr 1
        split
        · rename_i h; subst h
          exact List.filter_eq_self.2 (fun pr hp => by obtain ⟨q, _, rfl⟩ := List.mem_map.1 hp; simp [tag])
        · rename_i h
          exact List.filter_eq_nil_iff.2 (fun pr hp => by
            obtain ⟨q, _, rfl⟩ := List.mem_map.1 hp; simp [tag]; omega)
      rw [hsplit]
      by_cases hee : e = e0
      · have hnil : ofExecution (e + 1) rest = [] :=
          List.filter_eq_nil_iff.2 (fun pr hp => by have := hrest pr hp; simp; omega)
        have heq : (prs1.map tag).flatMap (fun pr => samples m2 pr.test) = prs1.flatMap (fun pr => samples m1 pr.test) := by
          rw [List.flatMap_map]
          exact List.flatMap_congr (fun pr hp => (ht1 pr hp).2)
        rw [if_pos hee, hnil, List.append_nil, heq]
        exact ⟨f4, f5⟩
      · rw [if_neg hee, List.nil_append, ← hsd]
        exact g.tests e (by omega) (by omega)
    · intro pr hp
      rcases List.mem_append.1 hp with hp | hp
      · obtain ⟨q, hq, rfl⟩ := List.mem_map.1 hp
        exact (f3 q hq).2.2.2.2
      · exact g.disjoint pr hp
    · intro pr hp r hr
      rcases List.mem_append.1 hp with hp | hp
      · obtain ⟨q, hq, rfl⟩ := List.mem_map.1 hp
        exact f9 q hq r hr
      · have := g.fresh pr hp r hr
        rw [f8] at this; simp at this; omega
    · intro pr hp pr' hp' hne r hr hr'
      rcases List.mem_append.1 hp with hp | hp <;> rcases List.mem_append.1 hp' with hp' | hp'
      · obtain ⟨q, _, rfl⟩ := List.mem_map.1 hp
        obtain ⟨q', _, rfl⟩ := List.mem_map.1 hp'
        exact hne rfl
      · obtain ⟨q, hq, rfl⟩ := List.mem_map.1 hp
        have h1 := hlive q hq r hr
        have h2 := g.fresh pr' hp' r hr'
        omega
      · obtain ⟨q, hq, rfl⟩ := List.mem_map.1 hp'
        have h1 := hlive q hq r hr'
        have h2 := g.fresh pr hp r hr
        omega
      · exact g.apart pr hp pr' hp' hne r hr hr'
    · intro pr hp
      rcases List.mem_append.1 hp with hp | hp
      · obtain ⟨q, hq, rfl⟩ := List.mem_map.1 hp
        have := f3 q hq
        rw [g8]
        exact ⟨consistent_alloc this.2.2.1 _, consistent_alloc this.2.2.2.1 _⟩
      · exact g.consistent pr hp

/-- **C160 (partial)** For at least three folds, in stratified mode or when the number of folds divides the size, whatever
the seed and the random device: the repeated `kfoldsplit` gives the pairs of `qtde` cross-validations of the dataset,
one after the other and numbered, which share no sample objects.  Missing: one or two folds, and plain mode with a
remainder, where already one execution is wrong (`C11_two_folds_refuted`, `C11_one_fold_diverges`,
`C11_plain_remainder_refuted`). -/
theorem C160_repeated_partial (shuf : Nat → List Nat → List Nat) (hs : ∀ n l, (shuf n l).Perm l) (m : Mem T) (d : Data)
    (h : Consistent m d) (hidx : d.size ≤ d.index.length) (k qtde : Nat) (hk : 3 ≤ k) (stratified keep : Bool)
    (hst : stratified = true ∨ k ∣ d.size) (seed : Nat) (s : Nat → Nat) :
    ∃ m' prs s', kfoldsplitMany shuf m d k qtde stratified keep seed s = (.ok (m', prs), s') ∧
      RepeatedFolds m d k qtde m' prs ∧
      (keep = true → (∀ pr ∈ prs, (samples m' pr.train ++ samples m' pr.test).Perm (samples m d)) ∧
        ∀ e, e < qtde → ((ofExecution (e + 1) prs).flatMap (fun pr => samples m' pr.test)).Perm (samples m d)) := by
  obtain ⟨m', prs, s', e, g⟩ := runs_ok shuf hs d k hk hidx stratified keep hst seed (seedOr seed s).1 qtde 0 m
    (seedOr seed s).2 h
  obtain ⟨ex, g8⟩ := g.ext
  refine ⟨m', prs, s', ?_, ⟨?_, fun pr hp => (g.pair pr hp).1, fun e he => (g.tests e (Nat.zero_le _) (by omega)).1,
    g.disjoint, g.apart, g.consistent, by rw [g8]; exact samples_ext h ex⟩,
    fun hkp => ⟨fun pr hp => (g.pair pr hp).2 hkp, fun e he => (g.tests e (Nat.zero_le _) (by omega)).2 hkp⟩⟩
  · rw [← e, ← List.range_eq_range']; rfl
  · rw [g.order, ← List.range_eq_range']

example : Consistent demoMem demoData ∧ demoData.size ≤ demoData.index.length := ⟨demo_consistent, by decide⟩

/-! ## C161 -/

private theorem rep_pure {α : Type} (a : α) : Reproducible (pure a) := ⟨a, fun _ => rfl⟩

private theorem rep_bind {α β : Type} {x : Draw α} {f : α → Draw β} (hx : Reproducible x) (hf : ∀ a, Reproducible (f a)) :
    Reproducible (x >>= f) := by
  obtain ⟨a, ha⟩ := hx
  obtain ⟨b, hb⟩ := hf a
  refine ⟨b, fun s => ?_⟩
  show f (x s).1 (x s).2 = _
  rw [ha s, hb s]

private theorem seedOr_pure {n : Nat} (h : n ≠ 0) : seedOr n = pure n := by rw [seedOr, if_neg h]

private theorem rep_shuffleBy (shuf : Nat → List Nat → List Nat) {n : Nat} (h : n ≠ 0) : Reproducible (shuffleBy shuf n) := by
  unfold shuffleBy
  rw [seedOr_pure h]
  exact rep_bind (rep_pure _) (fun _ => rep_pure _)

private theorem rep_splitBy (shuf : Nat → List Nat → List Nat) {n : Nat} (h : n ≠ 0) : Reproducible (splitBy shuf n) := by
  unfold splitBy
  rw [seedOr_pure h, pure_bind]
  exact rep_shuffleBy shuf h

private theorem rep_foldShuffles (shuf : Nat → List Nat → List Nat) (n : Nat) :
    ∀ is : List Nat, (∀ i ∈ is, addSize n i ≠ 0) → Reproducible (foldShuffles shuf n is)
  | [], _ => rep_pure _
  | i :: is, h => rep_bind (rep_shuffleBy shuf (h i (by simp))) fun _ =>
      rep_bind (rep_shuffleBy shuf (h i (by simp))) fun _ =>
        rep_bind (rep_foldShuffles shuf n is (fun j hj => h j (by simp [hj]))) fun _ => rep_pure _

private theorem addSize_ne {n i : Nat} (h : n ≠ 0) (hl : n + i < 2 ^ 64) : addSize n i ≠ 0 := by
  rw [addSize, Nat.mod_eq_of_lt hl]; omega

private theorem rep_kfoldsplit (shuf : Nat → List Nat → List Nat) (m : Mem T) (d : Data) (k : Nat) (stratified keep : Bool)
    (n : Nat) (h : n ≠ 0) (hl : n + k ≤ 2 ^ 64) : Reproducible (kfoldsplitSeeded shuf m d k stratified keep n) := by
  unfold kfoldsplitSeeded
  rw [seedOr_pure h, pure_bind]
  exact rep_bind (rep_splitBy shuf h) fun _ => rep_bind (rep_foldShuffles shuf n _ (fun i hi =>
    addSize_ne h (by have := List.mem_range.1 hi; omega))) fun _ => rep_pure _

private theorem rep_runs (shuf : Nat → List Nat → List Nat) (d : Data) (k : Nat) (stratified keep : Bool)
    (n q : Nat) (h : n ≠ 0) (hl : n + q + k ≤ 2 ^ 64) :
    ∀ (is : List Nat) (m : Mem T), (∀ i ∈ is, i < q) → Reproducible (kfoldsplitRuns shuf d k stratified keep n n m is)
  | [], m, _ => rep_pure _
  | i :: is, m, hi => by
    have hq := hi i (by simp)
    unfold kfoldsplitRuns
    rw [if_neg h, pure_bind]
    refine rep_bind (rep_kfoldsplit shuf m d k stratified keep _ (addSize_ne h (by omega)) ?_) fun r => ?_
    · rw [addSize, Nat.mod_eq_of_lt (by omega)]; omega
    · cases r with
      | error e => exact rep_pure _
      | ok mp =>
        obtain ⟨m1, prs⟩ := mp
        refine rep_bind (rep_runs shuf d k stratified keep n q h hl is m1 (fun j hj => hi j (by simp [hj]))) fun r' => ?_
        cases r' with
        | error e => exact rep_pure _
        | ok mp' => exact rep_pure _

private theorem rep_kfold (shuf : Nat → List Nat → List Nat) (m : Mem T) (d : Data) (k : Nat) (stratified : Bool)
    (n : Nat) (h : n ≠ 0) (hl : n + k ≤ 2 ^ 64) : Reproducible (kfoldSeeded shuf m d k stratified n) := by
  unfold kfoldSeeded
  rw [seedOr_pure h, pure_bind]
  refine rep_bind (rep_shuffleBy shuf h) fun σ => ?_
  cases shuffle d σ with
  | error e => exact rep_pure _
  | ok d' =>
    refine rep_bind (rep_kfoldsplit shuf m d' k stratified true n h hl) fun r => ?_
    cases r with
    | error e => exact rep_pure _
    | ok mp => exact rep_pure _

private theorem rep_kkruns (shuf : Nat → List Nat → List Nat) (d : Data) (k : Nat) (stratified : Bool)
    (n q : Nat) (h : n ≠ 0) (hl : n + q + k ≤ 2 ^ 64) :
    ∀ (is : List Nat) (m : Mem T), (∀ i ∈ is, i < q) → Reproducible (kkfoldRuns shuf d k stratified n m is)
  | [], m, _ => rep_pure _
  | i :: is, m, hi => by
    have hq := hi i (by simp)
    unfold kkfoldRuns
    refine rep_bind (rep_kfold shuf m d k stratified _ (addSize_ne h (by omega)) ?_) fun r => ?_
    · rw [addSize, Nat.mod_eq_of_lt (by omega)]; omega
    · cases r with
      | error e => exact rep_pure _
      | ok mp =>
        obtain ⟨m1, run⟩ := mp
        refine rep_bind (rep_kkruns shuf d k stratified n q h hl is m1 (fun j hj => hi j (by simp [hj]))) fun r' => ?_
        cases r' with
        | error e => exact rep_pure _
        | ok mp' => exact rep_pure _

private theorem rep_part (shuf : Nat → List Nat → List Nat) (m : Mem T) (d : Data) (k : Nat) (stratified keep : Bool)
    (n : Nat) (h : n ≠ 0) : Reproducible (partTrainTestSeeded shuf m d k stratified keep n) := by
  unfold partTrainTestSeeded
  rw [seedOr_pure h, pure_bind]
  exact rep_bind (rep_splitBy shuf h) fun _ => rep_bind (rep_shuffleBy shuf h) fun _ =>
    rep_bind (rep_shuffleBy shuf h) fun _ => rep_pure _

/-- **C161 (partial)** With a seed other than zero, every split, the splits of every cross-validation and the seeds these
hand to the classifier are functions of the data, the numbers of folds and executions and the seed: the random device
is never asked — as long as the seed and these numbers together stay within 64 bits. -/
theorem C161_reproducible_partial (shuf : Nat → List Nat → List Nat) (m : Mem T) (d : Data) (k qtde : Nat)
    (stratified keep : Bool) (seed : Nat) (h : seed ≠ 0) (hl : seed + qtde + k ≤ 2 ^ 64) :
    Reproducible (partTrainTestSeeded shuf m d k stratified keep seed) ∧
    Reproducible (kfoldsplitSeeded shuf m d k stratified keep seed) ∧
    Reproducible (kfoldsplitMany shuf m d k qtde stratified keep seed) ∧
    Reproducible (kfoldSeeded shuf m d k stratified seed) ∧
    Reproducible (kkfoldSeeded shuf m d qtde k stratified seed) := by
  refine ⟨rep_part shuf m d k stratified keep seed h, rep_kfoldsplit shuf m d k stratified keep seed h (by omega), ?_,
    rep_kfold shuf m d k stratified seed h (by omega), ?_⟩
  · unfold kfoldsplitMany
    rw [seedOr_pure h, pure_bind]
    exact rep_runs shuf d k stratified keep seed qtde h hl _ m (fun i hi => List.mem_range.1 hi)
  · unfold kkfoldSeeded
    rw [seedOr_pure h, pure_bind]
    refine rep_bind (rep_part shuf m d k true true seed h) fun r => ?_
    cases r with
    | error e => exact rep_pure _
    | ok mp =>
      obtain ⟨m1, pr⟩ := mp
      refine rep_bind (rep_kkruns shuf d k stratified seed qtde h hl _ m1 (fun i hi => List.mem_range.1 hi)) fun r' => ?_
      cases r' with
      | error e => exact rep_pure _
      | ok mp' => exact rep_pure _

example : (42 : Nat) ≠ 0 ∧ 42 + 10 + 5 ≤ 2 ^ 64 := by norm_num

/-- A shuffle that turns the vector around for odd seeds. -/
def turnAround (n : Nat) (l : List Nat) : List Nat := if n % 2 = 0 then l else l.reverse

/-- **C161 refuted** for seeds close to `2^64`: seed and fold number wrap around to zero, which stands for the random device,
and two calls with the same arguments give different training sets. -/
theorem C161_wrap_refuted :
    ∃ a b, idsOfPairs (kfoldsplitSeeded turnAround demoMem demoData 3 true true (2 ^ 64 - 1) (fun _ => 1)).1 = some a ∧
      idsOfPairs (kfoldsplitSeeded turnAround demoMem demoData 3 true true (2 ^ 64 - 1) (fun _ => 2)).1 = some b ∧ a ≠ b :=
  ⟨[([3, 2], [1]), ([1, 3], [2]), ([2, 1], [3])], [([3, 2], [1]), ([3, 1], [2]), ([2, 1], [3])], by decide +kernel,
    by decide +kernel, by decide⟩

/-- **C161 refuted** for the seed zero, which every one of these functions takes by default. -/
theorem C161_zero_refuted :
    ∃ a b, idsOfPairs (kfoldsplitSeeded turnAround demoMem demoData 3 true true 0 (fun _ => 1)).1 = some a ∧
      idsOfPairs (kfoldsplitSeeded turnAround demoMem demoData 3 true true 0 (fun _ => 2)).1 = some b ∧ a ≠ b :=
  ⟨[([3, 2], [1]), ([3, 1], [2]), ([2, 1], [3])], [([2, 1], [3]), ([3, 1], [2]), ([3, 2], [1])], by decide +kernel,
    by decide +kernel, by decide⟩

end MLTK.Props
