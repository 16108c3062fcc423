import Verif.Spec.Ensemble
import Verif.Lemmas.AosRun
import Verif.Props.Split
import Verif.Lemmas.Perceptron
/-!
# Ensembles and what they share (C166-C168)
-/
namespace MLTK.Props
open MLTK.Ens MLTK.Spec
open MLTK.Data (Res_bind_ok Res_bind_error Res_pure)
variable {D M X K : Type}

private theorem vset_lt {α : Type} {l : List α} {i : Nat} {a : α} (h : i < l.length) : vset l i a = .ok (l.set i a) := by
  simp [vset, h]

/-- What training one member leaves. -/
theorem trainMember_spec {v : Voter K} {w w' : World D M X} {i p : Nat} {d : D} (hp : v.data = some p)
    (hd : w.sets[p]? = some d) (hq : ∀ c, w.cells[i]? = some c → Quiet c.kind) (h : trainMember v w i = .ok w') :
    w'.sets = w.sets ∧ ∃ c m, w.cells[i]? = some c ∧ c.kind.fit v.seed c.model d = .ok (m, d) ∧
      w'.cells = w.cells.set i { c with data := some p, seed := v.seed, model := m } := by
  unfold trainMember at h
  obtain ⟨c, hc, h1⟩ := Aos.bind_inv h
  rw [hp] at h1
  obtain ⟨d0, hd0, h2⟩ := Aos.bind_inv h1
  obtain ⟨⟨m, d1⟩, hf, h3⟩ := Aos.bind_inv h2
  obtain ⟨sets, hs, h4⟩ := Aos.bind_inv h3
  obtain ⟨cells, hcs, h5⟩ := Aos.bind_inv h4
  have hc' := vget_eq_ok.1 hc
  have hd0' := vget_eq_ok.1 hd0
  rw [hd] at hd0'
  cases hd0'
  have : d1 = d := hq c hc' _ _ _ _ _ hf
  subst this
  simp only [Res_pure, Except.ok.injEq] at h5
  subst h5
  have hi : i < w.cells.length := by
    rcases Nat.lt_or_ge i w.cells.length with h | h
    · exact h
    · rw [List.getElem?_eq_none h] at hc'; cases hc'
  have hpl : p < w.sets.length := by
    rcases Nat.lt_or_ge p w.sets.length with h | h
    · exact h
    · rw [List.getElem?_eq_none h] at hd; cases hd
  rw [vset_lt hpl, Except.ok.injEq] at hs
  rw [vset_lt hi, Except.ok.injEq] at hcs
  refine ⟨?_, c, m, hc', hf, hcs.symm⟩
  show sets = w.sets
  rw [← hs]
  apply List.ext_getElem?
  intro n
  rw [List.getElem?_set]
  split
  · rename_i e; subst e; exact hd.symm
  · rfl

/-- What training the members `ms` leaves. -/
theorem trainList_spec {v : Voter K} {p : Nat} {d : D} (hp : v.data = some p) :
    ∀ (ms : List Nat) (w w' : World D M X), ms.Nodup → w.sets[p]? = some d →
      (∀ i ∈ ms, ∀ c, w.cells[i]? = some c → Quiet c.kind) → ms.foldlM (trainMember v) w = .ok w' →
      w'.sets = w.sets ∧ (∀ j, j ∉ ms → w'.cells[j]? = w.cells[j]?) ∧
      ∀ i ∈ ms, ∃ c m, w.cells[i]? = some c ∧ c.kind.fit v.seed c.model d = .ok (m, d) ∧
        w'.cells[i]? = some { c with data := some p, seed := v.seed, model := m }
  | [], w, w', _, _, _, h => by
    simp only [List.foldlM_nil, Res_pure, Except.ok.injEq] at h
    subst h
    exact ⟨rfl, fun _ _ => rfl, fun i hi => absurd hi (by simp)⟩
  | k :: ms, w, w', hn, hd, hq, h => by
    rw [List.foldlM_cons] at h
    obtain ⟨w1, h1, h⟩ := Aos.bind_inv h
    obtain ⟨hs1, c, m, hc, hf, hcs⟩ := trainMember_spec hp hd (hq k (by simp)) h1
    rw [List.nodup_cons] at hn
    have hk : k < w.cells.length := by
      rcases Nat.lt_or_ge k w.cells.length with h | h
      · exact h
      · rw [List.getElem?_eq_none h] at hc; cases hc
    have hother : ∀ j, j ≠ k → w1.cells[j]? = w.cells[j]? := by
      intro j hj
      rw [hcs, List.getElem?_set_ne (Ne.symm hj)]
    obtain ⟨hs2, ho2, hm2⟩ := trainList_spec hp ms w1 w' hn.2 (by rw [hs1]; exact hd)
      (by
        intro i hi c' hc'
        have : i ≠ k := fun e => hn.1 (e ▸ hi)
        rw [hother i this] at hc'
        exact hq i (by simp [hi]) c' hc') h
    refine ⟨hs2.trans hs1, ?_, ?_⟩
    · intro j hj
      simp only [List.mem_cons, not_or] at hj
      rw [ho2 j hj.2, hother j hj.1]
    · intro i hi
      rcases List.mem_cons.1 hi with rfl | hi
      · refine ⟨c, m, hc, hf, ?_⟩
        rw [ho2 i hn.1, hcs, List.getElem?_set_self hk]
      · obtain ⟨c', m', hc', hf', hw'⟩ := hm2 i hi
        have : i ≠ k := fun e => hn.1 (e ▸ hi)
        rw [hother i this] at hc'
        exact ⟨c', m', hc', hf', hw'⟩

theorem mapM_congr {α β : Type} (f g : α → Res β) : ∀ l : List α, (∀ a ∈ l, f a = g a) → l.mapM f = l.mapM g
  | [], _ => rfl
  | a :: l, h => by
    rw [List.mapM_cons, List.mapM_cons, h a (by simp), mapM_congr f g l (fun b hb => h b (by simp [hb]))]

/-- C166.  When no member's training changes the dataset, every member of a trained ensemble answers what it would answer
had it been trained by itself on the samples of the ensemble, with the seed of the ensemble, whatever samples and seeds
the members had before; the dataset is left as it was.  (The full claim has no condition on the members; see
`C166_shared_refuted`.) -/
theorem C166_alone_partial (w w' : World D M X) (v : Voter K) (p : Nat) (d : D) (hn : v.members.Nodup)
    (hp : v.data = some p) (hd : w.sets[p]? = some d) (hq : AllMembers Quiet w v) (h : train w v = .ok w') :
    w'.sets = w.sets ∧ ∀ x, answers w' v x = asAlone w v d x := by
  obtain ⟨hs, _, hm⟩ := trainList_spec hp v.members w w' hn hd hq h
  refine ⟨hs, fun x => mapM_congr _ _ _ (fun i hi => ?_)⟩
  obtain ⟨c, m, hc, hf, hw⟩ := hm i hi
  unfold answer alone
  rw [vget_eq_ok.2 hw, vget_eq_ok.2 hc, Res_bind_ok, Res_bind_ok, hf, Res_bind_ok]
  show (vget w'.sets p >>= fun d => c.kind.ans m d x) = _
  rw [hs, vget_eq_ok.2 hd, Res_bind_ok]

/-- C166.  The samples that count are those the ensemble was given last, by either `setSamples`. -/
theorem C166_last_samples_partial (w : World D M X) (v : Voter K) (d : D) (hn : v.members.Nodup)
    (hq : AllMembers Quiet w v) :
    (∀ w', train (setSamplesRef w v d).1 (setSamplesRef w v d).2 = .ok w' →
      ∀ x, answers w' (setSamplesRef w v d).2 x = asAlone w v d x) ∧
    (∀ p w1 v1 w', w.sets[p]? = some d → setSamplesPtr w v p = .ok (w1, v1) → train w1 v1 = .ok w' →
      ∀ x, answers w' v1 x = asAlone w v d x) := by
  constructor
  · intro w' h x
    have := (C166_alone_partial (setSamplesRef w v d).1 w' (setSamplesRef w v d).2 w.sets.length d hn rfl
      (by simp [setSamplesRef]) hq h).2 x
    exact this
  · intro p w1 v1 w' hd h1 h x
    unfold setSamplesPtr at h1
    obtain ⟨cells, hc, h1⟩ := Aos.bind_inv h1
    simp only [Res_pure, Except.ok.injEq, Prod.mk.injEq] at h1
    obtain ⟨rfl, rfl⟩ := h1
    -- the pointers change, the classes and what was learnt do not
    have key : ∀ (ms : List Nat) (cs cs' : List (Cell D M X)), ms.foldlM (fun cs i => do
        let c ← vget cs i
        vset cs i { c with data := some p }) cs = .ok cs' →
        ∀ i : Nat, (∀ c : Cell D M X, cs[i]? = some c → ∃ c' : Cell D M X, cs'[i]? = some c' ∧ c'.kind = c.kind ∧ c'.model = c.model) ∧
          (cs[i]? = none → cs'[i]? = none) := by
      intro ms
      induction ms with
      | nil =>
        intro cs cs' h i
        simp only [List.foldlM_nil, Res_pure, Except.ok.injEq] at h
        subst h
        exact ⟨fun c hc => ⟨c, hc, rfl, rfl⟩, id⟩
      | cons k ms ih =>
        intro cs cs' h i
        rw [List.foldlM_cons] at h
        obtain ⟨cs1, h1, h⟩ := Aos.bind_inv h
        obtain ⟨c0, hc0, h1⟩ := Aos.bind_inv h1
        have hk : k < cs.length := by
          have := vget_eq_ok.1 hc0
          rcases Nat.lt_or_ge k cs.length with h | h
          · exact h
          · rw [List.getElem?_eq_none h] at this; cases this
        rw [vset_lt hk, Except.ok.injEq] at h1
        have hi := ih cs1 cs' h i
        constructor
        · intro c hc
          by_cases e : k = i
          · subst e
            rw [vget_eq_ok.1 hc0] at hc
            cases hc
            obtain ⟨c', h', hk', hm'⟩ := hi.1 { c0 with data := some p } (by rw [← h1, List.getElem?_set_self hk])
            exact ⟨c', h', hk', hm'⟩
          · exact hi.1 c (by rw [← h1, List.getElem?_set_ne e]; exact hc)
        · intro hc
          apply hi.2
          rw [← h1]
          have hl : cs.length ≤ i := List.getElem?_eq_none_iff.1 hc
          exact List.getElem?_eq_none_iff.2 (by simpa using hl)
    have key := key v.members w.cells cells hc
    have hq1 : AllMembers Quiet (⟨w.sets, cells⟩ : World D M X) ({ v with data := some p } : Voter K) := by
      intro i hi c hc
      cases hci : w.cells[i]? with
      | none =>
        have := (key i).2 hci
        rw [show (⟨w.sets, cells⟩ : World D M X).cells = cells from rfl, this] at hc
        cases hc
      | some c0 =>
        obtain ⟨c', h', hk', _⟩ := (key i).1 c0 hci
        rw [show (⟨w.sets, cells⟩ : World D M X).cells = cells from rfl, h'] at hc
        cases hc
        rw [hk']
        exact hq i hi c0 hci
    rw [(C166_alone_partial (⟨w.sets, cells⟩ : World D M X) w' ({ v with data := some p } : Voter K) p d hn rfl hd hq1 h).2 x]
    unfold asAlone
    refine mapM_congr _ _ _ (fun i hi => ?_)
    cases hci : w.cells[i]? with
    | none =>
      have h2 := (key i).2 hci
      have e1 : vget cells i = .error .outOfBounds := by unfold vget; rw [h2]
      have e2 : vget w.cells i = .error .outOfBounds := by unfold vget; rw [hci]
      show (vget cells i >>= _) = _
      rw [e1, e2]
    | some c0 =>
      obtain ⟨c', h', hk', hm'⟩ := (key i).1 c0 hci
      show (vget cells i >>= _) = _
      rw [vget_eq_ok.2 h', vget_eq_ok.2 hci, Res_bind_ok, Res_bind_ok, hk', hm']

/-! ### A dataset shared with a learner that rearranges it -/

private def side : Life.DS ℚ := { dim := 1, samples := [⟨[3], 1⟩, ⟨[-1], -1⟩], index := [0, 1] }

private def lib : Perc.Libm ℚ := ⟨fun x => x, fun x _ => x⟩

private def dual : Cell (Life.DS ℚ) (Model ℚ) (List ℚ) :=
  { kind := dualKind lib (fun _ => true), data := none, seed := 0,
    model := .dual { Life.Dual.new with cls := { Life.Classifier.new with
      base := { Life.Learner.new with maxIt := 10, maxUp := 10 } } } }

private def balanced : Cell (Life.DS ℚ) (Model ℚ) (List ℚ) :=
  { kind := balancedKind ⟨1, 5, 100, 1000⟩ (fun _ => false) (fun _ n => List.replicate n 1) (fun _ l => l.reverse),
    data := none, seed := 0, model := .balanced [] 0 }

private def three : World (Life.DS ℚ) (Model ℚ) (List ℚ) × Voter ℚ :=
  newVoter ⟨[], []⟩ side "hard" [dual, dual, balanced]

/-- C166 in full is refuted: three learners that by themselves classify the training sample `-1` as it is labelled answer, as
an ensemble, the other class, because the last of them shuffles the dataset the first two refer to by position. -/
theorem C166_shared_refuted : ∃ (d : Life.DS ℚ) (ls : List (Cell (Life.DS ℚ) (Model ℚ) (List ℚ)))
    (w : World (Life.DS ℚ) (Model ℚ) (List ℚ)) (v : Voter ℚ) (w' : World (Life.DS ℚ) (Model ℚ) (List ℚ)) (x : List ℚ),
    ⟨x, -1⟩ ∈ d.samples ∧ (w, v) = newVoter ⟨[], []⟩ d "hard" ls ∧ train w v = .ok w' ∧
    asAlone w v d x = .ok [-1, -1, -1] ∧ answers w' v x = .ok [1, 1, -1] ∧
    ∃ v', evaluate (fun _ => [1, -1]) w' v x = .ok (v', 1) := by
  obtain ⟨w', hw'⟩ : ∃ w', train three.1 three.2 = .ok w' := by
    cases h : train three.1 three.2 with
    | ok w' => exact ⟨w', rfl⟩
    | error e =>
      exfalso
      have : (match train three.1 three.2 with | .ok _ => true | .error _ => false) = true := by decide +kernel
      rw [h] at this
      cases this
  have ha : (train three.1 three.2 >>= fun w => answers w three.2 [-1]) = .ok [1, 1, -1] := by decide +kernel
  have he : (train three.1 three.2 >>= fun w => do
      let r ← evaluate (fun _ => [1, -1]) w three.2 [-1]
      return r.2) = .ok 1 := by decide +kernel
  have hb : asAlone three.1 three.2 side [-1] = .ok [-1, -1, -1] := by decide +kernel
  rw [hw', Res_bind_ok] at ha he
  obtain ⟨⟨v', c⟩, h1, h2⟩ := Aos.bind_inv he
  simp only [Res_pure, Except.ok.injEq] at h2
  subst h2
  exact ⟨side, [dual, dual, balanced], three.1, three.2, w', [-1], by simp [side], rfl, hw', hb, ha, v', h1⟩

theorem dual_quiet (m : Perc.Libm K) (clock : Nat → Bool) [Field K] [LinearOrder K] : Quiet (dualKind m clock) := by
  intro s o d o' d' h
  cases o with
  | balanced w b => cases h
  | dual o =>
    obtain ⟨r, _, h2⟩ := Aos.bind_inv h
    simp only [Res_pure, Except.ok.injEq, Prod.mk.injEq] at h2
    exact h2.2.symm

private def two : World (Life.DS ℚ) (Model ℚ) (List ℚ) × Voter ℚ := newVoter ⟨[], []⟩ side "hard" [dual, dual]

private theorem okTrain (w : World (Life.DS ℚ) (Model ℚ) (List ℚ)) (v : Voter ℚ)
    (h : (match train w v with | .ok _ => true | .error _ => false) = true) : ∃ w', train w v = .ok w' := by
  cases h' : train w v with
  | ok w' => exact ⟨w', rfl⟩
  | error e => rw [h'] at h; cases h

private theorem two_quiet : AllMembers Quiet two.1 two.2 := by
  intro i hi c hc
  have : i = 0 ∨ i = 1 := by
    have : i ∈ [0, 1] := hi
    simpa using this
  rcases this with rfl | rfl
  · cases hc; exact dual_quiet _ _
  · cases hc; exact dual_quiet _ _

/-- An ensemble that meets the conditions of `C166_alone_partial`: two dual perceptrons. -/
example : ∃ w', two.2.members.Nodup ∧ two.2.data = some 0 ∧ two.1.sets[0]? = some side ∧ AllMembers Quiet two.1 two.2 ∧
    train two.1 two.2 = .ok w' ∧ answers w' two.2 [-1] = .ok [-1, -1] := by
  obtain ⟨w', hw'⟩ := okTrain two.1 two.2 (by decide +kernel)
  refine ⟨w', by decide, rfl, rfl, two_quiet, hw', ?_⟩
  rw [(C166_alone_partial two.1 w' two.2 0 side (by decide) rfl rfl two_quiet hw').2]
  decide +kernel

/-- C166 (why the order matters).  A dual perceptron answers with the sign of the bias plus the sum, over the positions of the
dataset as it now is, of multiplier times label times inner product: the multiplier found for position `i` in training is applied
to whatever sample is at position `i` now. -/
theorem C166_positions_partial [Field K] [LinearOrder K] (m : Perc.Libm K) (clock : Nat → Bool) (o : Life.Dual K) (d : Life.DS K)
    (x : List K) (hx : x.length = d.dim) (hl : d.samples.length ≤ o.cls.sol.alpha.length) :
    (dualKind m clock).ans (.dual o) d x = .ok (if o.cls.sol.bias + ∑ i ∈ Finset.range d.samples.length,
      o.cls.sol.alpha.getD i 0 * (d.samples.getD i default).y * inner x (d.samples.getD i default).x ≥ 0 then 1 else -1) := by
  show Perc.dualEvaluate d.dim o.cls.sol.alpha d.samples o.cls.sol.bias x _ = _
  unfold Perc.dualEvaluate
  rw [if_neg (by simpa using hx), if_neg (by omega), Perc.dualDecision_eq]

/-- Non-vacuous: the same object, the same point, the samples in another order. -/
example : ∃ o : Life.Dual ℚ, (dualKind lib (fun _ => true)).ans (.dual o) side [-1] = .ok (-1) ∧
    (dualKind lib (fun _ => true)).ans (.dual o) { side with samples := side.samples.reverse } [-1] = .ok 1 :=
  ⟨{ Life.Dual.new with cls := { Life.Classifier.new with sol := { Life.Sol.new with alpha := [1, 0], bias := 1 } } },
    by decide +kernel, by decide +kernel⟩

/-! ### Copies -/

/-- C167.  A copy of an ensemble answers what the original answers. -/
theorem C167_same_partial [Field K] [LinearOrder K] (classes : D → List Int) (w : World D M X) (v : Voter K) (x : X) :
    evaluate classes w (copy v) x = evaluate classes w v x := rfl

/-- C167 in full is refuted: a copy that is given other samples and trained makes the original answer as if the original
had been trained on those samples. -/
theorem C167_refuted (w w' : World D M X) (v : Voter K) (d' : D) (hn : v.members.Nodup) (hq : AllMembers Quiet w v)
    (h : train (setSamplesRef w (copy v) d').1 (setSamplesRef w (copy v) d').2 = .ok w') :
    (∀ x, answers w' v x = asAlone w v d' x) ∧ ∀ p, v.data = some p → p < w.sets.length → w'.sets[p]? = w.sets[p]? := by
  have h1 := C166_alone_partial (setSamplesRef w (copy v) d').1 w' (setSamplesRef w (copy v) d').2 w.sets.length d' hn rfl
    (by simp [setSamplesRef]) hq h
  refine ⟨fun x => h1.2 x, fun p _ hp => ?_⟩
  rw [h1.1]
  exact List.getElem?_append_left hp

private def mirrored : Life.DS ℚ := { dim := 1, samples := [⟨[3], -1⟩, ⟨[-1], 1⟩], index := [0, 1] }

/-- The copy of the trained ensemble of two dual perceptrons, trained on the same points with the labels exchanged: now
the original, whose own samples are as before, answers the wrong label for its training samples. -/
theorem C167_copy_trained_refuted : ∃ (w w1 w2 : World (Life.DS ℚ) (Model ℚ) (List ℚ)) (v v1 v2 : Voter ℚ) (d' : Life.DS ℚ),
    train w v = .ok w1 ∧ evaluate (fun _ => [1, -1]) w1 v [3] = .ok (v1, 1) ∧
    train (setSamplesRef w1 (copy v) d').1 (setSamplesRef w1 (copy v) d').2 = .ok w2 ∧
    evaluate (fun _ => [1, -1]) w2 v [3] = .ok (v2, -1) ∧ w2.sets[0]? = w1.sets[0]? := by
  obtain ⟨w1, hw1⟩ := okTrain two.1 two.2 (by decide +kernel)
  have e1 : (train two.1 two.2 >>= fun w => evaluate (fun _ => [1, -1]) w two.2 [3]) =
      .ok ({ two.2 with weights := [1, 1] }, 1) := by decide +kernel
  have c2 : (match (train two.1 two.2 >>= fun w1 =>
      train (setSamplesRef w1 (copy two.2) mirrored).1 (setSamplesRef w1 (copy two.2) mirrored).2) with
      | .ok _ => true | .error _ => false) = true := by decide +kernel
  have e2 : (train two.1 two.2 >>= fun w1 =>
      train (setSamplesRef w1 (copy two.2) mirrored).1 (setSamplesRef w1 (copy two.2) mirrored).2 >>= fun w2 =>
      evaluate (fun _ => [1, -1]) w2 two.2 [3]) = .ok ({ two.2 with weights := [1, 1] }, -1) := by decide +kernel
  rw [hw1, Res_bind_ok] at e1 c2 e2
  obtain ⟨w2, hw2⟩ := okTrain _ _ c2
  rw [hw2, Res_bind_ok] at e2
  have hq : AllMembers Quiet w1 two.2 := by
    intro i hi c hc
    obtain ⟨_, _, hm⟩ := trainList_spec (d := side) rfl two.2.members two.1 w1 (by decide) rfl two_quiet hw1
    obtain ⟨c0, m, h0, _, h1⟩ := hm i hi
    rw [h1] at hc
    cases hc
    exact two_quiet i hi c0 h0
  refine ⟨two.1, w1, w2, two.2, _, _, mirrored, hw1, e1, hw2, e2, ?_⟩
  exact (C167_refuted w1 w2 two.2 mirrored (by decide) hq hw2).2 0 rfl (by
    rw [(C166_alone_partial two.1 w1 two.2 0 side (by decide) rfl rfl two_quiet hw1).1]
    decide)

/-! ### Bagging of ensembles -/

/-- Members that were trained are of the same classes as before. -/
private theorem train_kinds {v : Voter K} {w w' : World D M X} {p : Nat} {d : D} (hp : v.data = some p)
    (hd : w.sets[p]? = some d) (hn : v.members.Nodup) (hq : AllMembers Quiet w v) (h : train w v = .ok w') :
    ∀ i ∈ v.members, ∃ c c', w.cells[i]? = some c ∧ w'.cells[i]? = some c' ∧ c'.kind = c.kind := by
  intro i hi
  obtain ⟨_, _, hm⟩ := trainList_spec hp v.members w w' hn hd hq h
  obtain ⟨c, m, hc, _, hw⟩ := hm i hi
  exact ⟨c, _, hc, hw, rfl⟩

private theorem bag_aux (base : Voter K) (hn : base.members.Nodup) :
    ∀ (jobs : List (Nat × D)) (w w' : World D M X) (vs : List (Voter K)) (s : Nat) (d : D),
      AllMembers Quiet w base → AllMembers Forgets w base → jobs.getLast? = some (s, d) →
      bagTrain w (jobs.map (fun a => (copy base, a))) = .ok (w', vs) →
      vs.length = jobs.length ∧ (∀ v ∈ vs, v.members = base.members) ∧
      ∀ x, base.members.mapM (answer w' x) = asAlone w (setSeed base s) d x
  | [], _, _, _, _, _, _, _, hl, _ => by cases hl
  | (s0, d0) :: rest, w, w', vs, s, d, hq, hf, hl, h => by
    rw [List.map_cons] at h
    unfold bagTrain at h
    obtain ⟨w1, h1, h2⟩ := Aos.bind_inv h
    obtain ⟨⟨w2, vs2⟩, h3, h4⟩ := Aos.bind_inv h2
    simp only [Res_pure, Except.ok.injEq, Prod.mk.injEq] at h4
    obtain ⟨rfl, rfl⟩ := h4
    have hd0 : (setSamplesRef w (setSeed (copy base) s0) d0).1.sets[w.sets.length]? = some d0 := by
      simp [setSamplesRef]
    have key := C166_alone_partial (setSamplesRef w (setSeed (copy base) s0) d0).1 w1
      (setSamplesRef w (setSeed (copy base) s0) d0).2 w.sets.length d0 hn rfl hd0 hq h1
    have kinds := train_kinds (w := (setSamplesRef w (setSeed (copy base) s0) d0).1)
      (v := (setSamplesRef w (setSeed (copy base) s0) d0).2) rfl hd0 hn hq h1
    cases rest with
    | nil =>
      simp only [List.getLast?_singleton, Option.some.injEq, Prod.mk.injEq] at hl
      obtain ⟨rfl, rfl⟩ := hl
      simp only [List.map_nil] at h3
      unfold bagTrain at h3
      simp only [Except.ok.injEq, Prod.mk.injEq] at h3
      obtain ⟨rfl, rfl⟩ := h3
      refine ⟨rfl, ?_, fun x => key.2 x⟩
      intro v hv
      simp only [List.mem_singleton] at hv
      subst hv
      rfl
    | cons j rest =>
      have hl' : (j :: rest).getLast? = some (s, d) := by
        rw [← hl, List.getLast?_cons_cons]
      have hall : ∀ P : Kind D M X → Prop, AllMembers P w base → AllMembers P w1 base := by
        intro P hP i hi c hc
        obtain ⟨c0, c1, h0, h1, hk⟩ := kinds i hi
        rw [h1] at hc
        cases hc
        rw [hk]
        exact hP i hi c0 h0
      obtain ⟨hlen, hmem, hans⟩ := bag_aux base hn (j :: rest) w1 w2 vs2 s d (hall _ hq) (hall _ hf) hl' h3
      refine ⟨by simp [hlen], ?_, ?_⟩
      · intro v hv
        rcases List.mem_cons.1 hv with rfl | hv
        · rfl
        · exact hmem v hv
      · intro x
        rw [hans x]
        unfold asAlone
        refine mapM_congr _ _ _ (fun i hi => ?_)
        obtain ⟨c0, c1, h0, h1, hk⟩ := kinds i hi
        rw [vget_eq_ok.2 h1, vget_eq_ok.2 (show w.cells[i]? = some c0 from h0), Res_bind_ok, Res_bind_ok, hk]
        exact hf i hi c0 h0 _ _ _ _ _

/-- C168 is refuted: in a bagging ensemble whose base estimator is itself an ensemble, all estimators answer alike, namely
as trained on the last sample drawn: the estimators are copies and share their members. -/
theorem C168_refuted (w w' : World D M X) (base : Voter K) (vs : List (Voter K)) (jobs : List (Nat × D)) (s : Nat) (d : D)
    (hn : base.members.Nodup) (hq : AllMembers Quiet w base) (hf : AllMembers Forgets w base)
    (hl : jobs.getLast? = some (s, d)) (h : bagTrain w ((bagOf base jobs.length).zip jobs) = .ok (w', vs)) :
    vs.length = jobs.length ∧ ∀ v ∈ vs, ∀ x, answers w' v x = asAlone w (setSeed base s) d x := by
  have e : (bagOf base jobs.length).zip jobs = jobs.map (fun a => (copy base, a)) := by
    unfold bagOf
    clear h hl
    induction jobs with
    | nil => rfl
    | cons a l ih => rw [List.length_cons, List.replicate_succ, List.zip_cons_cons, ih, List.map_cons]
  rw [e] at h
  obtain ⟨h1, h2, h3⟩ := bag_aux base hn jobs w w' vs s d hq hf hl h
  refine ⟨h1, fun v hv x => ?_⟩
  unfold answers
  rw [h2 v hv]
  exact h3 x

theorem knn_quiet {T : Type} [Field K] [LinearOrder K] (nth : Knn.NthFn) (c : Knn.Cfg K) (dist : List T → List T → Res K) :
    Quiet (knnKind nth c dist) := by
  intro s m d m' d' h
  cases h
  rfl

theorem knn_forgets {T : Type} [Field K] [LinearOrder K] (nth : Knn.NthFn) (c : Knn.Cfg K)
    (dist : List T → List T → Res K) : Forgets (knnKind nth c dist) := fun _ _ _ _ _ => rfl

private def near : Knn.NthFn := fun lt _ l => l.insertionSort (fun i j => !lt j i)

private def gap : List ℚ → List ℚ → Res ℚ
  | [a], [b] => .ok |a - b|
  | _, _ => .error .assertFail

private def oneNn : World (KSet ℚ) Unit (Pt ℚ) × Voter ℚ :=
  newVoter ⟨[], []⟩ ⟨1, [{ x := [0], y := 1 }, { x := [9], y := 2 }], [1, 2]⟩ "hard"
    [{ kind := knnKind near { k := 1 } gap, data := none, seed := 0, model := () }]

private def threeJobs : List (Nat × KSet ℚ) :=
  [(5, ⟨1, [{ x := [0], y := 1 }], [1, 2]⟩), (6, ⟨1, [{ x := [0], y := 1 }], [1, 2]⟩),
   (7, ⟨1, [{ x := [9], y := 2 }], [1, 2]⟩)]

/-- Three samples for three estimators that are ensembles of one nearest-neighbour classifier: all answer by the third. -/
example : ∃ w' vs, bagTrain oneNn.1 ((bagOf oneNn.2 3).zip threeJobs) = .ok (w', vs) ∧ vs.length = 3 ∧
    ∀ v ∈ vs, answers w' v { x := [0], y := 0 } = .ok [2] := by
  have hc : (match bagTrain oneNn.1 ((bagOf oneNn.2 3).zip threeJobs) with | .ok _ => true | .error _ => false) = true := by decide +kernel
  cases h : bagTrain oneNn.1 ((bagOf oneNn.2 3).zip threeJobs) with
  | error e => rw [h] at hc; cases hc
  | ok r =>
    obtain ⟨w', vs⟩ := r
    have all : ∀ P : Kind (KSet ℚ) Unit (Pt ℚ) → Prop, P (knnKind near { k := 1 } gap) → AllMembers P oneNn.1 oneNn.2 := by
      intro P hP i hi c hc
      have : i = 0 := by
        have : i ∈ [0] := hi
        simpa using this
      subst this
      cases hc
      exact hP
    obtain ⟨h1, h2⟩ := C168_refuted oneNn.1 w' oneNn.2 vs threeJobs 7 ⟨1, [{ x := [9], y := 2 }], [1, 2]⟩ (by decide)
      (all _ (knn_quiet _ _ _)) (all _ (knn_forgets _ _ _)) rfl h
    refine ⟨w', vs, rfl, h1, fun v hv => ?_⟩
    rw [h2 v hv]
    decide +kernel

end MLTK.Props
