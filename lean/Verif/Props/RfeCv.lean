import Verif.Lemmas.RfeCv
/-!
# Eliminating features under the control of cross-validation (C186) and the weights kept between rounds (C187)
-/
namespace MLTK.Props
open MLTK.Feat MLTK.Select
open MLTK.Spec
open MLTK.Data (Res_bind_ok Res_bind_error Res_pure)

/-- **C186**, for one cross-validation per round.  With a limit and errors that are not negative, a final dimension
between 1 and `dim - 1`, steps of at least 1 and every training successful, the search removes features until the final
dimension is reached or a validated round shows an error more than `limit` above the error with all features; it goes on
from no round that shows this, and the structure reports the two errors.  Each round goes by the weights the classifier
then has: after a validation these are the ones the validation left. -/
theorem C186_one_run_partial {K : Type} [Field K] [LinearOrder K] [IsStrictOrderedRing K] (w0 left : Nat → Tbl K → List K)
    (err : Nat → Nat → Tbl K → K) (h0 : ∀ k t, (w0 k t).length = t.dim) (hl : ∀ k t, (left k t).length = t.dim)
    (srt : List (Int × K) → List (Int × K)) (hs : SortsBy (fun p => |p.2|) srt) (jump finalDim cvJump : Nat) (limit : K)
    (before : K × K) (d : Tbl K) (hd : Aligned d) (hj : 1 ≤ jump) (hc : 1 ≤ cvJump) (h1 : 1 ≤ finalDim)
    (h2 : finalDim < d.dim) (hlim : 0 ≤ limit) (herr : ∀ k i t, 0 ≤ err k i t) (fuel : Nat) (hfuel : d.dim < fuel) :
    ∃ d' jump' k, rfeCv fuel (fun k t => some (w0 k t)) err left srt jump finalDim ⟨1, cvJump, limit⟩ before d =
        .ok (d', jump', (err 0 0 d, err k 0 d')) ∧ Aligned d' ∧
      ValidatedElimination (fun k level t => if cvJump ∣ level then left k t else w0 k t)
        (fun k level t => 0 < level ∧ cvJump ∣ level ∧ err k 0 t > err 0 0 d + limit)
        (fun k level t => 0 < level ∧ cvJump ∣ level ∧ err k 0 t > err 0 0 d + limit) jump (d.dim - finalDim) 0 0 d d' := by
  have hsum : ∀ k (t : Tbl K), ((List.range 1).map (fun i => err k i t)).sum = err k 0 t := by
    intro k t
    simp
  obtain ⟨d', j', e, e1, e2, ⟨n, e3⟩, e4⟩ := rfeCv_ok w0 left err h0 hl srt hs jump finalDim 1 cvJump limit before d hd hj
    le_rfl hc h1 h2 (by have := herr 0 0 d; show 0 - err 0 0 d ≤ limit; linarith) fuel hfuel
    (fun k level t => 0 < level ∧ cvJump ∣ level ∧ err k 0 t > err 0 0 d + limit)
    (by
      rintro k level t ⟨a, b, c⟩
      refine ⟨a, b, ?_⟩
      rw [hsum]
      show err k 0 t - err 0 0 d > limit
      linarith)
  rw [hsum] at e3
  refine ⟨d', j', n, by rw [e1, e3], e4, ?_⟩
  refine validated_mono (fun _ _ _ h => h) ?_ e2
  rintro k level t ⟨a, b, c⟩
  refine ⟨a, b, ?_⟩
  rw [hsum] at c
  have c' : err k 0 t - err 0 0 d > limit := c
  linarith

/-- **C186**, for any number of cross-validations per round.  The search goes on from no validated round whose mean error
is more than `limit` above the mean error with all features.  It stops early only when the sum (not the mean) of the
errors of a round is more than `limit` above the error of the last cross-validation with all features. -/
theorem C186_many_runs_partial {K : Type} [Field K] [LinearOrder K] [IsStrictOrderedRing K] (w0 left : Nat → Tbl K → List K)
    (err : Nat → Nat → Tbl K → K) (h0 : ∀ k t, (w0 k t).length = t.dim) (hl : ∀ k t, (left k t).length = t.dim)
    (srt : List (Int × K) → List (Int × K)) (hs : SortsBy (fun p => |p.2|) srt) (jump finalDim q cvJump : Nat) (limit : K)
    (before : K × K) (d : Tbl K) (hd : Aligned d) (hj : 1 ≤ jump) (hq : 1 ≤ q) (hc : 1 ≤ cvJump) (h1 : 1 ≤ finalDim)
    (h2 : finalDim < d.dim) (hlim : 0 ≤ limit) (herr : ∀ k i t, 0 ≤ err k i t) (fuel : Nat) (hfuel : d.dim < fuel) :
    ∃ d' jump' e, rfeCv fuel (fun k t => some (w0 k t)) err left srt jump finalDim ⟨q, cvJump, limit⟩ before d =
        .ok (d', jump', e) ∧ Aligned d' ∧
      ValidatedElimination (fun k level t => if cvJump ∣ level then left k t else w0 k t)
        (fun k level t => 0 < level ∧ cvJump ∣ level ∧
          meanError q (fun i => err k i t) > meanError q (fun i => err 0 i d) + limit)
        (fun k level t => 0 < level ∧ cvJump ∣ level ∧
          ((List.range q).map (fun i => err k i t)).sum > err 0 (q - 1) d + limit) jump (d.dim - finalDim) 0 0 d d' := by
  obtain ⟨d', j', e, e1, e2, _, e4⟩ := rfeCv_ok w0 left err h0 hl srt hs jump finalDim q cvJump limit before d hd hj
    hq hc h1 h2 (by have := herr 0 (q - 1) d; linarith) fuel hfuel
    (fun k level t => 0 < level ∧ cvJump ∣ level ∧
      meanError q (fun i => err k i t) > meanError q (fun i => err 0 i d) + limit)
    (by
      rintro k level t ⟨a, b, c⟩
      refine ⟨a, b, ?_⟩
      have hqp : (1 : K) ≤ (q : K) := by exact_mod_cast hq
      unfold meanError at c
      have c' : ((List.range q).map (fun i => err 0 i d)).sum / (q : K) + limit <
          ((List.range q).map (fun i => err k i t)).sum / (q : K) := c
      have hlt : ((List.range q).map (fun i => err 0 i d)).sum + limit * (q : K) <
          ((List.range q).map (fun i => err k i t)).sum := by
        have hq0 : (0 : K) < (q : K) := by linarith
        rw [lt_div_iff₀ hq0, add_mul, div_mul_cancel₀ _ (ne_of_gt hq0)] at c'
        exact c'
      have hlast : err 0 (q - 1) d ≤ ((List.range q).map (fun i => err 0 i d)).sum := by
        apply List.single_le_sum
        · intro x hx
          obtain ⟨i, _, rfl⟩ := List.mem_map.1 hx
          exact herr 0 i d
        · exact List.mem_map.2 ⟨q - 1, List.mem_range.2 (by omega), rfl⟩
      have hm : limit ≤ limit * (q : K) := le_mul_of_one_le_right hlim hqp
      show ((List.range q).map (fun i => err k i t)).sum - err 0 (q - 1) d > limit
      linarith)
  refine ⟨d', j', _, e1, e4, ?_⟩
  refine validated_mono (fun _ _ _ h => h) ?_ e2
  rintro k level t ⟨a, b, c⟩
  refine ⟨a, b, ?_⟩
  have c' : ((List.range q).map (fun i => err k i t)).sum - err 0 (q - 1) d > limit := c
  linarith

/-- The hypotheses can be met: zero weights, an insertion sort, errors of ten percent. -/
example : ∃ (w0 left : Nat → Tbl ℚ → List ℚ) (err : Nat → Nat → Tbl ℚ → ℚ) (srt : List (Int × ℚ) → List (Int × ℚ)),
    (∀ k t, (w0 k t).length = t.dim) ∧ (∀ k t, (left k t).length = t.dim) ∧ SortsBy (fun p => |p.2|) srt ∧
      ∀ k i t, 0 ≤ err k i t := by
  refine ⟨fun _ t => List.replicate t.dim 0, fun _ t => List.replicate t.dim 1, fun _ _ _ => 10,
    List.insertionSort (fun a b => |a.2| ≤ |b.2|), fun _ _ => by simp, fun _ _ => by simp, ?_, fun _ _ _ => by norm_num⟩
  intro l
  have : Std.Total (fun a b : Int × ℚ => |a.2| ≤ |b.2|) := ⟨fun a b => le_total _ _⟩
  have : IsTrans (Int × ℚ) (fun a b : Int × ℚ => |a.2| ≤ |b.2|) := ⟨fun a b c h1 h2 => le_trans h1 h2⟩
  exact ⟨List.perm_insertionSort _ l, List.pairwise_insertionSort _ l⟩

/-- **C186**, refuted for two or more cross-validations per round: if every cross-validation of the whole search reports
the same error `e`, so that no removal changes anything, the search still stops at the first validated round as soon as
`(q - 1) * e` is above the limit. -/
theorem C186_same_error_refuted {K : Type} [Field K] [LinearOrder K] [IsStrictOrderedRing K] (w0 left : Nat → Tbl K → List K)
    (e limit : K) (h0 : ∀ k t, (w0 k t).length = t.dim) (hl : ∀ k t, (left k t).length = t.dim)
    (srt : List (Int × K) → List (Int × K)) (hs : SortsBy (fun p => |p.2|) srt) (finalDim q : Nat)
    (before : K × K) (d : Tbl K) (hd : Aligned d) (hq : 1 ≤ q) (h1 : 1 ≤ finalDim)
    (h2 : finalDim < d.dim) (hlim : 0 ≤ limit) (he : 0 ≤ e) (hmuch : ((q : K) - 1) * e > limit) (fuel : Nat) (hfuel : d.dim < fuel) :
    ∃ d' jump' es, rfeCv fuel (fun k t => some (w0 k t)) (fun _ _ _ => e) left srt 1 finalDim ⟨q, 1, limit⟩ before d =
      .ok (d', jump', es) ∧ d'.dim = d.dim - 1 := by
  have hsum : ((List.range q).map (fun _ : Nat => e)).sum = (q : K) * e := by
    rw [List.map_const', List.sum_replicate, List.length_range, nsmul_eq_mul]
  obtain ⟨d', j', es, e1, e2, _, _⟩ := rfeCv_ok w0 left (fun _ _ _ => e) h0 hl srt hs 1 finalDim q 1 limit before d hd le_rfl
    hq le_rfl h1 h2 (by linarith) fuel hfuel (tooHigh q 1 limit e (fun _ _ _ => e)) (fun _ _ _ h => h)
  refine ⟨d', j', _, e1, ?_⟩
  have hhigh : ∀ k level t, 0 < level → tooHigh q 1 limit e (fun _ _ (_ : Tbl K) => e) k level t := by
    intro k level t h
    refine ⟨h, one_dvd _, ?_⟩
    rw [hsum]
    linarith
  have hne : ∀ k level (a b : Tbl K), ValidatedElimination (usedWeights 1 w0 left) (tooHigh q 1 limit e (fun _ _ _ => e))
      (tooHigh q 1 limit e (fun _ _ _ => e)) 1 (d.dim - finalDim) k level a b → 0 < level → b = a := by
    intro k level a b h hp
    cases h with
    | final => rfl
    | stop => rfl
    | step _ _ _ _ gone g1 g2 => exact absurd (hhigh _ _ _ hp) g2
  have key : ∀ n m, n = d.dim - finalDim → m = 0 → ∀ a, a = d →
      ValidatedElimination (usedWeights 1 w0 left) (tooHigh q 1 limit e (fun _ _ _ => e))
        (tooHigh q 1 limit e (fun _ _ _ => e)) 1 n 0 m a d' → d'.dim = d.dim - 1 := by
    intro n m hn hm a ha h
    cases h with
    | final => omega
    | stop k level d hmay =>
      have := hmay.1
      omega
    | step _ _ _ _ gone g1 g2 g3 g4 g5 =>
      subst hn hm ha
      have h1g : gone.length = 1 := by rw [g3]; omega
      rw [h1g] at g5
      rw [hne _ _ _ _ g5 (by omega)]
      show (withoutFeatures _ _).fnames.length = _
      rw [without_length _ hd _ g4.1 ?_, h1g, hd.1]
      intro x hx
      obtain ⟨p, hp, rfl⟩ := List.mem_map.1 (g4.2.1 x hx)
      exact (List.of_mem_zip hp).1
  exact key _ _ rfl rfl d rfl e2

/-- **C186**, refuted for the dataset returned after an early stop: it is the one whose error was too high, and the
features removed last do not come back.  Here the error with both features is 0, with one feature 100, the limit 10; with
a final dimension of 1 the result has one feature, for every training and validation weights. -/
theorem C186_result_refuted (w0 left : Nat → Tbl ℚ → List ℚ) (h0 : ∀ k t, (w0 k t).length = t.dim)
    (hl : ∀ k t, (left k t).length = t.dim) (srt : List (Int × ℚ) → List (Int × ℚ)) (hs : SortsBy (fun p => |p.2|) srt)
    (before : ℚ × ℚ) (d : Tbl ℚ) (hd : Aligned d) (hdim : 3 ≤ d.dim) (fuel : Nat) (hfuel : d.dim < fuel) :
    let err : Nat → Nat → Tbl ℚ → ℚ := fun _ _ t => if t.dim = d.dim then 0 else 100
    ∃ d' jump', rfeCv fuel (fun k t => some (w0 k t)) err left srt 1 1 ⟨1, 1, 10⟩ before d =
      .ok (d', jump', (0, 100)) ∧ err 0 0 d = 0 ∧ err 0 0 d' = 100 ∧ d'.dim = d.dim - 1 := by
  intro err
  have herr : ∀ k i t, 0 ≤ err k i t := by
    intro k i t
    show (0 : ℚ) ≤ if t.dim = d.dim then 0 else 100
    split <;> norm_num
  have e0 : err 0 0 d = 0 := if_pos rfl
  obtain ⟨d', j', n, e1, _, e2⟩ := C186_one_run_partial w0 left err h0 hl srt hs 1 1 1 10 before d hd le_rfl le_rfl le_rfl
    (by omega) (by norm_num) herr fuel hfuel
  rw [e0] at e1 e2
  have key : ∀ n m, n = d.dim - 1 → m = 0 → ∀ a, a = d →
      ValidatedElimination (fun k level t => if 1 ∣ level then left k t else w0 k t)
        (fun k level t => 0 < level ∧ 1 ∣ level ∧ err k 0 t > 0 + 10)
        (fun k level t => 0 < level ∧ 1 ∣ level ∧ err k 0 t > 0 + 10) 1 n 0 m a d' → d'.dim = d.dim - 1 := by
    intro n m hn hm a ha h
    cases h with
    | final => omega
    | stop k level d hmay =>
      have := hmay.1
      omega
    | step _ _ _ _ gone g1 g2 g3 g4 g5 =>
      subst hn hm ha
      have h1g : gone.length = 1 := by rw [g3]; omega
      rw [h1g] at g5
      have hw : (withoutFeatures a gone).dim = a.dim - 1 := by
        show (withoutFeatures _ _).fnames.length = _
        rw [without_length _ hd _ g4.1 ?_, h1g, hd.1]
        intro x hx
        obtain ⟨p, hp, rfl⟩ := List.mem_map.1 (g4.2.1 x hx)
        exact (List.of_mem_zip hp).1
      generalize hlev : 0 + 1 = lev at g5
      generalize hdep : a.dim - 1 = dep at g5
      cases g5 with
      | final => rw [hw]; exact hdep
      | stop => rw [hw]; exact hdep
      | step _ _ _ _ gone' i1 i2 =>
        refine absurd ⟨by omega, one_dvd _, ?_⟩ i2
        show (if (withoutFeatures a gone).dim = a.dim then (0 : ℚ) else 100) > 0 + 10
        rw [if_neg (by omega)]
        norm_num
  have hdim' := key _ _ rfl rfl d rfl e2
  have e100 : ∀ k, err k 0 d' = 100 := fun k => if_neg (by omega)
  refine ⟨d', j', ?_, e0, e100 0, hdim'⟩
  rw [e100 n] at e1
  exact e1

/-- Three features. -/
example : ∃ d : Tbl ℚ, Aligned d ∧ 3 ≤ d.dim :=
  ⟨⟨[[1, 2, 3]], [1, 2, 3], 3⟩, ⟨rfl, by simp, by simp, by simp⟩, le_rfl⟩

/-- **C186**, refuted for the weights: the features that go are not those with the least weights of the classifier
trained on the dataset, if a cross-validation leaves others.  Trained on all samples the weights are 1 and 2, after the
cross-validation 2 and 1: feature 2 is removed. -/
theorem C186_weights_refuted (srt : List (Int × ℚ) → List (Int × ℚ)) (hs : SortsBy (fun p => |p.2|) srt) (x y : ℚ)
    (before : ℚ × ℚ) (e : ℚ) (he : 0 ≤ e) :
    let d : Tbl ℚ := ⟨[[x, y]], [1, 2], 2⟩
    let w0 : Nat → Tbl ℚ → List ℚ := fun _ t => if t.dim = 2 then [1, 2] else List.replicate t.dim 1
    let left : Nat → Tbl ℚ → List ℚ := fun _ t => if t.dim = 2 then [2, 1] else List.replicate t.dim 1
    ∃ jump' es, rfeCv 3 (fun k t => some (w0 k t)) (fun _ _ _ => e) left srt 1 1 ⟨1, 1, 0⟩ before d =
        .ok (⟨[[x]], [1], 1⟩, jump', es) ∧
      ¬ RemovesWorst (d.fnames.zip ((w0 0 d).map (fun x => |x|))) [2] := by
  intro d w0 left
  have hd : Aligned d := ⟨rfl, by simp [d], by simp [d], by simp [d]⟩
  have hlen : ∀ (a b : ℚ) (t : Tbl ℚ), (if t.dim = 2 then [a, b] else List.replicate t.dim 1).length = t.dim := by
    intro a b t
    split
    · next h => simp [h]
    · simp
  obtain ⟨d', j', n, e1, _, e2⟩ := C186_one_run_partial w0 left (fun _ _ _ => e) (fun k t => hlen 1 2 t) (fun k t => hlen 2 1 t)
    srt hs 1 1 1 0 before d hd le_rfl le_rfl le_rfl (by show 1 < 2; omega) le_rfl (fun _ _ _ => he) 3 (by show 2 < 3; omega)
  have hl0 : left 0 d = [2, 1] := if_pos rfl
  have hw0 : w0 0 d = [1, 2] := if_pos rfl
  have habs : |(1 : ℚ)| = 1 ∧ |(2 : ℚ)| = 2 := ⟨abs_one, abs_of_pos (by norm_num)⟩
  have key : ∀ n m, n = 1 → m = 0 → ∀ a, a = d →
      ValidatedElimination (fun k level t => if 1 ∣ level then left k t else w0 k t)
        (fun k level _ => 0 < level ∧ 1 ∣ level ∧ e > e + 0)
        (fun k level _ => 0 < level ∧ 1 ∣ level ∧ e > e + 0) 1 n 0 m a d' → d' = ⟨[[x]], [1], 1⟩ := by
    intro n m hn hm a ha h
    cases h with
    | final => omega
    | stop k level d hmay =>
      have := hmay.1
      omega
    | step _ _ _ _ gone g1 g2 g3 g4 g5 =>
      subst hn hm ha
      have h1g : gone.length = 1 := by rw [g3]; rfl
      rw [if_pos (one_dvd _), hl0] at g4
      obtain ⟨f, rfl⟩ := List.length_eq_one_iff.1 h1g
      obtain ⟨_, k2, k3⟩ := g4
      have hf : f = 1 ∨ f = 2 := by
        have := k2 f (by simp)
        simpa [d] using this
      rcases hf with rfl | rfl
      · have := k3 1 2 2 1 (by simp [d]) (by simp [d]) (by simp) (by simp)
        norm_num at this
      · have hw : withoutFeatures d [2] = ⟨[[x]], [1], 1⟩ := rfl
        rw [hw] at g5
        cases g5 with
        | final => rfl
        | stop => rfl
        | step _ _ _ _ _ g => omega
  have hd' := key _ _ rfl rfl d rfl e2
  rw [hd'] at e1
  refine ⟨j', _, e1, ?_⟩
  rw [hw0]
  intro h
  have := h.2.2 2 2 1 1 (by simp [d]) (by simp [d]) (by simp) (by simp)
  norm_num at this

/-- **C186**, refuted for the value a new `CrossValidation` has for its step, 0: whatever the later trainings do, the
second round divides by zero. -/
theorem C186_step_refuted {K : Type} [Field K] [LinearOrder K] [IsStrictOrderedRing K] (learn : Nat → Tbl K → Option (List K))
    (left : Nat → Tbl K → List K) (err : Nat → Nat → Tbl K → K) (d : Tbl K) (hlearn : (learn 0 d).isSome)
    (hl : ∀ k t, (left k t).length = t.dim) (srt : List (Int × K) → List (Int × K)) (hs : SortsBy (fun p => |p.2|) srt)
    (jump finalDim q : Nat) (limit : K) (before : K × K) (hd : Aligned d) (hj : 1 ≤ jump) (hq : 1 ≤ q)
    (h1 : 1 ≤ finalDim) (h2 : finalDim < d.dim) (hlim : 0 ≤ limit) (herr : ∀ k i t, 0 ≤ err k i t) (fuel : Nat)
    (hfuel : 2 ≤ fuel) :
    rfeCv fuel learn err left srt jump finalDim ⟨q, 0, limit⟩ before d = .error .divByZero := by
  obtain ⟨w, hw⟩ := Option.isSome_iff_exists.1 hlearn
  obtain ⟨f, rfl⟩ : ∃ f, fuel = f + 1 + 1 := ⟨fuel - 2, by omega⟩
  unfold rfeCv
  simp only
  rw [if_neg (by omega), show ((d.dim : Int) - (finalDim : Int)).toNat = d.dim - finalDim by omega,
    if_pos (by omega : 0 < q)]
  have hv := validateRound_first q 0 hq limit (fun i => err 0 i d) (left 0 d) w (0, 0)
  obtain ⟨gone, g1, g2, g3, g4, g5, g6⟩ := rfeCv_step learn err left srt hs d (d.dim - finalDim)
    ⟨q, 0, limit⟩ (f + 1) 0 0 0 jump 0 [] d (0, 0) _ w _ hw hv (hl 0 d) hd (by simp) rfl (by omega) (by omega)
    (fun h => by
      have h' : 0 - err 0 (q - 1) d > limit := h.2
      have := herr 0 (q - 1) d
      linarith)
  rw [List.nil_append, Nat.sub_zero] at g6
  rw [g6]
  have hstuck : ∀ (k level prev j lj : Nat) (F : List Int) (t : Tbl K) (ia : K × K), 0 < level →
      rfeCvLoop learn err left srt d (d.dim - finalDim) ⟨q, 0, limit⟩ (f + 1) k level prev j lj F t ia =
        .error .divByZero := by
    intro k level prev j lj F t ia hp
    rw [rfeCvLoop]
    have e1 : finalErrors ⟨q, 0, limit⟩ (fun i => err k i t) prev ia = .error .divByZero := by
      unfold finalErrors
      rw [if_neg (by show ¬ q = 0; omega), if_pos rfl]
    have e2 : ∀ w, validateRound ⟨q, 0, limit⟩ (fun i => err k i t) (left k t) level w ia = .error .divByZero := by
      intro w
      unfold validateRound
      rw [if_neg (by show ¬ q = 0; omega), if_neg (by omega), if_pos rfl]
    cases learn k t with
    | none =>
      simp only
      rw [if_neg (by omega), e1, Res_bind_error]
    | some w =>
      simp only
      rw [e2, Res_bind_error]
  split
  · exact hstuck _ _ _ _ _ _ _ _ (by omega)
  · exact hstuck _ _ _ _ _ _ _ _ (by omega)

/-- **C186**, refuted for a limit below minus the initial error: the first round stops, and then the list of the removed
features is read from an empty range, out of bounds. -/
theorem C186_limit_refuted {K : Type} [Field K] [LinearOrder K] (w0 left : Nat → Tbl K → List K)
    (err : Nat → Nat → Tbl K → K) (hl : ∀ k t, (left k t).length = t.dim)
    (srt : List (Int × K) → List (Int × K)) (jump finalDim q cvJump : Nat) (limit : K)
    (before : K × K) (d : Tbl K) (hd : Aligned d) (hq : 1 ≤ q) (h1 : 1 ≤ finalDim) (h2 : finalDim < d.dim)
    (hneg : 0 - err 0 (q - 1) d > limit) (fuel : Nat) (hfuel : 1 ≤ fuel) :
    rfeCv fuel (fun k t => some (w0 k t)) err left srt jump finalDim ⟨q, cvJump, limit⟩ before d = .error .outOfBounds := by
  obtain ⟨f, rfl⟩ : ∃ f, fuel = f + 1 := ⟨fuel - 1, by omega⟩
  unfold rfeCv
  simp only
  rw [if_neg (by omega), show ((d.dim : Int) - (finalDim : Int)).toNat = d.dim - finalDim by omega,
    if_pos (by omega : 0 < q)]
  have hv := validateRound_first q cvJump hq limit (fun i => err 0 i d) (left 0 d) (w0 0 d) (0, 0)
  rw [rfeCv_stop (fun k t => some (w0 k t)) err left srt d (d.dim - finalDim) ⟨q, cvJump, limit⟩ f 0 0 0 jump 0 _ d (0, 0) _
    (w0 0 d) _ rfl hv (hl 0 d) hd (Or.inr ⟨by show 0 < q; omega, hneg⟩), if_pos rfl]

/-- An initial error of 0 and a limit of -1 meet the hypothesis. -/
example : (0 : ℚ) - 0 > -1 := by norm_num

/-- **C186**.  With no cross-validation (the default) the search is the plain one of C60, and the errors stay as they
were. -/
theorem C186_off {K : Type} [Field K] [LinearOrder K] (learn : Nat → Tbl K → Option (List K))
    (err : Nat → Nat → Tbl K → K) (left : Nat → Tbl K → List K) (srt : List (Int × K) → List (Int × K))
    (jump cvJump : Nat) (finalDim : Int) (limit : K) (before : K × K) (d : Tbl K) (fuel : Nat) :
    rfeCv fuel learn err left srt jump finalDim ⟨0, cvJump, limit⟩ before d =
      (rfe fuel learn (fun _ => false) srt jump finalDim d).map (fun r => (r.1, r.2, before)) := by
  have key : ∀ (depth fuel k level prev jump lj : Nat) (F : List Int) (t : Tbl K),
      rfeCvLoop learn err left srt d depth ⟨0, cvJump, limit⟩ fuel k level prev jump lj F t before =
        (rfeLoop learn (fun _ => false) srt d depth fuel k level jump lj F t).map (fun r => (r.1, r.2, before)) := by
    intro depth fuel
    induction fuel with
    | zero => intros; rfl
    | succ fuel ih =>
      intro k level prev jump lj F t
      have e1 : ∀ l (er : Nat → K), finalErrors ⟨0, cvJump, limit⟩ er l before = .ok before := fun _ _ => rfl
      have e2 : ∀ l w (er : Nat → K), validateRound ⟨0, cvJump, limit⟩ er (left k t) l w before = .ok (before, w) :=
        fun _ _ _ => rfl
      rw [rfeCvLoop, rfeLoop]
      cases learn k t with
      | none =>
        simp only
        by_cases h : level = 0
        · rw [if_pos h, if_neg (by omega)]
          rfl
        · rw [if_neg h, if_pos (by omega), e1, Res_bind_ok]
          rfl
      | some w =>
        simp only
        rw [e2, Res_bind_ok]
        simp only
        cases weights t w with
        | error x => rfl
        | ok ws =>
          rw [Res_bind_ok, Res_bind_ok]
          by_cases h : level ≥ depth
          · rw [if_pos (Or.inl h), if_pos (Or.inl h), e1, Res_bind_ok]
            split <;> rfl
          · have hB : ¬ (level ≥ depth ∨ false = true) := by
              rintro (h' | h')
              · exact h h'
              · cases h'
            rw [if_neg (by
              rintro (h' | h')
              · exact h h'
              · exact absurd h'.1 (lt_irrefl 0)), if_neg hB]
            cases record (srt ws) level ((if level + jump > depth then depth else level + jump) - level) F with
            | error x => rfl
            | ok F' =>
              rw [Res_bind_ok, Res_bind_ok]
              cases removeFeatures t F' with
              | error x => rfl
              | ok r =>
                rw [Res_bind_ok, Res_bind_ok]
                by_cases ho : level + jump > depth
                · simp only [if_pos ho]
                  exact ih _ _ _ _ _ _ _
                · simp only [if_neg ho]
                  exact ih _ _ _ _ _ _ _
  unfold rfeCv rfe
  simp only
  split
  · rfl
  · exact key _ _ _ _ _ _ _ _ _

/-! ### The weights kept between rounds -/

/-- Clearing and packing the weights, feature by feature. -/
theorem packed_eq {K : Type} [Field K] [LinearOrder K] (cut : List (Int × K)) (gone : List Int) :
    ∀ L : List (Int × K), (∀ p ∈ L, p.1 ∈ gone → p.2 ∈ cut.map Prod.snd) →
      (∀ p ∈ L, p.1 ∉ gone → p.2 ≠ 0 ∧ p.2 ∉ cut.map Prod.snd) →
      (((L.map Prod.snd).map (fun x => if cut.any (fun p => decide (p.2 = x)) then (0 : K) else x)).filter
        (fun x => decide (x ≠ 0))) = (L.filter (fun p => decide (p.1 ∉ gone))).map Prod.snd := by
  intro L
  induction L with
  | nil => intros; rfl
  | cons p L ih =>
    intro hg hk
    have ih' := ih (fun q hq => hg q (List.mem_cons_of_mem _ hq)) (fun q hq => hk q (List.mem_cons_of_mem _ hq))
    have hany : cut.any (fun q => decide (q.2 = p.2)) = true ↔ p.2 ∈ cut.map Prod.snd := by
      rw [List.any_eq_true]
      simp only [decide_eq_true_eq, List.mem_map]
    rw [List.map_cons, List.map_cons]
    by_cases hm : p.1 ∈ gone
    · rw [if_pos (hany.2 (hg p (List.mem_cons_self ..) hm)), List.filter_cons_of_neg (by simp), List.filter_cons_of_neg (by simpa using hm),
        ih']
    · obtain ⟨h1, h2⟩ := hk p (List.mem_cons_self ..) hm
      rw [if_neg (fun h => h2 (hany.1 h)), List.filter_cons_of_pos (by simpa using h1), List.filter_cons_of_pos (by simpa using hm),
        List.map_cons, ih']

/-- At most the weights of the features that stay are packed. -/
theorem packed_le {K : Type} [Field K] [LinearOrder K] (cut : List (Int × K)) (gone : List Int) :
    ∀ L : List (Int × K), (∀ p ∈ L, p.1 ∈ gone → p.2 ∈ cut.map Prod.snd) →
      (((L.map Prod.snd).map (fun x => if cut.any (fun p => decide (p.2 = x)) then (0 : K) else x)).filter
        (fun x => decide (x ≠ 0))).length ≤ (L.filter (fun p => decide (p.1 ∉ gone))).length := by
  intro L
  induction L with
  | nil => intros; exact le_rfl
  | cons p L ih =>
    intro hg
    have ih' := ih (fun q hq => hg q (List.mem_cons_of_mem _ hq))
    have hany : cut.any (fun q => decide (q.2 = p.2)) = true ↔ p.2 ∈ cut.map Prod.snd := by
      rw [List.any_eq_true]
      simp only [decide_eq_true_eq, List.mem_map]
    rw [List.map_cons, List.map_cons]
    by_cases hm : p.1 ∈ gone
    · rw [if_pos (hany.2 (hg p (List.mem_cons_self ..) hm)), List.filter_cons_of_neg (by simp), List.filter_cons_of_neg (by simpa using hm)]
      exact ih'
    · rw [List.filter_cons_of_pos (p := fun p : Int × K => decide (p.1 ∉ gone)) (by simpa using hm), List.length_cons]
      rw [List.filter_cons]
      generalize (if cut.any (fun q => decide (q.2 = p.2)) then (0 : K) else p.2) = y
      by_cases hy : decide (y ≠ 0) = true
      · rw [if_pos hy, List.length_cons]; omega
      · rw [if_neg hy]; omega

theorem gone_cut {K : Type} [Field K] [LinearOrder K] (srt : List (Int × K) → List (Int × K))
    (hs : SortsBy (fun p => |p.2|) srt) (d : Tbl K) (hd : Aligned d) (w : List K) (hw : w.length = d.dim) (n : Nat) :
    ∀ p ∈ d.fnames.zip w, p.1 ∈ ((srt (d.fnames.zip w)).map Prod.fst).take n → p ∈ (srt (d.fnames.zip w)).take n := by
  intro p hp hg
  have hnd : d.fnames.Nodup := hd.2.2.1.imp (fun h => ne_of_lt h)
  have hfst : (d.fnames.zip w).map Prod.fst = d.fnames := by
    rw [List.map_fst_zip]
    rw [hw, hd.1]
  obtain ⟨hperm, _⟩ := hs (d.fnames.zip w)
  rw [← List.map_take] at hg
  obtain ⟨q, hq, he⟩ := List.mem_map.1 hg
  have hq' : q ∈ d.fnames.zip w := hperm.mem_iff.1 (List.mem_of_mem_take hq)
  have : q = p := List.inj_on_of_nodup_map (by rw [hfst]; exact hnd) hq' hp he
  rw [← this]
  exact hq

theorem resizeTo_length {K : Type} [Zero K] (old : List K) (n : Nat) : (Data.resizeTo old n).length = n := by
  unfold Data.resizeTo
  rw [List.length_append, List.length_take, List.length_replicate]
  omega

theorem kept_length {K : Type} [Field K] [LinearOrder K] (srt : List (Int × K) → List (Int × K))
    (hs : SortsBy (fun p => |p.2|) srt) (d : Tbl K) (hd : Aligned d) (w : List K) (hw : w.length = d.dim) (n : Nat)
    (hn : n ≤ d.dim) :
    ((d.fnames.zip w).filter (fun p => decide (p.1 ∉ ((srt (d.fnames.zip w)).map Prod.fst).take n))).length = d.dim - n := by
  have hnd : d.fnames.Nodup := hd.2.2.1.imp (fun h => ne_of_lt h)
  have hfst : (d.fnames.zip w).map Prod.fst = d.fnames := by
    rw [List.map_fst_zip]
    rw [hw, hd.1]
  obtain ⟨hperm, _⟩ := hs (d.fnames.zip w)
  have hp : ((srt (d.fnames.zip w)).map Prod.fst).Perm d.fnames := by
    have := hperm.map Prod.fst
    rwa [hfst] at this
  have hT := (hp.nodup_iff.2 hnd).sublist (List.take_sublist n _)
  have hwl := without_length d hd _ hT (fun a ha => hp.mem_iff.1 (List.mem_of_mem_take ha))
  have h1 : ∀ G : List Int, ((d.fnames.zip w).filter (fun p => decide (p.1 ∉ G))).length =
      (d.fnames.filter (fun f => decide (f ∉ G))).length := by
    intro G
    conv_rhs => rw [← hfst]
    rw [List.filter_map, List.length_map]
    rfl
  rw [h1]
  refine Eq.trans hwl ?_
  rw [List.length_take, hp.length_eq, ← hd.1]
  omega

/-- **C187**.  If no feature that stays has the weight 0 or the weight of a feature that goes, the next training starts
from the weights of the features that stay, in their order. -/
theorem C187_partial {K : Type} [Field K] [LinearOrder K] (srt : List (Int × K) → List (Int × K))
    (hs : SortsBy (fun p => |p.2|) srt) (d : Tbl K) (hd : Aligned d) (w : List K) (hw : w.length = d.dim) (n : Nat)
    (hn : n ≤ d.dim) (old : List K)
    (hkeep : ∀ f x, (f, x) ∈ d.fnames.zip w → f ∉ ((srt (d.fnames.zip w)).map Prod.fst).take n →
      x ≠ 0 ∧ ∀ g ∈ ((srt (d.fnames.zip w)).map Prod.fst).take n, (g, x) ∉ d.fnames.zip w) :
    keepWeights (srt (d.fnames.zip w)) n old (d.dim - n) w =
      .ok (keptWeights d w (((srt (d.fnames.zip w)).map Prod.fst).take n)) := by
  have hcut := gone_cut srt hs d hd w hw n
  have hfst : (d.fnames.zip w).map Prod.fst = d.fnames := by
    rw [List.map_fst_zip]
    rw [hw, hd.1]
  have hsnd : (d.fnames.zip w).map Prod.snd = w := by
    rw [List.map_snd_zip]
    rw [hw, hd.1]
  obtain ⟨hperm, _⟩ := hs (d.fnames.zip w)
  have hp := packed_eq ((srt (d.fnames.zip w)).take n) (((srt (d.fnames.zip w)).map Prod.fst).take n) (d.fnames.zip w)
    (fun p hp hg => List.mem_map.2 ⟨p, hcut p hp hg, rfl⟩)
    (by
      intro p hp hg
      obtain ⟨h1, h2⟩ := hkeep p.1 p.2 hp hg
      refine ⟨h1, fun hm => ?_⟩
      obtain ⟨q, hq, he⟩ := List.mem_map.1 hm
      refine h2 q.1 ?_ ?_
      · rw [← List.map_take]
        exact List.mem_map.2 ⟨q, hq, rfl⟩
      · rw [← he]
        exact hperm.mem_iff.1 (List.mem_of_mem_take hq))
  rw [hsnd] at hp
  unfold keepWeights clearWeights
  rw [hp]
  have hlen : ((d.fnames.zip w).filter (fun p => decide (p.1 ∉ ((srt (d.fnames.zip w)).map Prod.fst).take n))).length =
      d.dim - n := kept_length srt hs d hd w hw n hn
  have := fill_ok (((d.fnames.zip w).filter (fun p => decide (p.1 ∉ ((srt (d.fnames.zip w)).map Prod.fst).take n))).map Prod.snd)
    [] (Data.resizeTo old (d.dim - n)) (by rw [List.length_map, hlen, resizeTo_length])
  rw [List.nil_append] at this
  rw [List.length_nil] at this
  rw [this, Res_bind_ok, Res_pure]
  congr 1
  simp only [List.nil_append]
  rw [List.length_map, hlen, List.drop_of_length_le (by rw [resizeTo_length]), List.append_nil]
  rfl

/-- **C187**.  In any case the vector has one entry for every feature that stays. -/
theorem C187_length {K : Type} [Field K] [LinearOrder K] (srt : List (Int × K) → List (Int × K))
    (hs : SortsBy (fun p => |p.2|) srt) (d : Tbl K) (hd : Aligned d) (w : List K) (hw : w.length = d.dim) (n : Nat)
    (hn : n ≤ d.dim) (old : List K) :
    ∃ v, keepWeights (srt (d.fnames.zip w)) n old (d.dim - n) w = .ok v ∧ v.length = d.dim - n ∧
      (keptWeights d w (((srt (d.fnames.zip w)).map Prod.fst).take n)).length = d.dim - n := by
  have hcut := gone_cut srt hs d hd w hw n
  have hsnd : (d.fnames.zip w).map Prod.snd = w := by
    rw [List.map_snd_zip]
    rw [hw, hd.1]
  have hp := packed_le ((srt (d.fnames.zip w)).take n) (((srt (d.fnames.zip w)).map Prod.fst).take n) (d.fnames.zip w)
    (fun p hp hg => List.mem_map.2 ⟨p, hcut p hp hg, rfl⟩)
  rw [hsnd, kept_length srt hs d hd w hw n hn] at hp
  have := fill_ok ((clearWeights ((srt (d.fnames.zip w))) n w).filter (fun x => decide (x ≠ 0)))
    [] (Data.resizeTo old (d.dim - n)) (by rw [resizeTo_length]; exact hp)
  rw [List.nil_append, List.length_nil] at this
  refine ⟨_, by unfold keepWeights; rw [this, Res_bind_ok, Res_pure], ?_, ?_⟩
  · simp only [List.nil_append, List.length_append, List.length_drop, resizeTo_length]
    have hp' : ((clearWeights ((srt (d.fnames.zip w))) n w).filter (fun x => decide (x ≠ 0))).length ≤ d.dim - n := hp
    omega
  · unfold keptWeights
    rw [List.length_map]
    exact kept_length srt hs d hd w hw n hn

/-- The hypotheses hold of three features with different weights. -/
example : let d : Tbl ℚ := ⟨[], [1, 2, 3], 3⟩
    Aligned d ∧ keepWeights [(2, 1), (1, -2), (3, 4)] 1 [] 2 ([-2, 1, 4] : List ℚ) = .ok [-2, 4] :=
  ⟨⟨rfl, by simp, by simp, by simp⟩, by decide +kernel⟩

/-- **C187**, refuted when a feature that stays has the weight 0: the weights of the later features move to the wrong
features, and the last entry is what the vector held before (0 in the first round). -/
theorem C187_zero_refuted (a b c : ℚ) (ha : a ≠ 0) (srt : List (Int × ℚ) → List (Int × ℚ)) (hs : SortsBy (fun p => |p.2|) srt) :
    let d : Tbl ℚ := ⟨[], [1, 2, 3], 3⟩
    let w : List ℚ := [0, 0, a]
    keepWeights (srt (d.fnames.zip w)) 1 [b, c] 2 w = .ok [a, c] ∧
      keptWeights d w (((srt (d.fnames.zip w)).map Prod.fst).take 1) = [0, a] := by
  intro d w
  obtain ⟨hperm, hpw⟩ := hs (d.fnames.zip w)
  have hz : d.fnames.zip w = [(1, 0), (2, 0), (3, a)] := rfl
  have hlen : (srt (d.fnames.zip w)).length = 3 := by rw [hperm.length_eq]; rfl
  obtain ⟨p, t, ht⟩ : ∃ p t, srt (d.fnames.zip w) = p :: t := by
    cases h : srt (d.fnames.zip w) with
    | nil => rw [h] at hlen; cases hlen
    | cons p t => exact ⟨p, t, rfl⟩
  have hp0 : p.2 = 0 := by
    have hmem : ((1 : Int), (0 : ℚ)) ∈ p :: t := by
      rw [← ht]
      exact hperm.mem_iff.2 (by rw [hz]; simp)
    rcases List.mem_cons.1 hmem with h | h
    · rw [← h]
    · rw [ht] at hpw
      have : |p.2| ≤ |(0 : ℚ)| := (List.pairwise_cons.1 hpw).1 _ h
      rw [abs_zero] at this
      exact abs_eq_zero.1 (le_antisymm this (abs_nonneg _))
  have hp1 : p = (1, 0) ∨ p = (2, 0) := by
    have : p ∈ d.fnames.zip w := hperm.mem_iff.1 (by rw [ht]; exact List.mem_cons_self ..)
    rw [hz] at this
    simp only [List.mem_cons, List.not_mem_nil, or_false] at this
    rcases this with h | h | h
    · exact Or.inl h
    · exact Or.inr h
    · rw [h] at hp0
      exact absurd hp0 ha
  have hc : clearWeights (p :: t) 1 w = [0, 0, a] := by
    unfold clearWeights
    simp only [List.take_succ_cons, List.take_zero, List.any_cons, List.any_nil, Bool.or_false, decide_eq_true_eq, hp0, w,
      List.map_cons, List.map_nil, if_true, if_neg (Ne.symm ha)]
  rw [ht]
  constructor
  · unfold keepWeights
    rw [hc]
    simp only [ne_eq, not_true_eq_false, decide_false, Bool.false_eq_true, not_false_eq_true, List.filter_cons_of_neg, ha,
      decide_true, List.filter_cons_of_pos, List.filter_nil, List.foldlM_cons, List.foldlM_nil]
    rfl
  · rcases hp1 with rfl | rfl <;> rfl

/-- **C187**, refuted when two features have the same weight and one of them goes: the other one is dropped too. -/
theorem C187_tie_refuted (a b : ℚ) (hab : |a| < |b|) (srt : List (Int × ℚ) → List (Int × ℚ))
    (hs : SortsBy (fun p => |p.2|) srt) :
    let d : Tbl ℚ := ⟨[], [1, 2, 3], 3⟩
    let w : List ℚ := [a, a, b]
    keepWeights (srt (d.fnames.zip w)) 1 [] 2 w = .ok [b, 0] ∧
      keptWeights d w (((srt (d.fnames.zip w)).map Prod.fst).take 1) = [a, b] := by
  intro d w
  have hb : b ≠ 0 := by
    rintro rfl
    rw [abs_zero] at hab
    exact absurd hab (not_lt.2 (abs_nonneg a))
  have hne : a ≠ b := by
    rintro rfl
    exact lt_irrefl _ hab
  obtain ⟨hperm, hpw⟩ := hs (d.fnames.zip w)
  have hz : d.fnames.zip w = [(1, a), (2, a), (3, b)] := rfl
  have hlen : (srt (d.fnames.zip w)).length = 3 := by rw [hperm.length_eq]; rfl
  obtain ⟨p, t, ht⟩ : ∃ p t, srt (d.fnames.zip w) = p :: t := by
    cases h : srt (d.fnames.zip w) with
    | nil => rw [h] at hlen; cases hlen
    | cons p t => exact ⟨p, t, rfl⟩
  have hpa : p ≠ (3, b) := by
    rintro rfl
    have hmem : ((1 : Int), a) ∈ ((3 : Int), b) :: t := by
      rw [← ht]
      exact hperm.mem_iff.2 (by rw [hz]; simp)
    rcases List.mem_cons.1 hmem with h | h
    · exact hne (Prod.mk.inj h).2
    · rw [ht] at hpw
      exact absurd ((List.pairwise_cons.1 hpw).1 _ h) (not_le.2 hab)
  have hp1 : p = (1, a) ∨ p = (2, a) := by
    have : p ∈ d.fnames.zip w := hperm.mem_iff.1 (by rw [ht]; exact List.mem_cons_self ..)
    rw [hz] at this
    simp only [List.mem_cons, List.not_mem_nil, or_false] at this
    rcases this with h | h | h
    · exact Or.inl h
    · exact Or.inr h
    · exact absurd h hpa
  have hp0 : p.2 = a := by rcases hp1 with rfl | rfl <;> rfl
  have hc : clearWeights (p :: t) 1 w = [0, 0, b] := by
    unfold clearWeights
    simp only [List.take_succ_cons, List.take_zero, List.any_cons, List.any_nil, Bool.or_false, decide_eq_true_eq, hp0, w,
      List.map_cons, List.map_nil, if_true, if_neg hne]
  rw [ht]
  constructor
  · unfold keepWeights
    rw [hc]
    simp only [ne_eq, not_true_eq_false, decide_false, Bool.false_eq_true, not_false_eq_true, List.filter_cons_of_neg, hb,
      decide_true, List.filter_cons_of_pos, List.filter_nil, List.foldlM_cons, List.foldlM_nil]
    rfl
  · rcases hp1 with rfl | rfl <;> rfl

/-- Weights 1, 1, 2 meet the hypotheses. -/
example : |(1 : ℚ)| < |2| := by norm_num

end MLTK.Props
