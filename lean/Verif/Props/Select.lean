import Mathlib.Tactic.NormNum
import Verif.Lemmas.Select
/-!
# Properties of the feature selectors (C59, C60, C91, C92)
-/
namespace MLTK.Props
open MLTK.Feat MLTK.Select
open MLTK.Spec
open MLTK.Data (Res_bind_ok Res_bind_error Res_pure)

/-- The features that leave are the worst ones by score; `number` stay if every training succeeds. -/
theorem filter_best {K : Type} [Field K] [LinearOrder K] (score : List (K × Int) → Res K) (g : List (K × Int) → K)
    (fill : Int) (srt : List (Int × K) → List (Int × K)) (hs : SortsBy Prod.snd srt) (train : Nat → Tbl K → Bool)
    (number : Nat) (d : Tbl K) (hd : Aligned d) (hfill : fill ∉ d.fnames) (ys : List Int) (h1 : 1 ≤ number)
    (h2 : number ≤ d.dim) (hg : ∀ i < d.dim, score (labelledColumn d ys i) = .ok (g (labelledColumn d ys i))) :
    ∃ gone, filterSelect score fill srt (some train) number d ys = .ok (withoutFeatures d gone) ∧
      RemovesWorst (scoreTable g d ys) gone ∧ gone.length + number ≤ d.dim ∧
      (withoutFeatures d gone).dim = d.dim - gone.length ∧
      ((withoutFeatures d gone).dim = number ∨ ∃ t, train (gone.length + 1) t = false) := by
  have hsc := scores_ok score g d hd ys hg
  have hnames := scores_names score d ys hd.1 _ hsc
  have hnd : d.fnames.Nodup := hd.2.2.1.imp (fun h => ne_of_lt h)
  obtain ⟨hperm, _⟩ := hs (scoreTable g d ys)
  have hp : ((srt (scoreTable g d ys)).map Prod.fst).Perm d.fnames := by
    have := hperm.map Prod.fst
    rwa [hnames] at this
  obtain ⟨r, _, r2, r3, r4, _⟩ := elim_spec train d hd fill hfill (srt (scoreTable g d ys)) hp (d.dim - number) 0
    (by rw [← hd.1]; omega)
  rw [← hd.1] at r3 r4
  have hmin : ∀ k, k ≤ d.dim - number → min k (d.dim - 1) = k := fun k hk => by omega
  rw [hmin r (by omega)] at r3
  simp only [List.take_zero, List.nil_append, Nat.zero_min, without_nil d hd, Nat.zero_add] at r3 r4
  have hwor := take_removesWorst (fun p : Int × K => p.2) srt hs (scoreTable g d ys) (by rw [hnames]; exact hnd) r
  rw [show (scoreTable g d ys).map (fun p => (p.1, p.2)) = scoreTable g d ys by simp] at hwor
  have hlen : (((srt (scoreTable g d ys)).map Prod.fst).take r).length = r := by
    rw [List.length_take, hp.length_eq, ← hd.1]
    omega
  have hdim : (withoutFeatures d (((srt (scoreTable g d ys)).map Prod.fst).take r)).dim = d.dim - r := by
    show (withoutFeatures d _).fnames.length = _
    rw [without_length d hd _ hwor.1 (fun a ha => hp.mem_iff.1 (List.mem_of_mem_take ha)), hlen, hd.1]
  refine ⟨_, ?_, hwor, by rw [hlen]; omega, by rw [hdim, hlen], ?_⟩
  · unfold filterSelect
    rw [if_neg (by omega), hsc, Res_bind_ok]
    simp only
    rw [show ((d.dim : Int) - (number : Int)).toNat = d.dim - number by omega]
    exact r3
  · rcases r4 with r4 | r4
    · left; rw [hdim, r4]; omega
    · right; rw [hlen]; exact ⟨_, r4⟩

/-- **C59** (Golub).  With a wanted dimension between 1 and the number of features, both classes of at least two samples,
and no feature constant in both classes, the features removed have the lowest Golub scores, and the wanted number stay
unless a training on fewer features fails, which ends the selection. -/
theorem C59_golub_partial (srt : List (Int × ℝ) → List (Int × ℝ)) (hs : SortsBy Prod.snd srt) (train : Nat → Tbl ℝ → Bool)
    (number : Nat) (d : Tbl ℝ) (hd : Aligned d) (hzero : (0 : Int) ∉ d.fnames) (ys : List Int) (h1 : 1 ≤ number)
    (h2 : number ≤ d.dim) (hsc : Scorable d ys) :
    ∃ gone, filterSelect (golubScore Real.sqrt) 0 srt (some train) number d ys = .ok (withoutFeatures d gone) ∧
      RemovesWorst (scoreTable golub d ys) gone ∧ gone.length + number ≤ d.dim ∧
      (withoutFeatures d gone).dim = d.dim - gone.length ∧
      ((withoutFeatures d gone).dim = number ∨ ∃ t, train (gone.length + 1) t = false) := by
  obtain ⟨hy, hn, hp, hv⟩ := hsc
  exact filter_best _ golub 0 srt hs train number d hd hzero ys h1 h2 (fun i hi =>
    golub_ok _ (hv i hi) (by rw [labelled_count _ d ys hy]; exact hn) (by rw [labelled_count _ d ys hy]; exact hp))

/-- **C59** (Fisher).  The same with the score the program uses: squared distance of the means over the sum of the
standard deviations. -/
theorem C59_fisher_partial (srt : List (Int × ℝ) → List (Int × ℝ)) (hs : SortsBy Prod.snd srt) (train : Nat → Tbl ℝ → Bool)
    (number : Nat) (d : Tbl ℝ) (hd : Aligned d) (ys : List Int) (h1 : 1 ≤ number) (h2 : number ≤ d.dim)
    (hsc : Scorable d ys) :
    ∃ gone, filterSelect (fisherScore Real.sqrt) (-1) srt (some train) number d ys = .ok (withoutFeatures d gone) ∧
      RemovesWorst (scoreTable fisherDeviation d ys) gone ∧ gone.length + number ≤ d.dim ∧
      (withoutFeatures d gone).dim = d.dim - gone.length ∧
      ((withoutFeatures d gone).dim = number ∨ ∃ t, train (gone.length + 1) t = false) := by
  obtain ⟨hy, hn, hp, hv⟩ := hsc
  refine filter_best _ fisherDeviation (-1) srt hs train number d hd (fun h => ?_) ys h1 h2 (fun i hi =>
    fisher_ok _ (hv i hi) (by rw [labelled_count _ d ys hy]; exact hn) (by rw [labelled_count _ d ys hy]; exact hp))
  have := hd.2.2.2 _ h
  omega

/-- Two features, three samples of each class. -/
noncomputable def twoFeatures : Tbl ℝ :=
  { rows := [[-2, -1/2], [0, 0], [2, 1/2], [2, 1], [4, 3/2], [6, 2]], fnames := [1, 2], dim := 2 }

/-- Their labels. -/
def twoLabels : List Int := [-1, -1, -1, 1, 1, 1]

theorem twoFeatures_aligned : Aligned twoFeatures := by
  refine ⟨rfl, ?_, ?_, ?_⟩
  · intro r hr
    simp only [twoFeatures, List.mem_cons, List.not_mem_nil, or_false] at hr
    rcases hr with rfl | rfl | rfl | rfl | rfl | rfl <;> rfl
  · simp [twoFeatures]
  · simp [twoFeatures]

theorem two_values : (classValues (· == -1) (labelledColumn twoFeatures twoLabels 0) = [-2, 0, 2] ∧
      classValues (· != -1) (labelledColumn twoFeatures twoLabels 0) = [2, 4, 6]) ∧
    (classValues (· == -1) (labelledColumn twoFeatures twoLabels 1) = [-1/2, 0, 1/2] ∧
      classValues (· != -1) (labelledColumn twoFeatures twoLabels 1) = [1, 3/2, 2]) := by
  refine ⟨⟨?_, ?_⟩, ⟨?_, ?_⟩⟩ <;>
    simp [classValues, labelledColumn, twoFeatures, twoLabels]

theorem two_variances : sampleVariance ([-2, 0, 2] : List ℝ) = 4 ∧ sampleVariance ([2, 4, 6] : List ℝ) = 4 ∧
    sampleVariance ([-1/2, 0, 1/2] : List ℝ) = 1/4 ∧ sampleVariance ([1, 3/2, 2] : List ℝ) = 1/4 := by
  refine ⟨?_, ?_, ?_, ?_⟩ <;> norm_num [sampleVariance, sampleMean]

theorem twoFeatures_scorable : Scorable twoFeatures twoLabels := by
  refine ⟨rfl, by decide, by decide, ?_⟩
  intro i hi
  have : i = 0 ∨ i = 1 := by
    have : i < 2 := hi
    omega
  left
  rcases this with rfl | rfl
  · rw [two_values.1.2, two_variances.2.1]; norm_num
  · rw [two_values.2.2, two_variances.2.2.2]; norm_num

/-- The hypotheses of `C59_golub_partial` and `C59_fisher_partial` hold of a dataset of two features. -/
example : Aligned twoFeatures ∧ (0 : Int) ∉ twoFeatures.fnames ∧ 1 ≤ 1 ∧ 1 ≤ twoFeatures.dim ∧ Scorable twoFeatures twoLabels :=
  ⟨twoFeatures_aligned, by simp [twoFeatures], le_rfl, by simp [twoFeatures], twoFeatures_scorable⟩

theorem sqrt_four : Real.sqrt 4 = 2 := by
  rw [show (4 : ℝ) = 2 ^ 2 by norm_num]
  exact Real.sqrt_sq (by norm_num)

theorem sqrt_quarter : Real.sqrt (1 / 4) = 1 / 2 := by
  rw [show (1 / 4 : ℝ) = (1 / 2) ^ 2 by norm_num]
  exact Real.sqrt_sq (by norm_num)

theorem two_scores : (fisherDeviation (labelledColumn twoFeatures twoLabels 0) = 4 ∧
      fisherDeviation (labelledColumn twoFeatures twoLabels 1) = 9 / 4) ∧
    (fisherRatio (labelledColumn twoFeatures twoLabels 0) = 2 ∧
      fisherRatio (labelledColumn twoFeatures twoLabels 1) = 9 / 2) := by
  obtain ⟨⟨a1, a2⟩, b1, b2⟩ := two_values
  obtain ⟨v1, v2, v3, v4⟩ := two_variances
  refine ⟨⟨?_, ?_⟩, ?_, ?_⟩
  · rw [fisherDeviation, a1, a2, v1, v2, sqrt_four]
    norm_num [sampleMean]
  · rw [fisherDeviation, b1, b2, v3, v4, sqrt_quarter]
    norm_num [sampleMean]
  · rw [fisherRatio, a1, a2, v1, v2]
    norm_num [sampleMean]
  · rw [fisherRatio, b1, b2, v3, v4]
    norm_num [sampleMean]

/-- **C91** (Fisher), refuted.  The program divides by the sum of the standard deviations, not of the variances: here it
removes the feature with the higher Fisher criterion (feature 2, criterion 9/2) and keeps the other (feature 1,
criterion 2), for every sorting procedure and with every training successful. -/
theorem C91_fisher_refuted (srt : List (Int × ℝ) → List (Int × ℝ)) (hs : SortsBy Prod.snd srt) :
    filterSelect (fisherScore Real.sqrt) (-1) srt (some fun _ _ => true) 1 twoFeatures twoLabels =
        .ok (withoutFeatures twoFeatures [2]) ∧
      scoreTable fisherRatio twoFeatures twoLabels = [(1, 2), (2, 9 / 2)] ∧
      ¬ RemovesWorst (scoreTable fisherRatio twoFeatures twoLabels) [2] := by
  have ht : scoreTable fisherRatio twoFeatures twoLabels = [(1, 2), (2, 9 / 2)] := by
    show [((1 : Int), fisherRatio (labelledColumn twoFeatures twoLabels 0)),
      (2, fisherRatio (labelledColumn twoFeatures twoLabels 1))] = _
    rw [two_scores.2.1, two_scores.2.2]
  have hd : scoreTable fisherDeviation twoFeatures twoLabels = [(1, 4), (2, 9 / 4)] := by
    show [((1 : Int), fisherDeviation (labelledColumn twoFeatures twoLabels 0)),
      (2, fisherDeviation (labelledColumn twoFeatures twoLabels 1))] = _
    rw [two_scores.1.1, two_scores.1.2]
  refine ⟨?_, ht, ?_⟩
  · obtain ⟨gone, h1, h2, _, h4, h5⟩ := C59_fisher_partial srt hs (fun _ _ => true) 1 twoFeatures twoFeatures_aligned
      twoLabels le_rfl (by simp [twoFeatures]) twoFeatures_scorable
    rw [hd] at h2
    have hlen : gone.length = 1 := by
      rcases h5 with h5 | ⟨t, h5⟩
      · rw [h5] at h4
        have : twoFeatures.dim = 2 := rfl
        omega
      · cases h5
    obtain ⟨x, hx⟩ := List.length_eq_one_iff.1 hlen
    subst hx
    obtain ⟨_, w2, w3⟩ := h2
    have hx : x = 1 ∨ x = 2 := by simpa using w2 x (by simp)
    rcases hx with rfl | rfl
    · have := w3 1 4 2 (9 / 4) (by simp) (by simp) (by simp) (by simp)
      norm_num at this
    · exact h1
  · rw [ht]
    intro h
    have := h.2.2 2 (9 / 2) 1 2 (by simp) (by simp) (by simp) (by simp)
    norm_num at this

/-- **C91** (Golub).  The score listed for every feature is Golub's. -/
theorem C91_golub_partial (d : Tbl ℝ) (hd : Aligned d) (ys : List Int) (hsc : Scorable d ys) :
    scores (golubScore Real.sqrt) d ys = .ok (scoreTable golub d ys) := by
  obtain ⟨hy, hn, hp, hv⟩ := hsc
  exact scores_ok _ golub d hd ys (fun i hi =>
    golub_ok _ (hv i hi) (by rw [labelled_count _ d ys hy]; exact hn) (by rw [labelled_count _ d ys hy]; exact hp))

example : Aligned twoFeatures ∧ Scorable twoFeatures twoLabels := ⟨twoFeatures_aligned, twoFeatures_scorable⟩

/-- **C59**, refuted for the default wanted dimension 0: one feature stays. -/
theorem C59_default_refuted (srt : List (Int × ℝ) → List (Int × ℝ)) (hs : SortsBy Prod.snd srt) (d : Tbl ℝ) (hd : Aligned d)
    (hzero : (0 : Int) ∉ d.fnames) (hpos : 1 ≤ d.dim) (ys : List Int) (hsc : Scorable d ys) :
    ∃ gone, filterSelect (golubScore Real.sqrt) 0 srt (some fun _ _ => true) 0 d ys = .ok (withoutFeatures d gone) ∧
      (withoutFeatures d gone).dim = 1 := by
  have hsco := C91_golub_partial d hd ys hsc
  have hnames := scores_names _ d ys hd.1 _ hsco
  have hnd : d.fnames.Nodup := hd.2.2.1.imp (fun h => ne_of_lt h)
  obtain ⟨hperm, _⟩ := hs (scoreTable golub d ys)
  have hp : ((srt (scoreTable golub d ys)).map Prod.fst).Perm d.fnames := by
    have := hperm.map Prod.fst
    rwa [hnames] at this
  obtain ⟨r, _, r2, r3, r4, _⟩ := elim_spec (fun _ _ => true) d hd 0 hzero (srt (scoreTable golub d ys)) hp d.dim 0
    (by rw [← hd.1]; omega)
  rw [← hd.1] at r3
  have hr : r = d.dim := by
    rcases r4 with r4 | r4
    · omega
    · cases r4
  subst hr
  simp only [List.take_zero, List.nil_append, Nat.zero_min, without_nil d hd,
    show min d.dim (d.dim - 1) = d.dim - 1 by omega] at r3
  refine ⟨((srt (scoreTable golub d ys)).map Prod.fst).take (d.dim - 1), ?_, ?_⟩
  · unfold filterSelect
    rw [if_neg (by omega), hsco, Res_bind_ok]
    simp only
    rw [show ((d.dim : Int) - 0).toNat = d.dim by omega]
    exact r3
  · show (withoutFeatures d _).fnames.length = _
    have hnd' : ((srt (scoreTable golub d ys)).map Prod.fst).Nodup := hp.nodup_iff.2 hnd
    rw [without_length d hd _ (hnd'.sublist (List.take_sublist _ _)) (fun a ha => hp.mem_iff.1 (List.mem_of_mem_take ha)),
      List.length_take, hp.length_eq, ← hd.1]
    omega

/-- **C59**, refuted for the default classifier, a null pointer. -/
theorem C59_null_refuted (srt : List (Int × ℝ) → List (Int × ℝ)) (d : Tbl ℝ) (hd : Aligned d) (ys : List Int)
    (hsc : Scorable d ys) (number : Nat) (h : number ≤ d.dim) :
    filterSelect (golubScore Real.sqrt) 0 srt none number d ys = .error .badPointer := by
  unfold filterSelect
  rw [if_neg (by omega), C91_golub_partial d hd ys hsc, Res_bind_ok]

/-- **C59**, refuted when a class has fewer than two samples: no score is a number. -/
theorem C59_small_class_refuted {K : Type} [Field K] [LinearOrder K] [IsStrictOrderedRing K] (sqrt : K → K) (fill : Int)
    (srt : List (Int × K) → List (Int × K)) (train : Option (Nat → Tbl K → Bool)) (number : Nat) (d : Tbl K)
    (hd : Aligned d) (hpos : 1 ≤ d.dim) (h : number ≤ d.dim) (ys : List Int) (hy : ys.length = d.rows.length)
    (hsmall : ys.countP (· == -1) < 2 ∨ ys.countP (· != -1) < 2) :
    filterSelect (golubScore sqrt) fill srt train number d ys = .error .nonFinite ∧
      filterSelect (fisherScore sqrt) fill srt train number d ys = .error .nonFinite := by
  have hm : ∀ i, moments sqrt (labelledColumn d ys i) = .error .nonFinite := by
    intro i
    apply moments_fail
    rw [labelled_count _ d ys hy, labelled_count _ d ys hy]
    exact hsmall
  have hsc : ∀ score : List (K × Int) → Res K, score (labelledColumn d ys 0) = .error .nonFinite →
      scores score d ys = .error .nonFinite := by
    intro score hs
    unfold scores
    obtain ⟨n, hn⟩ : ∃ n, d.dim = n + 1 := ⟨d.dim - 1, by omega⟩
    rw [hn, List.range_succ_eq_map, List.mapM_cons, column_ok d hd.2.1 ys 0 hpos, Res_bind_ok, hs, Res_bind_error,
      Res_bind_error]
  constructor
  · unfold filterSelect
    rw [if_neg (by omega), hsc _ (by rw [golubScore, hm 0, Res_bind_error]), Res_bind_error]
  · unfold filterSelect
    rw [if_neg (by omega), hsc _ (by rw [fisherScore, hm 0, Res_bind_error]), Res_bind_error]

/-- A dataset with one negative sample meets the hypotheses. -/
example : let ys : List Int := [-1, 1, 1, 1, 1, 1]
    ys.length = twoFeatures.rows.length ∧ (ys.countP (· == -1) < 2 ∨ ys.countP (· != -1) < 2) := by
  refine ⟨rfl, Or.inl (by decide)⟩

/-! ### Recursive feature elimination -/

/-- **C60**.  With a final dimension between 1 and `dim - 1`, a step of at least 1, no stop by cross-validation and every
training successful, recursive elimination removes in each round the features with the least absolute weights, and ends
with the final dimension. -/
theorem C60_elimination_partial {K : Type} [Field K] [LinearOrder K] (learn : Nat → Tbl K → Option (List K))
    (hlearn : ∀ k t, ∃ w, learn k t = some w ∧ w.length = t.dim) (srt : List (Int × K) → List (Int × K))
    (hs : SortsBy (fun p => |p.2|) srt) (jump finalDim : Nat) (hj : 1 ≤ jump) (d : Tbl K) (hd : Aligned d)
    (h1 : 1 ≤ finalDim) (h2 : finalDim < d.dim) (fuel : Nat) (hfuel : d.dim < fuel) :
    ∃ d' jump', rfe fuel learn (fun _ => false) srt jump finalDim d = .ok (d', jump') ∧
      Elimination learn jump (d.dim - finalDim) 0 0 d d' ∧ d'.dim = finalDim ∧ Aligned d' := by
  obtain ⟨d', e1, e2, e3, e4⟩ := rfeLoop_ok learn srt hs d (d.dim - finalDim) jump hj hlearn fuel 0 0 jump [] d hd
    (by simp) rfl (by omega) (by omega) (by omega) (by omega) (fun _ => rfl)
  refine ⟨d', if (d.dim - finalDim) % jump = 0 then jump else 0, ?_, e2, by rw [e3]; omega, e4⟩
  rw [if_neg (by omega)] at e1
  unfold rfe
  simp only
  rw [if_neg (by omega), show ((d.dim : Int) - (finalDim : Int)).toNat = d.dim - finalDim by omega]
  simpa using e1

/-- **C60**, refuted when a later training fails: the whole dataset is returned, not the last one trained. -/
theorem C60_failed_training_refuted {K : Type} [Field K] [LinearOrder K] (learn : Nat → Tbl K → Option (List K))
    (h0 : ∀ t, ∃ w, learn 0 t = some w ∧ w.length = t.dim) (hfail : ∀ t, learn 1 t = none)
    (srt : List (Int × K) → List (Int × K))
    (hs : SortsBy (fun p => |p.2|) srt) (jump finalDim : Nat) (hj : 1 ≤ jump) (d : Tbl K) (hd : Aligned d)
    (h1 : 1 ≤ finalDim) (h2 : finalDim < d.dim) (fuel : Nat) (hfuel : 2 ≤ fuel) :
    ∃ jump', rfe fuel learn (fun _ => false) srt jump finalDim d = .ok (d, jump') ∧ d.dim ≠ finalDim := by
  obtain ⟨w, hw, hwl⟩ := h0 d
  obtain ⟨f, hf⟩ : ∃ f, fuel = f + 1 + 1 := ⟨fuel - 2, by omega⟩
  obtain ⟨r1, r2, r3, _⟩ := round_ok d hd w hwl srt hs [] (by simp) (d.dim - finalDim) (min jump (d.dim - finalDim))
    (by omega) (by omega) (by omega)
  have hlj : (if 0 + jump > d.dim - finalDim then d.dim - finalDim else 0 + jump) - 0 = min jump (d.dim - finalDim) := by
    split_ifs <;> omega
  unfold rfe
  simp only
  rw [if_neg (by omega), show ((d.dim : Int) - (finalDim : Int)).toNat = d.dim - finalDim by omega, hf, rfeLoop]
  simp only [hw, Bool.false_eq_true, or_false]
  simp only [List.nil_append, List.length_nil] at r2 r3
  rw [r1, Res_bind_ok, if_neg (by omega), hlj, r2, Res_bind_ok, r3, Res_bind_ok]
  by_cases ho : 0 + jump > d.dim - finalDim
  · simp only [if_pos ho]
    rw [rfeLoop]
    simp only [hfail]
    exact ⟨0, by rw [if_pos (by omega)], by omega⟩
  · simp only [if_neg ho]
    rw [rfeLoop]
    simp only [hfail]
    exact ⟨jump, by rw [if_pos (by omega)], by omega⟩

/-- **C92**.  If the step does not divide the number of features to remove, the search sets the step of the object to 0,
and the next search with the same object never ends. -/
theorem C92_second_search_refuted {K : Type} [Field K] [LinearOrder K] (learn : Nat → Tbl K → Option (List K))
    (hlearn : ∀ k t, ∃ w, learn k t = some w ∧ w.length = t.dim) (srt : List (Int × K) → List (Int × K))
    (hs : SortsBy (fun p => |p.2|) srt) (jump finalDim : Nat) (hj : 1 ≤ jump) (d : Tbl K) (hd : Aligned d)
    (h1 : 1 ≤ finalDim) (h2 : finalDim < d.dim) (hdvd : ¬ jump ∣ d.dim - finalDim) (fuel : Nat) (hfuel : d.dim < fuel) :
    ∃ d' jump', rfe fuel learn (fun _ => false) srt jump finalDim d = .ok (d', jump') ∧
      ∀ fuel', rfe fuel' learn (fun _ => false) srt jump' finalDim d = .error .diverges := by
  obtain ⟨d', e1, _⟩ := rfeLoop_ok learn srt hs d (d.dim - finalDim) jump hj hlearn fuel 0 0 jump [] d hd
    (by simp) rfl (by omega) (by omega) (by omega) (by omega) (fun _ => rfl)
  refine ⟨d', 0, ?_, ?_⟩
  · unfold rfe
    simp only
    rw [if_neg (by omega), show ((d.dim : Int) - (finalDim : Int)).toNat = d.dim - finalDim by omega]
    rw [if_neg (by omega), if_neg (by
      rw [Nat.sub_zero]
      exact fun h => hdvd (Nat.dvd_of_mod_eq_zero h))] at e1
    simpa using e1
  · intro fuel'
    unfold rfe
    simp only
    rw [if_neg (by omega), show ((d.dim : Int) - (finalDim : Int)).toNat = d.dim - finalDim by omega]
    exact rfeLoop_stuck learn srt hs d (d.dim - finalDim) hlearn d hd (by omega) (by omega) fuel' 0

/-- **C92**.  If the step divides the number of features to remove, the object keeps its step, so a second search works
like the first. -/
theorem C92_second_search_partial {K : Type} [Field K] [LinearOrder K] (learn : Nat → Tbl K → Option (List K))
    (hlearn : ∀ k t, ∃ w, learn k t = some w ∧ w.length = t.dim) (srt : List (Int × K) → List (Int × K))
    (hs : SortsBy (fun p => |p.2|) srt) (jump finalDim : Nat) (hj : 1 ≤ jump) (d : Tbl K) (hd : Aligned d)
    (h1 : 1 ≤ finalDim) (h2 : finalDim < d.dim) (hdvd : jump ∣ d.dim - finalDim) (fuel : Nat) (hfuel : d.dim < fuel) :
    ∃ d', rfe fuel learn (fun _ => false) srt jump finalDim d = .ok (d', jump) := by
  obtain ⟨d', e1, _⟩ := rfeLoop_ok learn srt hs d (d.dim - finalDim) jump hj hlearn fuel 0 0 jump [] d hd
    (by simp) rfl (by omega) (by omega) (by omega) (by omega) (fun _ => rfl)
  refine ⟨d', ?_⟩
  unfold rfe
  simp only
  rw [if_neg (by omega), show ((d.dim : Int) - (finalDim : Int)).toNat = d.dim - finalDim by omega]
  rw [if_neg (by omega), if_pos (by rw [Nat.sub_zero]; exact Nat.mod_eq_zero_of_dvd hdvd)] at e1
  simpa using e1

/-- **C60**, refuted for a final dimension that is not below the number of features (or not above 0): the result is an
empty dataset. -/
theorem C60_invalid_depth_refuted {K : Type} [Field K] [LinearOrder K] (learn : Nat → Tbl K → Option (List K))
    (stop : Nat → Bool) (srt : List (Int × K) → List (Int × K)) (jump fuel : Nat) (finalDim : Int) (d : Tbl K)
    (h : (d.dim : Int) ≤ finalDim ∨ finalDim ≤ 0) :
    rfe fuel learn stop srt jump finalDim d = .ok (⟨[], [], 0⟩, jump) := by
  unfold rfe
  simp only
  rw [if_pos (by omega)]

/-- The hypotheses on trainings and sorting can be met, e.g. by a training that returns zero weights and an insertion sort. -/
example : ∃ (learn : Nat → Tbl ℚ → Option (List ℚ)) (srt : List (Int × ℚ) → List (Int × ℚ)),
    (∀ k t, ∃ w, learn k t = some w ∧ w.length = t.dim) ∧ SortsBy (fun p => |p.2|) srt := by
  refine ⟨fun _ t => some (List.replicate t.dim 0), List.insertionSort (fun a b => |a.2| ≤ |b.2|), ?_, ?_⟩
  · intro k t
    exact ⟨_, rfl, by simp⟩
  · intro l
    haveI : Std.Total (fun a b : Int × ℚ => |a.2| ≤ |b.2|) := ⟨fun a b => le_total _ _⟩
    haveI : IsTrans (Int × ℚ) (fun a b : Int × ℚ => |a.2| ≤ |b.2|) := ⟨fun a b c h1 h2 => le_trans h1 h2⟩
    exact ⟨List.perm_insertionSort _ l, List.pairwise_insertionSort _ l⟩

/-- A search on a dataset of four features down to one in steps of two: the weights are the values of the first row, and
the features go in the order of their absolute weights. -/
example : rfe 6 (fun _ t => t.rows.head?) (fun _ => false) (List.insertionSort (fun a b => |a.2| ≤ |b.2|)) 2 1
    (⟨[[3, -1, 2, -4], [0, 0, 0, 0]], [1, 2, 3, 4], 4⟩ : Tbl ℚ) = .ok (⟨[[-4], [0]], [4], 1⟩, 0) := by
  decide +kernel

end MLTK.Props
