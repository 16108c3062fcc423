import Mathlib.Algebra.BigOperators.Group.List.Basic
import Verif.Lemmas.Select
import Verif.Model.RfeCv
import Verif.Spec.RfeCv
/-!
# Lemmas about eliminating features with cross-validation
-/
namespace MLTK.Select
open MLTK.Data (Res_bind_ok Res_bind_error Res_pure)
open MLTK.Feat
open MLTK.Spec
open MLTK.Props (Aligned)

section
variable {K : Type} [Field K] [LinearOrder K]

omit [LinearOrder K] in
theorem sumErrors_eq (err : Nat → K) (n : Nat) : sumErrors err n = ((List.range n).map err).sum := by
  unfold sumErrors
  induction n with
  | zero => rfl
  | succ n ih =>
    rw [List.range_succ, List.foldl_append, List.map_append, List.sum_append, ih]
    simp

omit [LinearOrder K] in
theorem lastError_eq (err : Nat → K) (n : Nat) (hn : 1 ≤ n) : lastError err n = err (n - 1) := by
  unfold lastError
  obtain ⟨m, rfl⟩ : ∃ m, n = m + 1 := ⟨n - 1, by omega⟩
  rw [List.range_succ, List.foldl_append]
  rfl

/-- The weights a round goes by. -/
def usedWeights (cj : Nat) (w0 left : Nat → Tbl K → List K) (k level : Nat) (t : Tbl K) : List K :=
  if cj ∣ level then left k t else w0 k t

/-- What makes a round stop. -/
def tooHigh (q cj : Nat) (limit first : K) (err : Nat → Nat → Tbl K → K) (k level : Nat) (t : Tbl K) : Prop :=
  0 < level ∧ cj ∣ level ∧ ((List.range q).map (fun i => err k i t)).sum - first > limit

omit [LinearOrder K] in
theorem validateRound_first (q cj : Nat) (hq : 1 ≤ q) (limit : K) (err : Nat → K) (left w : List K) (ia : K × K) :
    validateRound ⟨q, cj, limit⟩ err left 0 w ia = .ok ((err (q - 1), ia.2), left) := by
  unfold validateRound
  rw [if_neg (by show ¬ q = 0; omega), if_pos rfl, lastError_eq _ _ hq]

omit [LinearOrder K] in
theorem validateRound_later (q cj : Nat) (hq : 1 ≤ q) (hc : 1 ≤ cj) (limit : K) (err : Nat → K) (left w : List K)
    (ia : K × K) (level : Nat) (hl : 0 < level) :
    validateRound ⟨q, cj, limit⟩ err left level w ia =
      .ok ((ia.1, if cj ∣ level then ((List.range q).map err).sum else ia.2), if cj ∣ level then left else w) := by
  unfold validateRound
  rw [if_neg (by show ¬ q = 0; omega), if_neg (by omega), if_neg (by show ¬ cj = 0; omega)]
  by_cases h : cj ∣ level
  · rw [if_pos (Nat.mod_eq_zero_of_dvd h), if_pos h, if_pos h, sumErrors_eq]
  · rw [if_neg (fun e => h (Nat.dvd_of_mod_eq_zero e)), if_neg h, if_neg h]

omit [LinearOrder K] in
theorem finalErrors_ok (q cj : Nat) (hq : 1 ≤ q) (hc : 1 ≤ cj) (limit : K) (err : Nat → K) (level : Nat) (ia : K × K)
    (h : cj ∣ level → ia.2 = ((List.range q).map err).sum) :
    finalErrors ⟨q, cj, limit⟩ err level ia = .ok (ia.1, ((List.range q).map err).sum) := by
  unfold finalErrors
  rw [if_neg (by show ¬ q = 0; omega), if_neg (by show ¬ cj = 0; omega)]
  by_cases hd : cj ∣ level
  · rw [if_neg (by simpa using Nat.mod_eq_zero_of_dvd hd), ← h hd]
  · rw [if_pos (fun e => hd (Nat.dvd_of_mod_eq_zero e)), sumErrors_eq]

/-- A round that does not stop. -/
theorem rfeCv_step (learn : Nat → Tbl K → Option (List K)) (err : Nat → Nat → Tbl K → K) (left : Nat → Tbl K → List K)
    (srt : List (Int × K) → List (Int × K)) (hs : SortsBy (fun p => |p.2|) srt) (samples : Tbl K) (depth : Nat) (cv : Cv K)
    (fuel k level prev j lj : Nat) (F : List Int) (d : Tbl K) (ia ia' : K × K) (w w' : List K) (hw : learn k d = some w)
    (hv : validateRound cv (fun i => err k i d) (left k d) level w ia = .ok (ia', w')) (hwl : w'.length = d.dim)
    (hd : Aligned d) (hF : ∀ f ∈ F, f ∉ d.fnames) (hFl : F.length = level) (hlt : level < depth)
    (hdim : depth < level + d.dim) (hns : ¬ (0 < cv.qtde ∧ ia'.2 - ia'.1 > cv.limit)) :
    ∃ gone, gone.length = min j (depth - level) ∧ RemovesWorst (d.fnames.zip (w'.map (fun x => |x|))) gone ∧
      Aligned (withoutFeatures d gone) ∧ (∀ f ∈ F ++ gone, f ∉ (withoutFeatures d gone).fnames) ∧
      (withoutFeatures d gone).dim = d.dim - min j (depth - level) ∧
      rfeCvLoop learn err left srt samples depth cv (fuel + 1) k level prev j lj (F ++ List.replicate (depth - level) (-1)) d ia =
        (if level + j > depth then
          rfeCvLoop learn err left srt samples depth cv fuel (k + 1) depth level 0 depth
            (F ++ gone ++ List.replicate (depth - level - min j (depth - level)) (-1)) (withoutFeatures d gone) ia'
        else rfeCvLoop learn err left srt samples depth cv fuel (k + 1) (level + j) level j (level + j)
            (F ++ gone ++ List.replicate (depth - level - min j (depth - level)) (-1)) (withoutFeatures d gone) ia') := by
  obtain ⟨r1, r2, r3, r4, r5, r6⟩ := round_ok d hd w' hwl srt hs F hF (depth - level) (min j (depth - level))
    (by omega) (by omega) (by omega)
  refine ⟨((srt (d.fnames.zip w')).map Prod.fst).take (min j (depth - level)), r5, r4, aligned_without d hd _, ?_, r6, ?_⟩
  · intro f hf hcon
    have := List.mem_filter.1 hcon
    rcases List.mem_append.1 hf with h | h
    · exact hF f h this.1
    · simp only [decide_eq_true_eq] at this
      exact this.2 h
  · rw [rfeCvLoop]
    simp only [hw]
    have hlj : (if level + j > depth then depth else level + j) - level = min j (depth - level) := by
      split_ifs <;> omega
    rw [hv, Res_bind_ok]
    simp only
    rw [r1, Res_bind_ok, if_neg (by
      rintro (h | h)
      · omega
      · exact hns h), hlj]
    rw [hFl] at r2
    rw [r2, Res_bind_ok, r3, Res_bind_ok]
    by_cases ho : level + j > depth
    · simp only [if_pos ho]
    · simp only [if_neg ho]

/-- A round that stops. -/
theorem rfeCv_stop (learn : Nat → Tbl K → Option (List K)) (err : Nat → Nat → Tbl K → K) (left : Nat → Tbl K → List K)
    (srt : List (Int × K) → List (Int × K)) (samples : Tbl K) (depth : Nat) (cv : Cv K)
    (fuel k level prev j lj : Nat) (F : List Int) (d : Tbl K) (ia ia' : K × K) (w w' : List K) (hw : learn k d = some w)
    (hv : validateRound cv (fun i => err k i d) (left k d) level w ia = .ok (ia', w')) (hwl : w'.length = d.dim)
    (hd : Aligned d) (hst : level ≥ depth ∨ (0 < cv.qtde ∧ ia'.2 - ia'.1 > cv.limit)) :
    rfeCvLoop learn err left srt samples depth cv (fuel + 1) k level prev j lj F d ia =
      (if lj = 0 then .error .outOfBounds
        else finalErrors cv (fun i => err k i d) level ia' >>= fun e => .ok (d, j, e)) := by
  rw [rfeCvLoop]
  simp only [hw]
  rw [hv, Res_bind_ok]
  simp only
  rw [weights_ok d hd.1 w' hwl, Res_bind_ok, if_pos hst]

/-- The rounds after the first one. -/
theorem rfeCv_later (w0 left : Nat → Tbl K → List K) (err : Nat → Nat → Tbl K → K) (h0 : ∀ k t, (w0 k t).length = t.dim)
    (hl : ∀ k t, (left k t).length = t.dim) (srt : List (Int × K) → List (Int × K)) (hs : SortsBy (fun p => |p.2|) srt)
    (samples : Tbl K) (depth jump q cj : Nat) (limit first : K) (hj : 1 ≤ jump) (hq : 1 ≤ q) (hc : 1 ≤ cj)
    (must : Nat → Nat → Tbl K → Prop) (hmust : ∀ k level t, must k level t → tooHigh q cj limit first err k level t) :
    ∀ (fuel k level prev j : Nat) (F : List Int) (d : Tbl K) (a : K), Aligned d → (∀ f ∈ F, f ∉ d.fnames) →
      F.length = level → 0 < level → level ≤ depth → depth - level < fuel → depth < level + d.dim →
      (level < depth → j = jump) → a - first ≤ limit →
      ∃ d' j' e, rfeCvLoop (fun k t => some (w0 k t)) err left srt samples depth ⟨q, cj, limit⟩ fuel k level prev j level
          (F ++ List.replicate (depth - level) (-1)) d (first, a) = .ok (d', j', (first, e)) ∧
        ValidatedElimination (usedWeights cj w0 left) must (tooHigh q cj limit first err) jump depth k level d d' ∧
        (∃ n, e = ((List.range q).map (fun i => err n i d')).sum) ∧ Aligned d' := by
  intro fuel
  induction fuel with
  | zero => intro k level prev j F d a _ _ _ _ _ h; omega
  | succ fuel ih =>
    intro k level prev j F d a hd hF hFl hlp hlev hfuel hdim hjj ha
    have hv := validateRound_later q cj hq hc limit (fun i => err k i d) (left k d) (w0 k d) (first, a) level hlp
    have hwl : (if cj ∣ level then left k d else w0 k d).length = d.dim := by
      split
      · exact hl k d
      · exact h0 k d
    by_cases hst : level ≥ depth ∨
        (0 < q ∧ (if cj ∣ level then ((List.range q).map (fun i => err k i d)).sum else a) - first > limit)
    · have e := rfeCv_stop (fun k t => some (w0 k t)) err left srt samples depth ⟨q, cj, limit⟩ fuel k level prev j level
        (F ++ List.replicate (depth - level) (-1)) d (first, a) _ (w0 k d) _ rfl hv hwl hd hst
      rw [if_neg (by omega), finalErrors_ok q cj hq hc limit _ level _ (fun h => by simp only; rw [if_pos h]),
        Res_bind_ok] at e
      refine ⟨d, j, _, e, ?_, ⟨k, rfl⟩, hd⟩
      rcases hst with hst | ⟨_, hst⟩
      · obtain rfl : level = depth := by omega
        exact .final k d
      · refine .stop k level d ?_
        by_cases hdv : cj ∣ level
        · rw [if_pos hdv] at hst
          exact ⟨hlp, hdv, hst⟩
        · rw [if_neg hdv] at hst
          exact absurd ha (not_le.2 hst)
    · have hlt : level < depth := by
        rcases Nat.lt_or_ge level depth with h | h
        · exact h
        · exact absurd (Or.inl h) hst
      have hns : ¬ (0 < q ∧ (if cj ∣ level then ((List.range q).map (fun i => err k i d)).sum else a) - first > limit) :=
        fun h => hst (Or.inr h)
      have ha' : (if cj ∣ level then ((List.range q).map (fun i => err k i d)).sum else a) - first ≤ limit :=
        not_lt.1 (fun h => hns ⟨by omega, h⟩)
      have hnm : ¬ must k level d := by
        intro h
        obtain ⟨_, h2, h3⟩ := hmust k level d h
        rw [if_pos h2] at ha'
        exact absurd ha' (not_le.2 h3)
      obtain rfl := hjj hlt
      obtain ⟨gone, g1, g2, g3, g4, g5, g6⟩ := rfeCv_step (fun k t => some (w0 k t)) err left srt hs samples depth
        ⟨q, cj, limit⟩ fuel k level prev j level F d (first, a) _ (w0 k d) _ rfl hv hwl hd hF hFl hlt hdim hns
      rw [g6]
      by_cases hover : level + j > depth
      · simp only [if_pos hover]
        obtain ⟨d', j', e, e1, e2, e3, e4⟩ := ih (k + 1) depth level 0 (F ++ gone) (withoutFeatures d gone) _ g3 g4
          (by rw [List.length_append, g1, hFl]; omega) (by omega) le_rfl (by omega) (by rw [g5]; omega) (by omega) ha'
        rw [show depth - depth = depth - level - min j (depth - level) by omega] at e1
        refine ⟨d', j', e, e1, ?_, e3, e4⟩
        refine .step k level d d' gone hlt hnm g1 g2 ?_
        rw [g1, show level + min j (depth - level) = depth by omega]
        exact e2
      · simp only [if_neg hover]
        obtain ⟨d', j', e, e1, e2, e3, e4⟩ := ih (k + 1) (level + j) level j (F ++ gone) (withoutFeatures d gone) _ g3 g4
          (by rw [List.length_append, g1, hFl]; omega) (by omega) (by omega) (by omega) (by rw [g5]; omega) (fun _ => rfl) ha'
        rw [show depth - (level + j) = depth - level - min j (depth - level) by omega] at e1
        refine ⟨d', j', e, e1, ?_, e3, e4⟩
        refine .step k level d d' gone hlt hnm g1 g2 ?_
        rw [g1, show level + min j (depth - level) = level + j by omega]
        exact e2

/-- The whole search. -/
theorem rfeCv_ok (w0 left : Nat → Tbl K → List K) (err : Nat → Nat → Tbl K → K) (h0 : ∀ k t, (w0 k t).length = t.dim)
    (hl : ∀ k t, (left k t).length = t.dim) (srt : List (Int × K) → List (Int × K)) (hs : SortsBy (fun p => |p.2|) srt)
    (jump finalDim q cj : Nat) (limit : K) (ia : K × K) (d : Tbl K) (hd : Aligned d) (hj : 1 ≤ jump) (hq : 1 ≤ q) (hc : 1 ≤ cj)
    (h1 : 1 ≤ finalDim) (h2 : finalDim < d.dim) (hfirst : 0 - err 0 (q - 1) d ≤ limit) (fuel : Nat) (hfuel : d.dim < fuel)
    (must : Nat → Nat → Tbl K → Prop)
    (hmust : ∀ k level t, must k level t → tooHigh q cj limit (err 0 (q - 1) d) err k level t) :
    ∃ d' j' e, rfeCv fuel (fun k t => some (w0 k t)) err left srt jump finalDim ⟨q, cj, limit⟩ ia d =
        .ok (d', j', (err 0 (q - 1) d, e)) ∧
      ValidatedElimination (usedWeights cj w0 left) must (tooHigh q cj limit (err 0 (q - 1) d) err) jump (d.dim - finalDim)
        0 0 d d' ∧
      (∃ n, e = ((List.range q).map (fun i => err n i d')).sum) ∧ Aligned d' := by
  obtain ⟨f, rfl⟩ : ∃ f, fuel = f + 1 := ⟨fuel - 1, by omega⟩
  unfold rfeCv
  simp only
  rw [if_neg (by omega), show ((d.dim : Int) - (finalDim : Int)).toNat = d.dim - finalDim by omega,
    if_pos (by omega : 0 < q)]
  have hv := validateRound_first q cj hq limit (fun i => err 0 i d) (left 0 d) (w0 0 d) (0, 0)
  have hnm : ¬ must 0 0 d := fun h => absurd (hmust 0 0 d h).1 (by omega)
  obtain ⟨gone, g1, g2, g3, g4, g5, g6⟩ := rfeCv_step (fun k t => some (w0 k t)) err left srt hs d (d.dim - finalDim)
    ⟨q, cj, limit⟩ f 0 0 0 jump 0 [] d (0, 0) _ (w0 0 d) _ rfl hv (hl 0 d) hd (by simp) rfl (by omega) (by omega)
    (fun h => absurd hfirst (not_le.2 h.2))
  rw [List.nil_append, Nat.sub_zero] at g6
  rw [Nat.sub_zero] at g1 g5
  rw [g6]
  have hu : usedWeights cj w0 left 0 0 d = left 0 d := by
    unfold usedWeights
    rw [if_pos (dvd_zero cj)]
  by_cases hover : 0 + jump > d.dim - finalDim
  · simp only [if_pos hover]
    obtain ⟨d', j', e, e1, e2, e3, e4⟩ := rfeCv_later w0 left err h0 hl srt hs d (d.dim - finalDim) jump q cj limit
      (err 0 (q - 1) d) hj hq hc must hmust f 1 (d.dim - finalDim) 0 0 ([] ++ gone) (withoutFeatures d gone) 0 g3 g4
      (by rw [List.nil_append, g1]; omega) (by omega) le_rfl (by omega) (by rw [g5]; omega) (by omega) hfirst
    rw [show d.dim - finalDim - (d.dim - finalDim) = d.dim - finalDim - min jump (d.dim - finalDim) by omega] at e1
    refine ⟨d', j', e, e1, ?_, e3, e4⟩
    refine .step 0 0 d d' gone (by omega) hnm (by rw [Nat.sub_zero]; exact g1) (by rw [hu]; exact g2) ?_
    rw [g1, show 0 + min jump (d.dim - finalDim) = d.dim - finalDim by omega]
    exact e2
  · simp only [if_neg hover]
    obtain ⟨d', j', e, e1, e2, e3, e4⟩ := rfeCv_later w0 left err h0 hl srt hs d (d.dim - finalDim) jump q cj limit
      (err 0 (q - 1) d) hj hq hc must hmust f 1 (0 + jump) 0 jump ([] ++ gone) (withoutFeatures d gone) 0 g3 g4
      (by rw [List.nil_append, g1]; omega) (by omega) (by omega) (by omega) (by rw [g5]; omega) (fun _ => rfl) hfirst
    rw [show d.dim - finalDim - (0 + jump) = d.dim - finalDim - min jump (d.dim - finalDim) by omega] at e1
    refine ⟨d', j', e, e1, ?_, e3, e4⟩
    refine .step 0 0 d d' gone (by omega) hnm (by rw [Nat.sub_zero]; exact g1) (by rw [hu]; exact g2) ?_
    rw [g1, show 0 + min jump (d.dim - finalDim) = 0 + jump by omega]
    exact e2

theorem validated_mono {used : Nat → Nat → Tbl K → List K} {must may must' may' : Nat → Nat → Tbl K → Prop} {jump depth : Nat}
    (h1 : ∀ k level t, must' k level t → must k level t) (h2 : ∀ k level t, may k level t → may' k level t)
    {k level : Nat} {d d' : Tbl K} (h : ValidatedElimination used must may jump depth k level d d') :
    ValidatedElimination used must' may' jump depth k level d d' := by
  induction h with
  | final k d => exact .final k d
  | stop k level d hm => exact .stop k level d (h2 _ _ _ hm)
  | step k level d d' gone g1 g2 g3 g4 _ ih => exact .step k level d d' gone g1 (fun h => g2 (h1 _ _ _ h)) g3 g4 ih

omit [Field K] [LinearOrder K] in
/-- Writing a list into a vector from a position on. -/
theorem fill_ok (xs : List K) : ∀ (pre post : List K), xs.length ≤ post.length →
    xs.foldlM (fun (s : Nat × List K) x => do
      let v ← vset s.2 s.1 x
      (pure (s.1 + 1, v) : Res (Nat × List K))) (pre.length, pre ++ post) =
      .ok (pre.length + xs.length, pre ++ xs ++ post.drop xs.length) := by
  induction xs with
  | nil => intro pre post _; simp [Res_pure]
  | cons x xs ih =>
    intro pre post h
    cases post with
    | nil => simp at h
    | cons p post =>
      rw [List.foldlM_cons]
      have e : vset (pre ++ p :: post) pre.length x = .ok (pre ++ [x] ++ post) := by
        unfold vset
        rw [if_pos (by simp)]
        congr 1
        simp
      simp only [e, Res_bind_ok, Res_pure]
      have := ih (pre ++ [x]) post (by simpa using h)
      rw [List.length_append, List.length_singleton] at this
      refine Eq.trans this ?_
      congr 2
      · simp only [List.length_cons]; omega
      · simp

end
end MLTK.Select
