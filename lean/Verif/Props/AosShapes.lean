import Verif.Model.AosShapes
import Verif.Spec.AosShapes
import Verif.Lemmas.Select
import Verif.Lemmas.AosRun
import Verif.Props.AosRun
import Verif.Props.Stats
/-!
# C201 and C202: the criteria and the node values of an admissible ordered search
-/
namespace MLTK.Props
open MLTK.Aos
open MLTK.Select (sumStep devStep quot sums_spec devs_spec)
open MLTK.Perc (Libm)
open MLTK.Spec
open MLTK.Data (Res_bind_ok Res_bind_error Res_pure)

section
variable {K : Type} [Field K] [LinearOrder K]

omit [Field K] [LinearOrder K] in
private theorem recorded_ok {ls classes : List Int} {dist : List Nat} (h : ClassTable ls classes dist) {c : Int}
    (hc : c ∈ ls) : recorded classes dist c = .ok (ls.count c) := by
  have hm := (h.mem c).2 hc
  have hlt : classes.idxOf c < classes.length := List.idxOf_lt_length_iff.2 hm
  rw [recorded, vget_eq_ok, h.counts, List.getElem?_map, List.getElem?_eq_getElem hlt, Option.map_some,
    List.getElem_idxOf hlt]

omit [Field K] [LinearOrder K] in
private theorem recorded_absent {ls classes : List Int} {dist : List Nat} (h : ClassTable ls classes dist) {c : Int}
    (hc : c ∉ ls) : recorded classes dist c = .error .outOfBounds := by
  have hm : c ∉ classes := fun hin => hc ((h.mem c).1 hin)
  have hl : dist.length = classes.length := by rw [h.counts, List.length_map]
  unfold recorded vget
  rw [List.getElem?_eq_none (by rw [hl, List.idxOf_eq_length hm])]

omit [Field K] [LinearOrder K] in
private theorem count_neg (col : List (K × Int)) :
    (col.map Prod.snd).count (-1) = (classValues (· == -1) col).length := by
  rw [classValues, List.length_map, ← List.countP_eq_length_filter, List.count, List.countP_map]
  rfl

omit [Field K] [LinearOrder K] in
private theorem count_pos {col : List (K × Int)} (h : ∀ p ∈ col, p.2 = 1 ∨ p.2 = -1) :
    (col.map Prod.snd).count 1 = (classValues (· != -1) col).length := by
  rw [classValues, List.length_map, ← List.countP_eq_length_filter, List.count, List.countP_map]
  refine List.countP_congr fun p hp => ?_
  rcases h p hp with h | h <;> simp [h]

variable [IsStrictOrderedRing K]

private theorem moments_two {col : List (K × Int)} {classes : List Int} {dist : List Nat} (h : TwoClasses col classes dist) :
    shapeMoments classes dist col = .ok (((classValues (· == -1) col).length, (classValues (· != -1) col).length),
      (sampleMean (classValues (· == -1) col), sampleMean (classValues (· != -1) col)),
      (scatter (classValues (· == -1) col), scatter (classValues (· != -1) col))) ∧
    (classValues (· == -1) col).length ≠ 0 ∧ (classValues (· != -1) col).length ≠ 0 := by
  have hn : (classValues (· == -1) col).length ≠ 0 := by
    rw [← count_neg]; exact (List.count_pos_iff.2 h.neg).ne'
  have hp : (classValues (· != -1) col).length ≠ 0 := by
    rw [← count_pos h.labels]; exact (List.count_pos_iff.2 h.pos).ne'
  refine ⟨?_, hn, hp⟩
  rw [shapeMoments, recorded_ok h.table h.pos, Res_bind_ok, recorded_ok h.table h.neg, Res_bind_ok]
  have c1 : ((classValues (· == -1) col).length : K) ≠ 0 := Nat.cast_ne_zero.2 hn
  have c2 : ((classValues (· != -1) col).length : K) ≠ 0 := Nat.cast_ne_zero.2 hp
  simp only [sums_spec, devs_spec, zero_add, quot, count_neg, count_pos h.labels, c1, c2, if_false, Res_bind_ok, Res_pure]
  rfl

/-- **C201 (part)** Sorting shape 6: on a two-class dataset whose feature is not constant in both classes, the features are
sorted by `|w|` times the squared distance of the class means over the sum of the *scatters* of the classes. -/
theorem C201_fisher_partial (sqrt : K → K) (col : List (K × Int)) (classes : List Int) (dist : List Nat) (w : K)
    (h : TwoClasses col classes dist)
    (hs : scatter (classValues (· != -1) col) + scatter (classValues (· == -1) col) ≠ 0) :
    sortKey sqrt 6 classes dist col w =
      .ok |w * ((sampleMean (classValues (· != -1) col) - sampleMean (classValues (· == -1) col)) ^ 2 /
        (scatter (classValues (· != -1) col) + scatter (classValues (· == -1) col)))| := by
  rw [sortKey, if_pos rfl, shapeFisher, (moments_two h).1, Res_bind_ok]
  simp only [quot, hs, if_false, Res_bind_ok, Res_pure]

/-- **C201 (refuted)** Sorting shape 5: on a two-class dataset the criterion computed is `√(scatter / n - 1)` of the negative
class alone; the class means and the positive samples have no influence on it. -/
theorem C201_golub_refuted (sqrt : K → K) (col : List (K × Int)) (classes : List Int) (dist : List Nat) (w v : K)
    (h : TwoClasses col classes dist) (e : sortKey sqrt 5 classes dist col w = .ok v) :
    v = |w * sqrt (scatter (classValues (· == -1) col) / ((classValues (· == -1) col).length : K) - 1)| := by
  rw [sortKey, if_neg (by decide), if_pos rfl, shapeGolub, (moments_two h).1, Res_bind_ok] at e
  obtain ⟨g, hg, e⟩ := bind_inv e
  obtain ⟨vp, _, hg⟩ := bind_inv hg
  obtain ⟨rp, _, hg⟩ := bind_inv hg
  obtain ⟨a, ha, hg⟩ := bind_inv hg
  obtain ⟨vn, hvn, hg⟩ := bind_inv hg
  obtain ⟨rn, hrn, hg⟩ := bind_inv hg
  cases hg
  cases e
  unfold quot at ha hvn
  unfold rootOf at hrn
  split at ha <;> cases ha
  split at hvn <;> cases hvn
  split at hrn <;> cases hrn
  simp

/-- **C201 (refuted)** Two features with the same values on the negative samples get the same score under shape 5, however
far apart their class means are. -/
theorem C201_golub_blind_refuted (sqrt : K → K) (col col' : List (K × Int)) (classes : List Int) (dist : List Nat) (w v v' : K)
    (h : TwoClasses col classes dist) (h' : TwoClasses col' classes dist)
    (same : classValues (· == -1) col = classValues (· == -1) col')
    (e : sortKey sqrt 5 classes dist col w = .ok v) (e' : sortKey sqrt 5 classes dist col' w = .ok v') : v = v' := by
  rw [C201_golub_refuted sqrt col classes dist w v h e, C201_golub_refuted sqrt col' classes dist w v' h' e', same]

/-- **C201 (refuted)** Under shape 5 a feature whose mean squared deviation is below 1 in one of the classes has a score that
is not a number. -/
theorem C201_golub_nan_refuted (sqrt : K → K) (col : List (K × Int)) (classes : List Int) (dist : List Nat) (w : K)
    (h : TwoClasses col classes dist)
    (hs : scatter (classValues (· == -1) col) < ((classValues (· == -1) col).length : K) ∨
      scatter (classValues (· != -1) col) < ((classValues (· != -1) col).length : K)) :
    sortKey sqrt 5 classes dist col w = .error .nonFinite := by
  obtain ⟨hm, hn, hp⟩ := moments_two h
  have c1 : (0 : K) < ((classValues (· == -1) col).length : K) := Nat.cast_pos.2 (Nat.pos_of_ne_zero hn)
  have c2 : (0 : K) < ((classValues (· != -1) col).length : K) := Nat.cast_pos.2 (Nat.pos_of_ne_zero hp)
  have neg : ∀ s n : K, 0 < n → s < n → s / n - 1 < 0 := fun s n h0 h1 => by
    rw [sub_neg, div_lt_one h0]; exact h1
  rw [sortKey, if_neg (by decide), if_pos rfl, shapeGolub, hm, Res_bind_ok]
  simp only [quot, c1.ne', c2.ne', if_false, Res_bind_ok]
  by_cases hp' : scatter (classValues (· != -1) col) < ((classValues (· != -1) col).length : K)
  · simp only [rootOf, neg _ _ c2 hp', if_true, Res_bind_error]
  · have hn' := hs.resolve_right hp'
    unfold rootOf
    split
    · rw [Res_bind_error, Res_bind_error]
    · rw [Res_bind_ok]
      split
      · rw [Res_bind_error, Res_bind_error]
      · simp only [Res_bind_ok, neg _ _ c1 hn', if_true, Res_bind_error]

omit [IsStrictOrderedRing K] in
/-- **C201 (refuted)** If one of the labels 1 and -1 does not occur (other labels may), shapes 5 and 6 read past the end of the
class distribution. -/
theorem C201_missing_refuted (sqrt : K → K) (shape : Nat) (col : List (K × Int)) (classes : List Int) (dist : List Nat) (w : K)
    (hsh : shape = 5 ∨ shape = 6) (h : ClassTable (col.map Prod.snd) classes dist)
    (hm : (1 : Int) ∉ col.map Prod.snd ∨ (-1 : Int) ∉ col.map Prod.snd) :
    sortKey sqrt shape classes dist col w = .error .outOfBounds := by
  have key : shapeMoments classes dist col = .error .outOfBounds := by
    unfold shapeMoments
    by_cases h1 : (1 : Int) ∈ col.map Prod.snd
    · rw [recorded_ok h h1, Res_bind_ok, recorded_absent h (hm.resolve_left (fun hn => hn h1)), Res_bind_error]
    · rw [recorded_absent h h1, Res_bind_error]
  rcases hsh with rfl | rfl
  · rw [sortKey, if_neg (by decide), if_pos rfl, shapeGolub, key, Res_bind_error, Res_bind_error]
  · rw [sortKey, if_pos rfl, shapeFisher, key, Res_bind_error, Res_bind_error]

end

/-- **C201 (part)** With as many positive as negative samples the order of shape 6 is the order by `|w|` times Fisher's
criterion: the keys are Fisher's criterion divided by one common positive number. -/
theorem C201_balanced_partial (sqrt : ℝ → ℝ) (col : List (ℝ × Int)) (classes : List Int) (dist : List Nat) (w : ℝ) (n : Nat)
    (h : TwoClasses col classes dist) (hn : 2 ≤ n) (h1 : (classValues (· == -1) col).length = n)
    (h2 : (classValues (· != -1) col).length = n)
    (hs : scatter (classValues (· != -1) col) + scatter (classValues (· == -1) col) ≠ 0) :
    sortKey sqrt 6 classes dist col w = .ok (|w * fisherRatio col| / ((n : ℝ) - 1)) := by
  have hpos : (0 : ℝ) < (n : ℝ) - 1 := by
    have : ((2 : Nat) : ℝ) ≤ (n : ℝ) := Nat.cast_le.2 hn
    push_cast at this
    linarith
  rw [C201_fisher_partial sqrt col classes dist w h hs]
  congr 1
  rw [← abs_of_pos hpos, ← abs_div]
  congr 1
  have e1 : sampleVariance (classValues (· != -1) col) = scatter (classValues (· != -1) col) / ((n : ℝ) - 1) := by
    rw [sampleVariance, h2]; rfl
  have e2 : sampleVariance (classValues (· == -1) col) = scatter (classValues (· == -1) col) / ((n : ℝ) - 1) := by
    rw [sampleVariance, h1]; rfl
  rw [fisherRatio, e1, e2, ← add_div]
  field_simp

/-- Labels of five samples. -/
private def twoThree (a b c d e : ℝ) : List (ℝ × Int) := [(a, -1), (b, -1), (c, 1), (d, 1), (e, 1)]

private theorem twoThree_two (a b c d e : ℝ) : TwoClasses (twoThree a b c d e) [-1, 1] [2, 3] where
  labels := by intro p hp; simp [twoThree] at hp; rcases hp with rfl | rfl | rfl | rfl | rfl <;> simp
  pos := by simp [twoThree]
  neg := by simp [twoThree]
  table := ⟨by decide, by intro c; simp [twoThree], by simp [twoThree]⟩

/-- **C201 (refuted)** With classes of different sizes shape 6 does not order the features by Fisher's criterion: there are two
features of one dataset and equal weights where the one with the larger criterion comes second. -/
theorem C201_unbalanced_refuted (sqrt : ℝ → ℝ) :
    ∃ (a b : List (ℝ × Int)) (x y : ℝ), a.map Prod.snd = b.map Prod.snd ∧ TwoClasses a [-1, 1] [2, 3] ∧
      TwoClasses b [-1, 1] [2, 3] ∧ sortKey sqrt 6 [-1, 1] [2, 3] a 1 = .ok x ∧
      sortKey sqrt 6 [-1, 1] [2, 3] b 1 = .ok y ∧ y < x ∧ fisherRatio a < fisherRatio b := by
  refine ⟨twoThree (-5) 5 10 10 10, twoThree 0 0 4 10 16, _, _, rfl, twoThree_two _ _ _ _ _, twoThree_two _ _ _ _ _,
    C201_fisher_partial sqrt _ _ _ 1 (twoThree_two _ _ _ _ _) ?_,
    C201_fisher_partial sqrt _ _ _ 1 (twoThree_two _ _ _ _ _) ?_, ?_, ?_⟩ <;>
  norm_num [twoThree, classValues, scatter, sampleMean, fisherRatio, sampleVariance, abs_of_pos]

/-- A feature with values on both classes. -/
example : sortKey (fun x : ℚ => x) 6 [-1, 1] [2, 2] [(0, -1), (2, -1), (5, 1), (7, 1)] 3 = .ok (75 / 4) := by decide +kernel
example : sortKey (fun x : ℚ => x) 5 [-1, 1] [2, 2] [(0, -1), (4, -1), (5, 1), (9, 1)] 2 = .ok 6 ∧
    sortKey (fun x : ℚ => x) 5 [-1, 1] [2, 2] [(0, -1), (4, -1), (500, 1), (900, 1)] 2 = .ok 6 := by decide +kernel
example : sortKey (fun x : ℚ => x) 5 [-1, 1] [2, 2] [(0, -1), (1, -1), (5, 1), (9, 1)] 2 = .error .nonFinite := by
  decide +kernel
example : sortKey (fun x : ℚ => x) 6 [0, 1] [2, 2] [(0, 0), (1, 0), (5, 1), (9, 1)] 2 = .error .outOfBounds := by
  decide +kernel
private def exCol : List (ℚ × Int) := [(0, -1), (4, -1), (5, 1), (9, 1)]
private def exCol' : List (ℚ × Int) := [(0, -1), (4, -1), (500, 1), (900, 1)]
private theorem exCol_two : TwoClasses exCol [-1, 1] [2, 2] where
  labels := by decide
  pos := by decide
  neg := by decide
  table := ⟨by decide, by intro c; simp [exCol], by decide⟩
private theorem exCol'_two : TwoClasses exCol' [-1, 1] [2, 2] where
  labels := by decide
  pos := by decide
  neg := by decide
  table := ⟨by decide, by intro c; simp [exCol'], by decide⟩
example := C201_fisher_partial (fun x : ℚ => x) exCol [-1, 1] [2, 2] 3 exCol_two (by decide +kernel)
example := C201_golub_blind_refuted (fun x : ℚ => x) exCol exCol' [-1, 1] [2, 2] 2 6 6 exCol_two exCol'_two (by decide +kernel)
  (by decide +kernel) (by decide +kernel)

example := C201_golub_nan_refuted (fun x : ℚ => x) [(0, -1), (1, -1), (5, 1), (9, 1)] [-1, 1] [2, 2] 2
  ⟨by decide, by decide, by decide, by decide, by intro c; simp, by decide⟩ (by decide +kernel)
example := C201_missing_refuted (fun x : ℚ => x) 6 [(0, 0), (1, 0), (5, 1), (9, 1)] [0, 1] [2, 2] 2 (Or.inr rfl)
  ⟨by decide, by intro c; simp, by decide⟩ (Or.inr (by decide))

/-! ### C202 -/

section
variable {K : Type} [Field K] [LinearOrder K]

private theorem insert_le {cap : Nat} {m : Nodes K} {h h' : Heap} {tok : Nat} {b : Bool}
    (e : Aos.insert cap m h tok = .ok (h', b)) : h'.size ≤ h.size + 1 := by
  unfold Aos.insert at e
  obtain ⟨t, _, e⟩ := bind_inv e
  split at e
  · obtain ⟨l, _, e⟩ := bind_inv e
    split at e
    · obtain ⟨a, _, e⟩ := bind_inv e
      cases e
      exact Nat.le_succ _
    · cases e
      exact Nat.le_succ _
  · obtain ⟨a, _, e⟩ := bind_inv e
    cases e
    exact le_rfl

/-- **C202 (choice shape 1)** With a choice shape other than 2 the branching is the one of the default search. -/
theorem C202_default (lm : Libm K) (c : Cfg K) (choice dim level : Nat) (ofnames : List Int) (weights : List (K × Int × K))
    (wnorm margin : K) (st : Srch K) (h : choice ≠ 2) :
    branchesC lm c choice dim level ofnames weights wnorm margin st =
      (List.range c.breadth).foldlM
        (branch lm c dim level ofnames (weights.map (fun w => (w.1, w.2.1))) wnorm margin) st := by
  unfold branchesC
  congr 1
  funext st i
  unfold branchC branch
  rw [show vget (weights.map (fun w => (w.1, w.2.1))) i = (vget weights i).map (fun w => (w.1, w.2.1)) from by
    unfold vget
    rw [List.getElem?_map]
    cases weights[i]? <;> rfl]
  cases vget weights i with
  | error e => rfl
  | ok wt => simp only [childValue, h, if_false]; rfl

/-- **C202 (value)** A node that a round of the branching puts into the queue has the projected margin of its feature, and under
choice shape 2 its value is the projected margin times the recorded distance of the centres. -/
theorem C202_value (lm : Libm K) (c : Cfg K) (choice dim level : Nat) (ofnames : List Int) (weights : List (K × Int × K))
    (wnorm margin : K) (st st' : Srch K) (i : Nat)
    (e : branchC lm c choice dim level ofnames weights wnorm margin st i = .ok st') (hq : st'.heap ≠ st.heap) :
    ∃ (wt : K × Int × K) (nd : Node K), weights[i]? = some wt ∧ st'.mem[st.mem.length]? = some (some nd) ∧
      projMargin lm c.q dim i wt.1 wnorm margin = .ok nd.pgamma ∧ wt.2.1 ∈ nd.fnames ∧
      nd.value = if choice = 2 then nd.pgamma * wt.2.2 else nd.pgamma := by
  unfold branchC at e
  obtain ⟨wt, hwt, e⟩ := bind_inv e
  obtain ⟨tp, htp, e⟩ := bind_inv e
  obtain ⟨old, _, e⟩ := bind_inv e
  simp only at e
  obtain ⟨⟨mem, hash, new⟩, hadd, e⟩ := bind_inv e
  simp only at e
  obtain ⟨a1, a2, a3, a4, a5, a6⟩ := add_inv hadd
  split at e
  · cases e; exact absurd rfl hq
  · split at e
    · rename_i hnw
      obtain ⟨⟨heap, b⟩, hins, e⟩ := bind_inv e
      cases e
      refine ⟨wt, ⟨sortDesc (old ++ [wt.2.1]), level + 1, childValue choice tp wt.2.2, tp, -1⟩, vget_eq_ok.1 hwt, ?_, htp, ?_, rfl⟩
      · show mem[st.mem.length]? = _
        rw [a4 hnw]; simp
      · exact (sortDesc_perm _).mem_iff.2 (by simp)
    · cases e; exact absurd rfl hq

/-- **C202 (refuted)** Choice shape 2 with any sorting shape but 2 and 3: the value of every node that enters the queue is the
projected margin with the sign changed, so the queue prefers the *smallest* projected margins; no distance of centres is used. -/
theorem C202_sign_refuted (lm : Libm K) (c : Cfg K) (shape dim level : Nat) (ofnames : List Int) (ws : List (K × Int))
    (centers : Int → K) (wnorm margin : K) (st st' : Srch K) (i : Nat) (h2 : shape ≠ 2) (h3 : shape ≠ 3)
    (e : branchC lm c 2 dim level ofnames (ws.map (fun w => (w.1, w.2, dcentsOf shape centers w.2))) wnorm margin st i = .ok st')
    (hq : st'.heap ≠ st.heap) :
    ∃ nd : Node K, st'.mem[st.mem.length]? = some (some nd) ∧ nd.value = -nd.pgamma := by
  obtain ⟨wt, nd, h1, h4, _, _, h5⟩ := C202_value lm c 2 dim level ofnames _ wnorm margin st st' i e hq
  refine ⟨nd, h4, ?_⟩
  rw [List.getElem?_map] at h1
  obtain ⟨w, _, rfl⟩ := Option.map_eq_some_iff.1 h1
  rw [h5, if_pos rfl]
  simp [dcentsOf, h2, h3]

/-- **C202 (refuted)** Under the same settings, with positive projected margins and a least margin that is not negative, an
expansion adds at most one node to the queue, whatever the breadth. -/
theorem C202_breadth_refuted [IsStrictOrderedRing K] (lm : Libm K) (c : Cfg K) (shape dim level : Nat) (ofnames : List Int)
    (ws : List (K × Int)) (centers : Int → K) (wnorm margin : K) (st st' : Srch K) (h2 : shape ≠ 2) (h3 : shape ≠ 3)
    (hg : 0 ≤ c.gMargin)
    (hpos : ∀ (i : Nat) (w : K × Int) (tp : K), ws[i]? = some w → projMargin lm c.q dim i w.1 wnorm margin = .ok tp → 0 < tp)
    (e : branchesC lm c 2 dim level ofnames (ws.map (fun w => (w.1, w.2, dcentsOf shape centers w.2))) wnorm margin st = .ok st') :
    st'.heap.size ≤ st.heap.size + 1 := by
  have step : ∀ (s s' : Srch K) (i : Nat), i ≠ 0 →
      branchC lm c 2 dim level ofnames (ws.map (fun w => (w.1, w.2, dcentsOf shape centers w.2))) wnorm margin s i = .ok s' →
      s'.heap = s.heap := by
    intro s s' i hi e
    unfold branchC at e
    obtain ⟨wt, hwt, e⟩ := bind_inv e
    obtain ⟨tp, htp, e⟩ := bind_inv e
    obtain ⟨old, _, e⟩ := bind_inv e
    simp only at e
    obtain ⟨⟨mem, hash, new⟩, _, e⟩ := bind_inv e
    have hw := vget_eq_ok.1 hwt
    rw [List.getElem?_map] at hw
    obtain ⟨w, hw1, rfl⟩ := Option.map_eq_some_iff.1 hw
    have htp0 := hpos i w tp hw1 htp
    have hd : dcentsOf shape centers w.2 = -1 := by simp [dcentsOf, h2, h3]
    have hv : childValue 2 tp (dcentsOf shape centers w.2) < 19 / 20 * c.gMargin := by
      rw [childValue, if_pos rfl, hd]
      have : (0 : K) ≤ 19 / 20 * c.gMargin := mul_nonneg (by norm_num) hg
      linarith
    simp only at e
    rw [if_pos ⟨hi, hv⟩] at e
    cases e
    rfl
  unfold branchesC at e
  cases hb : c.breadth with
  | zero => rw [hb] at e; cases e; omega
  | succ b =>
    rw [hb, List.range_succ_eq_map, List.foldlM_cons] at e
    obtain ⟨s1, h1, e⟩ := bind_inv e
    have first : s1.heap.size ≤ st.heap.size + 1 := by
      unfold branchC at h1
      obtain ⟨wt, _, h1⟩ := bind_inv h1
      obtain ⟨tp, _, h1⟩ := bind_inv h1
      obtain ⟨old, _, h1⟩ := bind_inv h1
      simp only at h1
      obtain ⟨⟨mem, hash, new⟩, _, h1⟩ := bind_inv h1
      simp only at h1
      split at h1
      · cases h1; exact Nat.le_succ _
      · split at h1
        · obtain ⟨⟨heap, b⟩, hins, h1⟩ := bind_inv h1
          cases h1
          exact insert_le hins
        · cases h1; exact Nat.le_succ _
    have := Aos.foldlM_inv (fun s : Srch K => s.heap = s1.heap) e rfl (by
      intro s i s' hi hs he
      rw [step s s' i (by simp at hi; obtain ⟨_, _, rfl⟩ := hi; omega) he, hs])
    rw [this]
    exact first

end

/-- **C202 (part)** Sorting shape 2 or 3 with choice shape 2: the value of a node that enters the queue is its projected margin
times the Euclidean distance of the class means over the features other than the removed one. -/
theorem C202_centers_partial (lm : Libm ℝ) (c : Cfg ℝ) (shape dim level : Nat) (ofnames names : List Int)
    (rows : List (List ℝ × Int)) (ws : List (ℝ × Int)) (centers : Int → ℝ) (wnorm margin : ℝ) (st st' : Srch ℝ) (i : Nat)
    (hsh : shape = 2 ∨ shape = 3) (hn : names.length = dim) (hr : ∀ r ∈ rows, r.1.length = dim)
    (hc : ∀ f, Stats.distCenters dim names rows f = .ok (centers f))
    (e : branchC lm c 2 dim level ofnames (ws.map (fun w => (w.1, w.2, dcentsOf shape centers w.2))) wnorm margin st i = .ok st')
    (hq : st'.heap ≠ st.heap) :
    ∃ (w : ℝ × Int) (nd : Node ℝ), ws[i]? = some w ∧ st'.mem[st.mem.length]? = some (some nd) ∧ w.2 ∈ nd.fnames ∧
      nd.value = nd.pgamma * Real.sqrt (sqDistOn dim (fun j => w.2 < 0 ∨ names.getD j 0 ≠ w.2)
        (fun j => avg ((ofClass rows true).map (fun r => r.getD j 0)))
        (fun j => avg ((ofClass rows false).map (fun r => r.getD j 0)))) := by
  obtain ⟨wt, nd, h1, h4, _, h6, h5⟩ := C202_value lm c 2 dim level ofnames _ wnorm margin st st' i e hq
  rw [List.getElem?_map] at h1
  obtain ⟨w, hw, rfl⟩ := Option.map_eq_some_iff.1 h1
  refine ⟨w, nd, hw, h4, h6, ?_⟩
  have := hc w.2
  rw [C73_dist_centers dim names rows w.2 hn hr] at this
  rw [h5, if_pos rfl, Except.ok.inj this]
  simp [dcentsOf, hsh]

private def exCfg (b : Nat) : Cfg ℚ := ⟨b, 2, 0, 0, 2, 100, 7, 5⟩
private def exStart : Srch ℚ := ⟨[], [], Heap.new, Hash.new 7 5, 0, threeFeatures, 0⟩
private def exWs : List (ℚ × Int) := [(3, 1), (2, 2), (1, 3)]

/-- The default search puts three nodes into the queue, choice shape 2 only one, with a negative value. -/
example : (branchesC squareLibm (exCfg 3) 1 3 0 [] (exWs.map (fun w => (w.1, w.2, dcentsOf 1 (fun _ => 5) w.2))) 4 8 exStart).map
    (fun s => s.heap.size) = .ok 3 := by decide +kernel
example : (branchesC squareLibm (exCfg 3) 2 3 0 [] (exWs.map (fun w => (w.1, w.2, dcentsOf 1 (fun _ => 5) w.2))) 4 8 exStart).map
    (fun s => (s.heap.size, s.mem.map (fun o => o.map (fun n => (n.value, n.pgamma))))) =
    .ok (1, [some (-8, 8), some (-5, 5), some (-2, 2)]) := by decide +kernel
example : (branchesC squareLibm (exCfg 3) 2 3 0 [] (exWs.map (fun w => (w.1, w.2, dcentsOf 2 (fun _ => 5) w.2))) 4 8 exStart).map
    (fun s => (s.heap.size, s.mem.map (fun o => o.map (fun n => (n.value, n.pgamma))))) =
    .ok (3, [some (40, 8), some (25, 5), some (10, 2)]) := by decide +kernel

/-- The hypotheses of `C202_breadth_refuted` hold there. -/
example : ∃ st', branchesC squareLibm (exCfg 3) 2 3 0 [] (exWs.map (fun w => (w.1, w.2, dcentsOf 1 (fun _ => 5) w.2))) 4 8
    exStart = .ok st' ∧ st'.heap.size ≤ exStart.heap.size + 1 := by
  cases h : branchesC squareLibm (exCfg 3) 2 3 0 [] (exWs.map (fun w => (w.1, w.2, dcentsOf 1 (fun _ => 5) w.2))) 4 8
      exStart with
  | error f =>
    have : (branchesC squareLibm (exCfg 3) 2 3 0 [] (exWs.map (fun w => (w.1, w.2, dcentsOf 1 (fun _ => 5) w.2))) 4 8
      exStart).map (fun s => s.heap.size) = .ok 1 := by decide +kernel
    rw [h] at this
    cases this
  | ok st' =>
    refine ⟨st', rfl, C202_breadth_refuted squareLibm (exCfg 3) 1 3 0 [] exWs (fun _ => 5) 4 8 exStart st' (by decide)
      (by decide) (le_refl _) ?_ h⟩
    intro i w tp hw e
    have hv : ∀ (j : Nat) (x y : ℚ), projMargin squareLibm (exCfg 3).q 3 j x 4 8 = .ok y →
        projMargin squareLibm (exCfg 3).q 3 j x 4 8 = .ok tp → 0 < y → 0 < tp := by
      intro j x y h1 h2 h3
      rw [h1] at h2
      cases h2
      exact h3
    rcases i with _ | _ | _ | i
    · cases hw; exact hv 0 3 8 (by decide +kernel) e (by norm_num)
    · cases hw; exact hv 1 2 5 (by decide +kernel) e (by norm_num)
    · cases hw; exact hv 2 1 2 (by decide +kernel) e (by norm_num)
    · cases hw

end MLTK.Props
