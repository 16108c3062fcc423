import Verif.Lemmas.AosRun
/-!
# C115 – C118: the admissible ordered search for features
-/
namespace MLTK.Props
open MLTK.Aos
open MLTK.Feat (Tbl)
open MLTK.Perc (Libm)
open MLTK.Spec

section
variable {K : Type} [Field K] [LinearOrder K] [IsStrictOrderedRing K]

/-! ## C115 -/

/-- C115: whatever classifier is used, a search that ends returns the samples restricted to some of their features: a set `R`
of features is left out, every other column and name is kept in its order, and at least the requested number of features (and
at least one) is left.  The object may have been used before (`lool` is arbitrary). -/
theorem C115_subset (lm : Libm K) (breadth finalDim cut : Nat) (gMargin q : K) (cap hlen hwidth : Nat)
    (srt : List (K × Int) → List (K × Int)) (learn : Nat → Tbl K → Bool × List K × K) (samples : Tbl K) (lool n : Nat)
    (d : Tbl K) (l : Nat) (ha : Aligned samples) (hdim : 1 ≤ samples.dim) (hb : 1 ≤ breadth) (hcap : 1 ≤ cap)
    (hsrt : SortsByWeight srt)
    (e : aosSelect lm breadth finalDim cut gMargin q cap hlen hwidth srt learn samples lool n = .ok (d, l)) :
    (∃ R : List Int, R.Nodup ∧ (∀ f ∈ R, f ∈ samples.fnames) ∧ d = Without samples R) ∧
      d.dim = d.fnames.length ∧ d.rows.length = samples.rows.length ∧ (∀ r ∈ d.rows, r.length = d.dim) ∧
      min finalDim samples.dim ≤ d.dim ∧ 1 ≤ d.dim := by
  obtain ⟨R, h1, h2, h3, h4, h5, -⟩ := aosSelect_inv (fun _ => True) e ha hdim hb hcap (fun l => (hsrt l).1)
    (fun _ _ _ => trivial) (fun _ _ _ _ _ _ => trivial)
  have h4 : R.length ≤ min (samples.dim - finalDim) (samples.dim - 1) := h4
  have hfl := filter_notin_length (nodup_of_aligned ha) h2 h3
  refine ⟨⟨R, h2, h3, h1⟩, ?_, ?_, ?_, ?_, ?_⟩
  · rw [h1]
    show samples.dim - R.length = (samples.fnames.filter _).length
    rw [hfl, ha.1]
  · rw [h1]; simp [Without]
  · intro r hr
    rw [h1] at hr ⊢
    obtain ⟨row, hrow, rfl⟩ := List.mem_map.1 hr
    have := Feat.cols_length (fun n => decide (n ∉ R)) samples.fnames row (by rw [ha.2.1 row hrow, ha.1])
    rw [hfl, ← ha.1] at this
    exact this
  · rw [h1]
    show _ ≤ samples.dim - R.length
    omega
  · rw [h1]
    show _ ≤ samples.dim - R.length
    omega

/-! ## C116 -/

/-- If every training succeeds and the queue never gets full, a search of a new object that ends returns exactly the requested
number of features.
Missing from C116: that the search ends without a fault (see the refutations), and failing trainings (whose nodes are given up,
so that more features may be left). -/
theorem C116_dimension_partial (lm : Libm K) (breadth finalDim cut : Nat) (gMargin q : K) (cap hlen hwidth : Nat)
    (srt : List (K × Int) → List (K × Int)) (learn : Nat → Tbl K → Bool × List K × K) (samples : Tbl K) (n : Nat)
    (d : Tbl K) (l : Nat) (ha : Aligned samples) (hf : 1 ≤ finalDim) (hf2 : finalDim ≤ samples.dim) (hb : 1 ≤ breadth)
    (hcap : n * min breadth samples.dim ≤ cap) (hcap1 : 1 ≤ cap) (hsrt : SortsByWeight srt)
    (hok : ∀ k s, (learn k s).1 = true)
    (e : aosSelect lm breadth finalDim cut gMargin q cap hlen hwidth srt learn samples 0 n = .ok (d, l)) :
    d.dim = finalDim ∧ d.fnames.length = finalDim ∧ l = samples.dim - finalDim := by
  have hdim : 1 ≤ samples.dim := by omega
  have hl := aosSelect_q e hdim hb (fun l => (hsrt l).1) hcap hok
  obtain ⟨-, hlen', -, -, -⟩ := C115_subset lm breadth finalDim cut gMargin q cap hlen hwidth srt learn samples 0 n d l ha hdim hb
    hcap1 hsrt e
  obtain ⟨R, h1, h2, h3, h4, h5, h6⟩ := aosSelect_inv (fun _ => True) e ha hdim hb hcap1 (fun l => (hsrt l).1)
    (fun _ _ _ => trivial) (fun _ _ _ _ _ _ => trivial)
  have h4 : R.length ≤ min (samples.dim - finalDim) (samples.dim - 1) := h4
  have hR : R.length = samples.dim - finalDim ∧ l = samples.dim - finalDim := by
    rcases h6 with ⟨h6, h7⟩ | ⟨h6, -⟩
    · rw [h6, List.length_nil]; omega
    · omega
  have hd : d.dim = finalDim := by
    rw [h1]
    show samples.dim - R.length = _
    omega
  exact ⟨hd, by rw [← hlen', hd], hR.2⟩

/-- Against C116: fewer features than the breadth are never returned, since expanding a node reads that many weights.  The
default breadth is 3. -/
theorem C116_breadth_refuted (lm : Libm K) (breadth finalDim cut : Nat) (gMargin q : K) (cap hlen hwidth : Nat)
    (srt : List (K × Int) → List (K × Int)) (learn : Nat → Tbl K → Bool × List K × K) (samples : Tbl K) (lool n : Nat)
    (d : Tbl K) (l : Nat) (ha : Aligned samples) (hdim : 1 ≤ samples.dim) (hb : 1 ≤ breadth) (hcap : 1 ≤ cap)
    (hsrt : SortsByWeight srt)
    (e : aosSelect lm breadth finalDim cut gMargin q cap hlen hwidth srt learn samples lool n = .ok (d, l)) :
    min breadth samples.dim ≤ d.dim := by
  obtain ⟨R, h1, h2, h3, h4, h5, -⟩ := aosSelect_inv (fun _ => True) e ha hdim hb hcap (fun l => (hsrt l).1)
    (fun _ _ _ => trivial) (fun _ _ _ _ _ _ => trivial)
  exact h5

/-- Against C116: with a breadth above the requested number of features and trainings that succeed, no run returns anything. -/
theorem C116_never_returns_refuted (lm : Libm K) (breadth finalDim cut : Nat) (gMargin q : K) (cap hlen hwidth : Nat)
    (srt : List (K × Int) → List (K × Int)) (learn : Nat → Tbl K → Bool × List K × K) (samples : Tbl K) (n : Nat)
    (ha : Aligned samples) (hf : 1 ≤ finalDim) (hf2 : finalDim < min breadth samples.dim)
    (hcap : n * min breadth samples.dim ≤ cap) (hcap1 : 1 ≤ cap) (hsrt : SortsByWeight srt)
    (hok : ∀ k s, (learn k s).1 = true) :
    ∀ r, aosSelect lm breadth finalDim cut gMargin q cap hlen hwidth srt learn samples 0 n ≠ .ok r := by
  rintro ⟨d, l⟩ e
  have h1 := C116_dimension_partial lm breadth finalDim cut gMargin q cap hlen hwidth srt learn samples n d l ha hf (by omega)
    (by omega) hcap hcap1 hsrt hok e
  have h2 := C116_breadth_refuted lm breadth finalDim cut gMargin q cap hlen hwidth srt learn samples 0 n d l ha (by omega)
    (by omega) hcap1 hsrt e
  omega

/-- Against C116: with trainings that succeed but report no positive margin (such as the perceptron, which leaves the margin at
0) the search does not end: trained nodes are trained and put back for ever. -/
theorem C116_margin_refuted (lm : Libm K) (breadth finalDim cut : Nat) (gMargin q : K) (cap hlen hwidth : Nat)
    (srt : List (K × Int) → List (K × Int)) (learn : Nat → Tbl K → Bool × List K × K) (samples : Tbl K) (n : Nat)
    (ha : Aligned samples) (hdim : 2 ≤ samples.dim) (hf : finalDim < samples.dim) (hb : 1 ≤ breadth)
    (hcap : n * min breadth samples.dim ≤ cap) (hsrt : SortsByWeight srt)
    (hok : ∀ k s, (learn k s).1 = true) (hmar : ∀ k s, (learn k s).2.2 ≤ 0) :
    ∀ r, aosSelect lm breadth finalDim cut gMargin q cap hlen hwidth srt learn samples 0 n ≠ .ok r :=
  fun _ e => aosSelect_z e ha hdim hf hb (fun l => (hsrt l).1) hcap hok hmar

/-! ## C117 -/

/-- The entries above a position of a descending list come before it. -/
theorem heavier_before (l : List (K × Int)) (hs : l.Pairwise (fun a b => |a.1| ≥ |b.1|)) (i : Nat) (x : K × Int)
    (h : l[i]? = some x) : (l.filter (fun y => decide (|y.1| > |x.1|))).length ≤ i := by
  obtain ⟨hi, rfl⟩ := List.getElem?_eq_some_iff.1 h
  have hsplit : l = l.take i ++ l.drop i := (List.take_append_drop i l).symm
  have hdrop : (l.drop i).filter (fun y => decide (|y.1| > |l[i].1|)) = [] := by
    rw [List.filter_eq_nil_iff]
    intro y hy
    simp only [decide_eq_true_eq, not_lt]
    rw [List.drop_eq_getElem_cons hi] at hy
    rcases List.mem_cons.1 hy with rfl | hy
    · exact le_rfl
    · have hp := hs
      rw [hsplit, List.pairwise_append] at hp
      have := hp.2.1
      rw [List.drop_eq_getElem_cons hi] at this
      exact (List.pairwise_cons.1 this).1 y hy
  have : ((l.take i ++ l.drop i).filter (fun y => decide (|y.1| > |l[i].1|))).length ≤ i := by
    rw [List.filter_append, hdrop, List.append_nil]
    exact (List.length_filter_le _ _).trans (by simp)
  rwa [List.take_append_drop] at this

/-- Against C117: the search starts from the features with the *largest* weights.  If every training succeeds and fewer features
than all are requested, a search of a new object that ends has removed a feature for which fewer than `breadth` features have a
larger absolute weight in the first training.  With breadth 1 this is the feature with the largest weight. -/
theorem C117_heaviest_refuted (lm : Libm K) (breadth finalDim cut : Nat) (gMargin q : K) (cap hlen hwidth : Nat)
    (srt : List (K × Int) → List (K × Int)) (learn : Nat → Tbl K → Bool × List K × K) (samples : Tbl K) (n : Nat)
    (d : Tbl K) (l : Nat) (ha : Aligned samples) (hdim : 2 ≤ samples.dim) (hf : finalDim < samples.dim) (hb : 1 ≤ breadth)
    (hcap : n * min breadth samples.dim ≤ cap) (hcap1 : 1 ≤ cap) (hsrt : SortsByWeight srt)
    (hok : ∀ k s, (learn k s).1 = true)
    (e : aosSelect lm breadth finalDim cut gMargin q cap hlen hwidth srt learn samples 0 n = .ok (d, l)) :
    ∃ (i : Nat) (wi : K) (f : Int), i < samples.dim ∧ (learn 0 samples).2.1[i]? = some wi ∧ samples.fnames[i]? = some f ∧
      f ∉ d.fnames ∧ (((learn 0 samples).2.1.take samples.dim).filter (fun y => decide (|y| > |wi|))).length < breadth := by
  set w := (learn 0 samples).2.1 with hw
  let Heavy (f : Int) : Prop := ∃ (i : Nat) (wi : K), i < samples.dim ∧ w[i]? = some wi ∧ samples.fnames[i]? = some f ∧
    ((w.take samples.dim).filter (fun y => decide (|y| > |wi|))).length < breadth
  have hd1 : 1 ≤ samples.dim := by omega
  obtain ⟨R, h1, h2, h3, h4, h5, h6⟩ := aosSelect_inv (fun R => ∃ f ∈ R, Heavy f) e ha hd1 hb hcap1 (fun l => (hsrt l).1)
    (by
      rintro l f ⟨g, hg, hh⟩
      exact ⟨g, (sortDesc_perm _).mem_iff.2 (by simp [hg]), hh⟩)
    (by
      intro ws hws k wt hk hwt
      refine ⟨wt.2, by simp, ?_⟩
      rw [vget_eq_ok] at hwt
      have hin : wt ∈ ws := (hsrt ws).1.mem_iff.1 (List.mem_of_getElem? hwt)
      obtain ⟨i, hi⟩ := List.mem_iff_getElem?.1 hin
      obtain ⟨hl, hall⟩ := weightsOf_inv hws
      obtain ⟨g1, g2⟩ := hall i wt hi
      have hilt : i < samples.dim := by rw [← hl]; exact (List.getElem?_eq_some_iff.1 hi).1
      refine ⟨i, wt.1, hilt, g1, g2, ?_⟩
      have hmap : ws.map Prod.fst = w.take samples.dim := by
        apply List.ext_getElem?
        intro j
        rw [List.getElem?_map, List.getElem?_take]
        split
        · rename_i hj
          have hj' : j < ws.length := by omega
          rw [List.getElem?_eq_getElem hj']
          exact ((hall j ws[j] (List.getElem?_eq_getElem hj')).1).symm
        · rename_i hj
          rw [List.getElem?_eq_none (by omega)]
          rfl
      have hcount := heavier_before (srt ws) (hsrt ws).2 k wt hwt
      rw [((hsrt ws).1.filter _).length_eq] at hcount
      rw [← hmap, List.filter_map, List.length_map]
      have : (ws.filter ((fun y => decide (|y| > |wt.1|)) ∘ Prod.fst)).length ≤ k := hcount
      omega)
  have hl := aosSelect_q e hd1 hb (fun l => (hsrt l).1) hcap hok
  rcases h6 with ⟨-, h6⟩ | ⟨-, -, -, f, hf', i, wi, r1, r2, r3, r4⟩
  · omega
  · refine ⟨i, wi, f, r1, r2, r3, ?_, r4⟩
    rw [h1]
    simp [Without, hf']

/-! ## C118 -/

/-- Against C118: an object whose first search went through (all trainings successful) returns *all* features from its second
search, whatever is learned then: the level reached before is not reset. -/
theorem C118_second_search_refuted (lm : Libm K) (breadth finalDim cut : Nat) (gMargin q : K) (cap hlen hwidth : Nat)
    (srt : List (K × Int) → List (K × Int)) (learn learn' : Nat → Tbl K → Bool × List K × K) (samples : Tbl K) (n n' : Nat)
    (d d' : Tbl K) (l l' : Nat) (ha : Aligned samples) (hdim : 1 ≤ samples.dim) (hb : 1 ≤ breadth)
    (hcap : n * min breadth samples.dim ≤ cap) (hcap1 : 1 ≤ cap) (hsrt : SortsByWeight srt)
    (hok : ∀ k s, (learn k s).1 = true)
    (e : aosSelect lm breadth finalDim cut gMargin q cap hlen hwidth srt learn samples 0 n = .ok (d, l))
    (e' : aosSelect lm breadth finalDim cut gMargin q cap hlen hwidth srt learn' samples l n' = .ok (d', l')) :
    d' = samples ∧ l' = l := by
  have hl := aosSelect_q e hdim hb (fun l => (hsrt l).1) hcap hok
  obtain ⟨R, h1, h2, h3, h4, h5, h6⟩ := aosSelect_inv (fun _ => True) e' ha hdim hb hcap1 (fun l => (hsrt l).1)
    (fun _ _ _ => trivial) (fun _ _ _ _ _ _ => trivial)
  have h4 : R.length ≤ min (samples.dim - finalDim) (samples.dim - 1) := h4
  rcases h6 with ⟨h6, h7⟩ | ⟨h6, -, h7, -⟩
  · rw [h6, without_nil samples ha] at h1
    exact ⟨h1, h7⟩
  · omega

/-- A search of an object that has not gone deeper than `lool` before: what it returns has either all features or more than
`lool` of them removed, so results with fewer removed features are out of reach.
Missing from C118: the result does not depend on earlier searches (see the refutation). -/
theorem C118_used_object_partial (lm : Libm K) (breadth finalDim cut : Nat) (gMargin q : K) (cap hlen hwidth : Nat)
    (srt : List (K × Int) → List (K × Int)) (learn : Nat → Tbl K → Bool × List K × K) (samples : Tbl K) (lool n : Nat)
    (d : Tbl K) (l : Nat) (ha : Aligned samples) (hdim : 1 ≤ samples.dim) (hb : 1 ≤ breadth) (hcap : 1 ≤ cap)
    (hsrt : SortsByWeight srt)
    (e : aosSelect lm breadth finalDim cut gMargin q cap hlen hwidth srt learn samples lool n = .ok (d, l)) :
    (d = samples ∧ l = lool) ∨ (lool < l ∧ d.dim = samples.dim - l) := by
  obtain ⟨R, h1, h2, h3, h4, h5, h6⟩ := aosSelect_inv (fun _ => True) e ha hdim hb hcap (fun l => (hsrt l).1)
    (fun _ _ _ => trivial) (fun _ _ _ _ _ _ => trivial)
  rcases h6 with ⟨h6, h7⟩ | ⟨h6, -, h7, -⟩
  · rw [h6, without_nil samples ha] at h1
    exact Or.inl ⟨h1, h7⟩
  · refine Or.inr ⟨h7, ?_⟩
    rw [h1]
    show samples.dim - R.length = _
    rw [h6]

end

/-! ## Witnesses -/

/-- Square and square root of rationals. -/
def squareLibm : Libm ℚ where
  sqrt := fun x => (Nat.sqrt x.num.toNat : ℚ) / Nat.sqrt x.den
  pow := fun x y => if y = 2 then x * x else (Nat.sqrt x.num.toNat : ℚ) / Nat.sqrt x.den

/-- Sorting by weight. -/
def byWeight (l : List (ℚ × Int)) : List (ℚ × Int) := l.insertionSort (fun a b => |a.1| ≥ |b.1|)

theorem byWeight_sorts : SortsByWeight byWeight := by
  intro l
  haveI : Std.Total (fun a b : ℚ × Int => |a.1| ≥ |b.1|) := ⟨fun a b => le_total _ _⟩
  haveI : IsTrans (ℚ × Int) (fun a b => |a.1| ≥ |b.1|) := ⟨fun a b c h1 h2 => le_trans h2 h1⟩
  exact ⟨List.perm_insertionSort _ l, List.pairwise_insertionSort _ l⟩

/-- Two samples with three features. -/
def threeFeatures : Tbl ℚ := ⟨[[1, 2, 3], [4, 5, 6]], [1, 2, 3], 3⟩

theorem threeFeatures_aligned : Aligned threeFeatures := by unfold Aligned threeFeatures; decide

/-- A classifier with the weights 3, 4, 12 and the given margin. -/
def learn3412 (margin : ℚ) : Nat → Tbl ℚ → Bool × List ℚ × ℚ := fun _ s => (true, ([3, 4, 12] : List ℚ).take s.dim, margin)

/-- Two of three features: the one with the weight 12 goes. -/
theorem search_two : aosSelect squareLibm 1 2 0 0 2 100 7 5 byWeight (learn3412 1) threeFeatures 0 20 =
    .ok (⟨[[1, 2], [4, 5]], [1, 2], 2⟩, 1) := by decide +kernel

/-- One of three features. -/
theorem search_one : aosSelect squareLibm 1 1 0 0 2 100 7 5 byWeight (learn3412 1) threeFeatures 0 20 =
    .ok (⟨[[1], [4]], [1], 1⟩, 2) := by decide +kernel

/-- With breadth 2. -/
theorem search_breadth : aosSelect squareLibm 2 2 0 0 2 100 7 5 byWeight (learn3412 1) threeFeatures 0 20 =
    .ok (⟨[[1, 2], [4, 5]], [1, 2], 2⟩, 1) := by decide +kernel

/-- The same object again. -/
theorem search_again : aosSelect squareLibm 1 2 0 0 2 100 7 5 byWeight (learn3412 1) threeFeatures 1 20 =
    .ok (threeFeatures, 1) := by decide +kernel

example : (⟨[[1], [4]], [1], 1⟩ : Tbl ℚ).dim = 1 ∧ 1 ≤ 1 :=
  ⟨(C116_dimension_partial squareLibm 1 1 0 0 2 100 7 5 byWeight (learn3412 1) threeFeatures 20 _ _ threeFeatures_aligned (by decide)
    (by decide) (by decide) (by decide) (by decide) byWeight_sorts (fun _ _ => rfl) search_one).1, by decide⟩

example := C115_subset squareLibm 1 1 0 0 2 100 7 5 byWeight (learn3412 1) threeFeatures 0 20 _ _ threeFeatures_aligned (by decide)
  (by decide) (by decide) byWeight_sorts search_one

example := C116_breadth_refuted squareLibm 2 2 0 0 2 100 7 5 byWeight (learn3412 1) threeFeatures 0 20 _ _ threeFeatures_aligned
  (by decide) (by decide) (by decide) byWeight_sorts search_breadth

/-- Two features with the default breadth 3: the search reads past the weights. -/
example : aosSelect squareLibm 3 2 0 0 2 100 7 5 byWeight (learn3412 1) threeFeatures 0 20 = .error .outOfBounds ∧
    ∀ r, aosSelect squareLibm 3 2 0 0 2 100 7 5 byWeight (learn3412 1) threeFeatures 0 20 ≠ .ok r :=
  ⟨by decide +kernel, C116_never_returns_refuted squareLibm 3 2 0 0 2 100 7 5 byWeight (learn3412 1) threeFeatures 20 threeFeatures_aligned
    (by decide) (by decide) (by decide) (by decide) byWeight_sorts (fun _ _ => rfl)⟩

/-- Margin 0: 20 rounds are not enough, and no number of rounds below the capacity is. -/
example : aosSelect squareLibm 1 2 0 0 2 100 7 5 byWeight (learn3412 0) threeFeatures 0 20 = .error .diverges ∧
    ∀ n cap, n ≤ cap → ∀ r, aosSelect squareLibm 1 2 0 0 2 cap 7 5 byWeight (learn3412 0) threeFeatures 0 n ≠ .ok r :=
  ⟨by decide +kernel, fun n cap h => C116_margin_refuted squareLibm 1 2 0 0 2 cap 7 5 byWeight (learn3412 0) threeFeatures n
    threeFeatures_aligned (by decide) (by decide) (by decide) (by simpa [threeFeatures] using h) byWeight_sorts (fun _ _ => rfl)
    (fun _ _ => le_rfl)⟩

example := C117_heaviest_refuted squareLibm 1 2 0 0 2 100 7 5 byWeight (learn3412 1) threeFeatures 20 _ _ threeFeatures_aligned (by decide)
  (by decide) (by decide) (by decide) (by decide) byWeight_sorts (fun _ _ => rfl) search_two

example := C118_second_search_refuted squareLibm 1 2 0 0 2 100 7 5 byWeight (learn3412 1) (learn3412 1) threeFeatures 20 20 _ _ _ _
  threeFeatures_aligned (by decide) (by decide) (by decide) (by decide) byWeight_sorts (fun _ _ => rfl) search_two search_again

example := C118_used_object_partial squareLibm 1 2 0 0 2 100 7 5 byWeight (learn3412 1) threeFeatures 1 20 _ _ threeFeatures_aligned
  (by decide) (by decide) (by decide) byWeight_sorts search_again

end MLTK.Props
