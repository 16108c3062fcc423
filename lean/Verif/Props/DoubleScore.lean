import Verif.Model.DoubleScore
import Verif.Props.DoubleStats
import Verif.Props.DoubleKnn
/-!
# C237: the scores of the filter feature selectors in `double` arithmetic
-/
namespace MLTK.Spec
open MLTK.Fp

/-- What the library relies on `std::sqrt` for: the root of zero is zero, that of a positive number a positive number, that of
infinity infinity. -/
structure Root (sqrt : Dbl → Dbl) : Prop where
  zero : sqrt (.fin 0) = .fin 0
  pos : ∀ q, IsDbl q → 0 < q → ∃ r, sqrt (.fin q) = .fin r ∧ IsDbl r ∧ 0 < r
  inf : sqrt (.inf false) = .inf false

/-- The values of a feature in the samples labelled -1. -/
def ofNegative {α : Type} (col : List (α × Int)) : List α := (col.filter (fun c => c.2 = -1)).map (·.1)

/-- The values of a feature in the other samples. -/
def ofOther {α : Type} (col : List (α × Int)) : List α := (col.filter (fun c => c.2 ≠ -1)).map (·.1)

/-- A feature with whole values, as `double`s. -/
def wholeColumn (col : List (ℤ × Int)) : List (Dbl × Int) := col.map (fun c => (.fin (c.1 : ℚ), c.2))

end MLTK.Spec

namespace MLTK.Props
open MLTK.Fp
open MLTK.Knn (strictWeak_congr strictWeak_key)
open MLTK.Spec (Root ofNegative ofOther wholeColumn StrictWeak)

attribute [local irreducible] Fp.rnd Fp.near Fp.huge Fp.two

theorem scoreSum_fold (col : List (Dbl × Int)) : ∀ s, col.foldl scoreSum s =
    ((s.1.1 + (ofNegative col).length, (ofNegative col).foldl Dbl.add s.1.2), (s.2.1 + (ofOther col).length, (ofOther col).foldl Dbl.add s.2.2)) := by
  induction col with
  | nil => intro s; rfl
  | cons c col ih =>
    intro s
    rw [List.foldl_cons, ih]
    by_cases h : c.2 = -1
    · simp only [scoreSum, h, ofNegative, ofOther, List.filter_cons, if_true, decide_true, List.map_cons, List.foldl_cons, List.length_cons,
        ne_eq, not_true, decide_false]
      refine Prod.ext (Prod.ext ?_ rfl) rfl
      simp only []
      omega
    · simp only [scoreSum, h, ofNegative, ofOther, List.filter_cons, if_true, decide_true, List.map_cons, List.foldl_cons, List.length_cons,
        ne_eq, not_false_eq_true, decide_false, if_false]
      refine Prod.ext rfl (Prod.ext ?_ rfl)
      simp only []
      omega

theorem scoreDev_fold (an ap : Dbl) (col : List (Dbl × Int)) : ∀ s, col.foldl (scoreDev an ap) s =
    ((ofNegative col).foldl (fun sd x => sd.add ((x.sub an).mul (x.sub an))) s.1,
      (ofOther col).foldl (fun sd x => sd.add ((x.sub ap).mul (x.sub ap))) s.2) := by
  induction col with
  | nil => intro s; rfl
  | cons c col ih =>
    intro s
    rw [List.foldl_cons, ih]
    by_cases h : c.2 = -1 <;> simp [scoreDev, h, ofNegative, ofOther]

theorem moments_eq (sqrt : Dbl → Dbl) (col : List (Dbl × Int)) (hn : ofNegative col ≠ []) (hp : ofOther col ≠ []) :
    scoreMoments sqrt col = ((meanOf (ofNegative col), meanOf (ofOther col)), (sqrt (spread (ofNegative col)), sqrt (spread (ofOther col)))) := by
  unfold scoreMoments
  rw [scoreSum_fold]
  simp only [scoreDev_fold, Nat.zero_add]
  have h1 := List.length_pos_iff.2 hn
  have h2 := List.length_pos_iff.2 hp
  have e1 : meanOf (ofNegative col) = ((ofNegative col).foldl Dbl.add (.fin 0)).div (.ofNat (ofNegative col).length) := by
    unfold meanOf; rw [if_pos h1]; rfl
  have e2 : meanOf (ofOther col) = ((ofOther col).foldl Dbl.add (.fin 0)).div (.ofNat (ofOther col).length) := by
    unfold meanOf; rw [if_pos h2]; rfl
  rw [e1, e2]
  unfold spread squares
  rw [e1, e2]

theorem whole_neg (col : List (ℤ × Int)) : ofNegative (wholeColumn col) = atPoint (column (ofNegative col)) := by
  simp only [ofNegative, wholeColumn, atPoint, column, List.filter_map, List.map_map]
  rfl

theorem whole_other (col : List (ℤ × Int)) : ofOther (wholeColumn col) = atPoint (column (ofOther col)) := by
  simp only [ofOther, wholeColumn, atPoint, column, List.filter_map, List.map_map]
  rfl

theorem root_D0 {sqrt : Dbl → Dbl} (hs : Root sqrt) {a : Dbl} (ha : D0 a) :
    D0 (sqrt a) ∧ ((Dbl.fin 0).lt a = true → (Dbl.fin 0).lt (sqrt a) = true) := by
  rcases ha with ⟨q, rfl, hd, h0⟩ | rfl
  · rcases h0.eq_or_lt with rfl | h
    · rw [hs.zero]; exact ⟨zero_D0, fun h => h⟩
    · obtain ⟨r, hr, hrd, hr0⟩ := hs.pos q hd h
      rw [hr]
      exact ⟨.inl ⟨r, rfl, hrd, hr0.le⟩, fun _ => by simpa [Dbl.lt] using hr0⟩
  · rw [hs.inf]; exact ⟨.inr rfl, fun _ => rfl⟩

theorem lt_le_trans {a b : Dbl} (hb : D0 b) (h : (Dbl.fin 0).lt a = true) (hab : a.le b = true) : (Dbl.fin 0).lt b = true := by
  rcases hb with ⟨q, rfl, _, _⟩ | rfl
  · cases a with
    | fin p => simp only [Dbl.lt, Dbl.le, decide_eq_true_eq] at *; linarith
    | inf s => cases s <;> simp_all [Dbl.lt, Dbl.le]
    | nan => simp [Dbl.lt] at h
  · rfl

theorem quot_D0 {x : ℚ} (hx : 0 ≤ x) {d : Dbl} (hd : D0 d) (h : (Dbl.fin 0).lt d = true) : D0 ((Dbl.fin x).div d) := by
  rcases hd with ⟨q, rfl, _, _⟩ | rfl
  · have hq : 0 < q := by simpa [Dbl.lt] using h
    simp only [Dbl.div, if_neg hq.ne']
    exact rnd_D0 (div_nonneg hx hq.le)
  · exact zero_D0

/-- What the scores are made of, for whole values. -/
theorem score_parts {sqrt : Dbl → Dbl} (hs : Root sqrt) (col : List (ℤ × Int)) (hn : 2 ≤ (ofNegative col).length)
    (hp : 2 ≤ (ofOther col).length) (hl : col.length ≤ 2 ^ 53) (hwn : weight (ofNegative col) ≤ 2 ^ 53) (hwp : weight (ofOther col) ≤ 2 ^ 53)
    (hv : (∃ a ∈ ofNegative col, ∃ b ∈ ofNegative col, a ≠ b) ∨ ∃ a ∈ ofOther col, ∃ b ∈ ofOther col, a ≠ b) :
    ∃ a b sn sp, scoreMoments sqrt (wholeColumn col) = ((.fin a, .fin b), (sn, sp)) ∧ |a| ≤ 2 ^ 53 ∧ |b| ≤ 2 ^ 53 ∧
      rnd (((ofNegative col).sum : ℚ) / (ofNegative col).length) = .fin a ∧ rnd (((ofOther col).sum : ℚ) / (ofOther col).length) = .fin b ∧
      D0 (sp.add sn) ∧ (Dbl.fin 0).lt (sp.add sn) = true := by
  have hln : (ofNegative col).length ≤ 2 ^ 53 := by
    refine le_trans ?_ hl; rw [ofNegative, List.length_map]; exact List.length_filter_le ..
  have hlp : (ofOther col).length ≤ 2 ^ 53 := by
    refine le_trans ?_ hl; rw [ofOther, List.length_map]; exact List.length_filter_le ..
  obtain ⟨⟨a, ha, har, halo, hahi⟩, _, ha3⟩ := C225_whole_partial _ hn hln hwn
  obtain ⟨⟨b, hb, hbr, hblo, hbhi⟩, _, hb3⟩ := C225_whole_partial _ hp hlp hwp
  have bnd : ∀ zs : List ℤ, weight zs ≤ 2 ^ 53 → ∀ z ∈ zs, -(2 ^ 53) ≤ z ∧ z ≤ 2 ^ 53 := fun zs hw z hz =>
    abs_le.1 (le_trans (weight_mem hz) hw)
  have hab : |a| ≤ 2 ^ 53 := by
    rw [abs_le]
    constructor
    · have := halo (-(2 ^ 53)) (fun z hz => (bnd _ hwn z hz).1); push_cast at this; exact this
    · have := hahi (2 ^ 53) (fun z hz => (bnd _ hwn z hz).2); push_cast at this; exact this
  have hbb : |b| ≤ 2 ^ 53 := by
    rw [abs_le]
    constructor
    · have := hblo (-(2 ^ 53)) (fun z hz => (bnd _ hwp z hz).1); push_cast at this; exact this
    · have := hbhi (2 ^ 53) (fun z hz => (bnd _ hwp z hz).2); push_cast at this; exact this
  have hcl : ∀ zs : List ℤ, (column zs).length = zs.length := fun zs => by simp [column]
  have dn : D0 (spread (atPoint (column (ofNegative col)))) :=
    ((C225_nonneg (column (ofNegative col)) (by rw [hcl]; exact hn) (by rw [hcl]; exact hln)).2.1).symm
  have dp : D0 (spread (atPoint (column (ofOther col)))) :=
    ((C225_nonneg (column (ofOther col)) (by rw [hcl]; exact hp) (by rw [hcl]; exact hlp)).2.1).symm
  have rn := root_D0 hs dn
  have rp := root_D0 hs dp
  refine ⟨a, b, sqrt (spread (atPoint (column (ofNegative col)))), sqrt (spread (atPoint (column (ofOther col)))), ?_, hab, hbb, har, hbr,
    rp.1.add rn.1, ?_⟩
  · rw [moments_eq, whole_neg, whole_other, ha, hb]
    · rw [whole_neg]; intro h; have := congrArg List.length h; simp [atPoint, column] at this; rw [this] at hn; simp at hn
    · rw [whole_other]; intro h; have := congrArg List.length h; simp [atPoint, column] at this; rw [this] at hp; simp at hp
  · rcases hv with ⟨x, hx, y, hy, hxy⟩ | ⟨x, hx, y, hy, hxy⟩
    · exact lt_le_trans (rp.1.add rn.1) (rn.2 (ha3 x hx y hy hxy)) (D0.le_right rp.1 rn.1)
    · exact lt_le_trans (rp.1.add rn.1) (rp.2 (hb3 x hx y hy hxy)) (D0.le_left rp.1 rn.1)

theorem diff_small {a b : ℚ} (ha : |a| ≤ 2 ^ 53) (hb : |b| ≤ 2 ^ 53) : ∃ d, (Dbl.fin b).sub (.fin a) = .fin d ∧ |d| ≤ 2 ^ 54 := by
  rw [abs_le] at ha hb
  have h1 : IsDbl (-(2 ^ 54)) := by decide +kernel
  have h2 : IsDbl (2 ^ 54) := by decide +kernel
  obtain ⟨x, hx, hlo, hhi, _⟩ := rnd_between (q := b + -a) h1 h2 (by linarith) (by linarith)
  exact ⟨x, hx, abs_le.2 ⟨hlo, hhi⟩⟩

/-- **C237 (numbers)** (partial: whole values, two samples of each class, and a class in which the feature is not constant)  The
scores of such a feature are nonnegative numbers or infinite, never NaN, and 0 if both classes have the same mean. -/
theorem C237_number_partial {sqrt : Dbl → Dbl} (hs : Root sqrt) (col : List (ℤ × Int)) (hn : 2 ≤ (ofNegative col).length)
    (hp : 2 ≤ (ofOther col).length) (hl : col.length ≤ 2 ^ 53) (hwn : weight (ofNegative col) ≤ 2 ^ 53) (hwp : weight (ofOther col) ≤ 2 ^ 53)
    (hv : (∃ a ∈ ofNegative col, ∃ b ∈ ofNegative col, a ≠ b) ∨ ∃ a ∈ ofOther col, ∃ b ∈ ofOther col, a ≠ b) :
    (∀ s ∈ [golub sqrt (wholeColumn col), fisher sqrt (wholeColumn col)],
      s = .inf false ∨ ∃ q, s = .fin q ∧ IsDbl q ∧ 0 ≤ q) ∧
    (((ofNegative col).sum : ℚ) / (ofNegative col).length = ((ofOther col).sum : ℚ) / (ofOther col).length →
      golub sqrt (wholeColumn col) = .fin 0 ∧ fisher sqrt (wholeColumn col) = .fin 0) := by
  obtain ⟨a, b, sn, sp, hm, ha, hb, har, hbr, hd, hd0⟩ := score_parts hs col hn hp hl hwn hwp hv
  obtain ⟨d, hdiff, hdb⟩ := diff_small ha hb
  have hsq : ∃ x, (Dbl.fin d).mul (.fin d) = .fin x ∧ 0 ≤ x := by
    have h1 : IsDbl 0 := by decide +kernel
    have h2 : IsDbl (2 ^ 108) := by decide +kernel
    rw [abs_le] at hdb
    obtain ⟨x, hx, hlo, _, _⟩ := rnd_between (q := d * d) h1 h2 (mul_self_nonneg d) (by nlinarith)
    exact ⟨x, hx, hlo⟩
  obtain ⟨x, hx, hx0⟩ := hsq
  have hg : golub sqrt (wholeColumn col) = (Dbl.fin |d|).div (sp.add sn) := by
    unfold golub; rw [hm]; simp only [hdiff, Dbl.abs]
  have hf : fisher sqrt (wholeColumn col) = (Dbl.fin x).div (sp.add sn) := by
    unfold fisher; rw [hm]; simp only [hdiff, hx]
  refine ⟨?_, ?_⟩
  · intro s hs'
    simp only [List.mem_cons, List.not_mem_nil, or_false] at hs'
    rcases hs' with rfl | rfl
    · rw [hg]; exact (quot_D0 (abs_nonneg d) hd hd0).symm
    · rw [hf]; exact (quot_D0 hx0 hd hd0).symm
  · intro he
    rw [he, hbr] at har
    cases har
    have h0 : rnd 0 = .fin 0 := rnd_eq_zero.2 near_zero
    have hd' : d = 0 := by
      have h := hdiff
      simp only [Dbl.sub, Dbl.neg, Dbl.add, add_neg_cancel, h0, Dbl.fin.injEq] at h
      exact h.symm
    subst hd'
    have hx' : x = 0 := by
      have h := hx
      simp only [Dbl.mul, mul_zero, h0, Dbl.fin.injEq] at h
      exact h.symm
    subst hx'
    have hz : (Dbl.fin 0).div (sp.add sn) = .fin 0 := by
      rcases hd with ⟨q, hq, _, _⟩ | hq
      · rw [hq] at hd0 ⊢
        have : 0 < q := by simpa [Dbl.lt] using hd0
        simp only [Dbl.div, if_neg this.ne', zero_div, h0]
      · rw [hq]; rfl
    rw [hg, hf, abs_zero, hz]
    exact ⟨rfl, rfl⟩

/-- **C237 (order)** So when every feature of a dataset is like this, the comparison the selectors hand to `std::sort` is a strict weak
order, as `std::sort` requires. -/
theorem C237_order_partial {sqrt : Dbl → Dbl} (hs : Root sqrt) (cols : List (List (ℤ × Int)))
    (hc : ∀ col ∈ cols, 2 ≤ (ofNegative col).length ∧ 2 ≤ (ofOther col).length ∧ col.length ≤ 2 ^ 53 ∧
      weight (ofNegative col) ≤ 2 ^ 53 ∧ weight (ofOther col) ≤ 2 ^ 53 ∧
      ((∃ a ∈ ofNegative col, ∃ b ∈ ofNegative col, a ≠ b) ∨ ∃ a ∈ ofOther col, ∃ b ∈ ofOther col, a ≠ b)) :
    ∀ score ∈ [golub sqrt, fisher sqrt],
      StrictWeak (fun i j => (score (wholeColumn (cols.getD i []))).lt (score (wholeColumn (cols.getD j [])))) (List.range cols.length) := by
  intro score hsc
  have hD : ∀ i < cols.length, D0 (score (wholeColumn (cols.getD i []))) := by
    intro i hi
    have hmem : cols.getD i [] ∈ cols := by
      rw [List.getD_eq_getElem?_getD, List.getElem?_eq_getElem hi]; exact List.getElem_mem hi
    obtain ⟨h1, h2, h3, h4, h5, h6⟩ := hc _ hmem
    have := (C237_number_partial hs _ h1 h2 h3 h4 h5 h6).1
    simp only [List.mem_cons, List.not_mem_nil, or_false] at hsc
    rcases hsc with rfl | rfl
    · exact (this _ (by simp)).symm
    · exact (this _ (by simp)).symm
  refine strictWeak_congr (strictWeak_key (fun i => rank (score (wholeColumn (cols.getD i [])))) _) ?_
  intro a ha b hb
  exact lt_rank (hD a (List.mem_range.1 ha)) (hD b (List.mem_range.1 hb))

/-- **C237 (refuted: constant features)** The scores of a feature that has the same whole value in all samples are NaN, whatever the
samples. -/
theorem C237_constant_refuted {sqrt : Dbl → Dbl} (hs : Root sqrt) (col : List (ℤ × Int)) (hn : 2 ≤ (ofNegative col).length)
    (hp : 2 ≤ (ofOther col).length) (hl : col.length ≤ 2 ^ 53) (hwn : weight (ofNegative col) ≤ 2 ^ 53) (hwp : weight (ofOther col) ≤ 2 ^ 53)
    (hv : ∃ v, ∀ c ∈ col, c.1 = v) : golub sqrt (wholeColumn col) = .nan ∧ fisher sqrt (wholeColumn col) = .nan := by
  have h0 : rnd 0 = .fin 0 := rnd_eq_zero.2 near_zero
  have hln : (ofNegative col).length ≤ 2 ^ 53 := by
    refine le_trans ?_ hl; rw [ofNegative, List.length_map]; exact List.length_filter_le ..
  have hlp : (ofOther col).length ≤ 2 ^ 53 := by
    refine le_trans ?_ hl; rw [ofOther, List.length_map]; exact List.length_filter_le ..
  obtain ⟨v, hv⟩ := hv
  have hvn : ∀ z ∈ ofNegative col, z = v := by
    intro z hz
    obtain ⟨c, hc, rfl⟩ := List.mem_map.1 hz
    exact hv c (List.mem_filter.1 hc).1
  have hvp : ∀ z ∈ ofOther col, z = v := by
    intro z hz
    obtain ⟨c, hc, rfl⟩ := List.mem_map.1 hz
    exact hv c (List.mem_filter.1 hc).1
  obtain ⟨⟨a, ha, _, halo, hahi⟩, ha2, _⟩ := C225_whole_partial _ hn hln hwn
  obtain ⟨⟨b, hb, _, hblo, hbhi⟩, hb2, _⟩ := C225_whole_partial _ hp hlp hwp
  have hav : a = v := le_antisymm (hahi v fun z hz => (hvn z hz).le) (halo v fun z hz => (hvn z hz).ge)
  have hbv : b = v := le_antisymm (hbhi v fun z hz => (hvp z hz).le) (hblo v fun z hz => (hvp z hz).ge)
  have hm : scoreMoments sqrt (wholeColumn col) = ((.fin (v : ℚ), .fin (v : ℚ)), (.fin 0, .fin 0)) := by
    rw [moments_eq, whole_neg, whole_other, ha, hb, ha2 ⟨v, hvn⟩, hb2 ⟨v, hvp⟩, hs.zero, hav, hbv]
    · rw [whole_neg]; intro h; have := congrArg List.length h; simp [atPoint, column] at this; rw [this] at hn; simp at hn
    · rw [whole_other]; intro h; have := congrArg List.length h; simp [atPoint, column] at this; rw [this] at hp; simp at hp
  unfold golub fisher
  rw [hm]
  simp only [Dbl.sub, Dbl.neg, Dbl.add, add_neg_cancel, h0, Dbl.abs, abs_zero, Dbl.mul, mul_zero, add_zero, Dbl.div, if_true, and_self]

/-- Three features of six samples: 0, 2, 4 and 2, 4, 6; always 7; 0, 2, 4 and 6, 8, 10. -/
def scoredFeatures : List (List (ℤ × Int)) :=
  [[(0, -1), (2, -1), (4, -1), (2, 1), (4, 1), (6, 1)], [(7, -1), (7, -1), (7, -1), (7, 1), (7, 1), (7, 1)],
    [(0, -1), (2, -1), (4, -1), (6, 1), (8, 1), (10, 1)]]

theorem scoredFeatures_scores {sqrt : Dbl → Dbl} (h0 : sqrt (.fin 0) = .fin 0) (h4 : sqrt (.fin 4) = .fin 2) :
    (golub sqrt (wholeColumn (scoredFeatures.getD 0 [])) = .fin (1 / 2) ∧ fisher sqrt (wholeColumn (scoredFeatures.getD 0 [])) = .fin 1) ∧
    (golub sqrt (wholeColumn (scoredFeatures.getD 1 [])) = .nan ∧ fisher sqrt (wholeColumn (scoredFeatures.getD 1 [])) = .nan) ∧
    golub sqrt (wholeColumn (scoredFeatures.getD 2 [])) = .fin (3 / 2) ∧ fisher sqrt (wholeColumn (scoredFeatures.getD 2 [])) = .fin 9 := by
  have key : ∀ (i : ℕ) (a b s t : ℚ), ofNegative (wholeColumn (scoredFeatures.getD i [])) ≠ [] →
      ofOther (wholeColumn (scoredFeatures.getD i [])) ≠ [] →
      meanOf (ofNegative (wholeColumn (scoredFeatures.getD i []))) = .fin a → meanOf (ofOther (wholeColumn (scoredFeatures.getD i []))) = .fin b →
      spread (ofNegative (wholeColumn (scoredFeatures.getD i []))) = .fin s → spread (ofOther (wholeColumn (scoredFeatures.getD i []))) = .fin t →
      scoreMoments sqrt (wholeColumn (scoredFeatures.getD i [])) = ((.fin a, .fin b), (sqrt (.fin s), sqrt (.fin t))) := by
    intro i a b s t h1 h2 h3 h4 h5 h6
    rw [moments_eq _ _ h1 h2, h3, h4, h5, h6]
  have m0 := key 0 2 4 4 4 (by decide) (by decide) (by decide +kernel) (by decide +kernel) (by decide +kernel) (by decide +kernel)
  have m1 := key 1 7 7 0 0 (by decide) (by decide) (by decide +kernel) (by decide +kernel) (by decide +kernel) (by decide +kernel)
  have m2 := key 2 2 8 4 4 (by decide) (by decide) (by decide +kernel) (by decide +kernel) (by decide +kernel) (by decide +kernel)
  unfold golub fisher
  rw [m0, m1, m2, h0, h4]
  refine ⟨⟨?_, ?_⟩, ⟨?_, ?_⟩, ?_, ?_⟩ <;> decide +kernel

/-- **C237 (refuted: order)** One constant feature is enough to make the comparison handed to `std::sort` no strict weak order: the sort
is undefined behaviour. -/
theorem C237_order_refuted {sqrt : Dbl → Dbl} (h0 : sqrt (.fin 0) = .fin 0) (h4 : sqrt (.fin 4) = .fin 2) :
    ∀ score ∈ [golub sqrt, fisher sqrt],
      ¬ StrictWeak (fun i j => (score (wholeColumn (scoredFeatures.getD i []))).lt (score (wholeColumn (scoredFeatures.getD j []))))
        (List.range scoredFeatures.length) := by
  intro score hsc h
  obtain ⟨⟨g0, f0⟩, ⟨g1, f1⟩, g2, f2⟩ := scoredFeatures_scores h0 h4
  have := h.incomp 0 (by decide) 1 (by decide) 2 (by decide)
  simp only [List.mem_cons, List.not_mem_nil, or_false] at hsc
  rcases hsc with rfl | rfl
  · simp only [g0, g1, g2] at this; revert this; decide +kernel
  · simp only [f0, f1, f2] at this; revert this; decide +kernel

/-- **C237 (refuted: one sample)** With a single sample labelled -1 all scores are NaN, whatever the values: the selection is
arbitrary. -/
theorem C237_single_refuted {sqrt : Dbl → Dbl} (hs : sqrt .nan = .nan) (col : List (ℤ × Int)) (h1 : (ofNegative col).length = 1)
    (hp : 2 ≤ (ofOther col).length) (hw : weight (ofNegative col) ≤ 2 ^ 53) :
    golub sqrt (wholeColumn col) = .nan ∧ fisher sqrt (wholeColumn col) = .nan := by
  obtain ⟨z, hz⟩ := List.length_eq_one_iff.1 h1
  have hnan : spread (ofNegative (wholeColumn col)) = .nan := by
    rw [whole_neg, hz]
    have hzb : |z| ≤ 2 ^ 53 := by rw [hz] at hw; simpa [weight] using hw
    have hzd : rnd (z : ℚ) = .fin z := isDbl_int hzb
    have h0 : rnd 0 = .fin 0 := rnd_eq_zero.2 near_zero
    have h11 : Dbl.ofNat 1 = .fin 1 := by decide +kernel
    have h00 : Dbl.ofNat 0 = .fin 0 := by decide +kernel
    simp only [spread, squares, meanOf, total, atPoint, column, List.map_cons, List.map_nil, List.foldl_cons, List.foldl_nil, List.length_cons,
      List.length_nil, Nat.zero_lt_one, if_true, Dbl.add, zero_add, hzd, h11]
    simp [Dbl.div, hzd, Dbl.sub, Dbl.neg, Dbl.add, h0, Dbl.mul, h00]
  have hm := moments_eq sqrt (wholeColumn col)
    (by rw [whole_neg, hz]; simp [atPoint, column])
    (by rw [whole_other]; intro h; have := congrArg List.length h; simp [atPoint, column] at this; rw [this] at hp; simp at hp)
  unfold golub fisher
  rw [hm, hnan, hs]
  have hadd : ∀ a : Dbl, a.add .nan = .nan := by intro a; cases a <;> rfl
  have hdiv : ∀ a : Dbl, a.div .nan = .nan := by intro a; cases a <;> rfl
  simp only [hadd, hdiv, and_self]

/-- The hypotheses are met. -/
example : ∀ col ∈ [scoredFeatures[0], scoredFeatures[2]], 2 ≤ (ofNegative col).length ∧ 2 ≤ (ofOther col).length ∧ col.length ≤ 2 ^ 53 ∧
    weight (ofNegative col) ≤ 2 ^ 53 ∧ weight (ofOther col) ≤ 2 ^ 53 ∧
    ((∃ a ∈ ofNegative col, ∃ b ∈ ofNegative col, a ≠ b) ∨ ∃ a ∈ ofOther col, ∃ b ∈ ofOther col, a ≠ b) := by decide

/-- A function that has what is asked of a root: exact for 0 and 4, rough otherwise. -/
example : ∃ sqrt, Root sqrt ∧ sqrt (.fin 4) = .fin 2 := by
  refine ⟨fun a => match a with
    | .fin q => if q ≤ 0 then .fin 0 else if q = 4 then .fin 2 else .fin 1
    | a => a, ⟨by simp, ?_, rfl⟩, by norm_num⟩
  intro q _ hq
  by_cases h : q = 4
  · exact ⟨2, by subst h; norm_num, by decide +kernel, by norm_num⟩
  · exact ⟨1, by simp [not_le.2 hq, h], by decide +kernel, by norm_num⟩

end MLTK.Props
