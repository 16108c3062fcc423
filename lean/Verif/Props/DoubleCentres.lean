import Verif.Model.DoubleCentres
import Verif.Lemmas.DoubleSum
import Verif.Props.DoubleStats
import Verif.Props.DoubleNorm
import Verif.Props.DoubleDual
import Verif.Props.DoubleRatio
/-!
# C248: radius, distance of the class centres and covariance in `double` arithmetic
-/
namespace MLTK.Spec
open MLTK.Fp

/-- A root: nonnegative for nonnegative and infinite arguments, and never decreasing. -/
structure GoodRoot (sqrt : Dbl → Dbl) : Prop where
  nonneg : ∀ a, D0 a → D0 (sqrt a)
  mono : ∀ a b, D0 a → D0 b → a.le b = true → (sqrt a).le (sqrt b) = true

/-- The distance of sample `i` to the centre `c`, over the features `js`: the root of the sum of the squared differences. -/
def toCentre (sqrt : Dbl → Dbl) (c : ℕ → Dbl) (v : ℕ → Dbl) (js : List ℕ) : Dbl :=
  sqrt (Fp.total (js.map (fun j => ((c j).sub (v j)).mul ((c j).sub (v j)))))

/-- The average of feature `j` over the samples whose label is 1 (for `one = true`) or is not 1. -/
def classMean (x : ℕ → ℕ → ℚ) (y : ℕ → Dbl) (n : ℕ) (one : Bool) (j : ℕ) : Dbl :=
  Fp.meanOf ((((List.range n).filter (fun i => decide (y i = .fin 1) = one)).map (fun i => x i j)).map Dbl.fin)

end MLTK.Spec

namespace MLTK.Props
open MLTK.Fp
open MLTK.Spec (GoodRoot toCentre classMean)
open MLTK.Data (Res_bind_ok Res_bind_error Res_pure)

section
attribute [local irreducible] Fp.rnd Fp.near Fp.huge Fp.two

theorem D0.ne_nan {a : Dbl} (h : D0 a) : a ≠ .nan := by
  rcases h with ⟨q, rfl, _⟩ | rfl <;> simp

private theorem pow2_D0 {a : Dbl} (h : a ≠ .nan) : D0 (pow2 a) := by
  unfold pow2
  cases a with
  | fin x => exact rnd_D0 (mul_self_nonneg x)
  | inf s => right; simp [Dbl.mul]
  | nan => exact absurd rfl h

private theorem sub_fin_ne_nan {a : Dbl} (h : a ≠ .nan) (q : ℚ) : a.sub (.fin q) ≠ .nan := add_fin_ne_nan h (-q)

private theorem avgAt_ne_nan {x : ℕ → ℕ → ℚ} {n : ℕ} (h0 : 0 < n) (hn : n ≤ 2 ^ 53) (j : ℕ) :
    avgAt (fun i j => .fin (x i j)) n j ≠ .nan := by
  unfold avgAt
  have : (List.range n).map (fun i => Dbl.fin (x i j)) = atPoint ((List.range n).map (fun i => x i j)) := by
    unfold atPoint; rw [List.map_map]; rfl
  rw [this]
  exact div_nat_ne_nan (total_ne_nan _) h0 hn

private theorem normAt_eq (x : ℕ → ℕ → Dbl) (n : ℕ) (js : List ℕ) (i : ℕ) :
    normAt x n js i = total (js.map (fun j => pow2 ((avgAt x n j).sub (x i j)))) := by
  unfold normAt total
  rw [List.foldl_map]

private theorem gapOf_eq (x : ℕ → ℕ → Dbl) (y : ℕ → Dbl) (names : ℕ → ℤ) (n d : ℕ) (feat : ℤ) :
    gapOf x y names n d feat = Fp.total ((partake names feat d).map (fun j =>
      pow2 ((sideAvg x y n true j).sub (sideAvg x y n false j)))) := by
  unfold gapOf Fp.total
  rw [List.foldl_map]

private theorem terms_D0 {x : ℕ → ℕ → ℚ} {n : ℕ} (h0 : 0 < n) (hn : n ≤ 2 ^ 53) (js : List ℕ) (i : ℕ) :
    ∀ v ∈ js.map (fun j => pow2 ((avgAt (fun i j => .fin (x i j)) n j).sub (.fin (x i j)))), D0 v := by
  intro v hv
  obtain ⟨j, _, rfl⟩ := List.mem_map.1 hv
  exact pow2_D0 (sub_fin_ne_nan (avgAt_ne_nan h0 hn j) _)

private theorem add_mono {a b c d : Dbl} (ha : D0 a) (hb : D0 b) (hc : D0 c) (hd : D0 d) (h1 : a.le b = true) (h2 : c.le d = true) :
    (a.add c).le (b.add d) = true := by
  rcases hb with ⟨q, rfl, _, q0⟩ | rfl
  · rcases hd with ⟨s, rfl, _, s0⟩ | rfl
    · rcases ha with ⟨p, rfl, _, p0⟩ | rfl
      · rcases hc with ⟨r, rfl, _, r0⟩ | rfl
        · simp only [Dbl.le, decide_eq_true_eq] at h1 h2
          exact rnd_mono (add_le_add h1 h2)
        · simp [Dbl.le] at h2
      · simp [Dbl.le] at h1
    · have := ha.add hc
      rcases this with ⟨r, h, _⟩ | h <;> rw [h] <;> rfl
  · have hi : (Dbl.inf false).add d = .inf false := by rcases hd with ⟨s, rfl, _⟩ | rfl <;> rfl
    rw [hi]
    rcases ha.add hc with ⟨r, h, _⟩ | h <;> rw [h] <;> rfl

/-- The sum of some of the terms is at most the sum of all. -/
private theorem sum_sublist {l1 l2 : List Dbl} (hs : l1.Sublist l2) (h2 : ∀ v ∈ l2, D0 v) :
    ∀ s t, D0 s → D0 t → s.le t = true → (l1.foldl Dbl.add s).le (l2.foldl Dbl.add t) = true := by
  induction hs with
  | slnil => intro s t _ _ h; exact h
  | @cons l1 l2 a hs ih =>
    intro s t ds dt h
    have da := h2 a (by simp)
    exact ih (fun v hv => h2 v (by simp [hv])) s _ ds (dt.add da) (dt.trans h (dt.le_left da))
  | @cons_cons l1 l2 a hs ih =>
    intro s t ds dt h
    have da := h2 a (by simp)
    exact ih (fun v hv => h2 v (by simp [hv])) _ _ (ds.add da) (dt.add da) (add_mono ds dt da da h da.refl)

private theorem fold_map_max (f : ℕ → Dbl) (l : List ℕ) (s : Dbl) :
    l.foldl (fun mx i => let norm := f i; if mx.lt norm then norm else mx) s =
      (l.map f).foldl (fun m v => if m.lt v then v else m) s := by rw [List.foldl_map]

private theorem radius_two (sqrt : Dbl → Dbl) (x : ℕ → ℕ → Dbl) (names : ℕ → ℤ) (n d : ℕ) (feat : ℤ) :
    radiusOf sqrt x names n d feat (.fin 2) =
      ((List.range n).map (fun i => sqrt (normAt x n (partake names feat d) i))).foldl (fun m v => if m.lt v then v else m) (.fin 0) := by
  unfold radiusOf
  simp only
  rw [if_pos (by simp [Dbl.eq])]
  exact fold_map_max _ _ _

private theorem mem_partake {names : ℕ → ℤ} {feat : ℤ} {d j : ℕ} :
    j ∈ partake names feat d ↔ j < d ∧ (feat < 0 ∨ names j ≠ feat) := by
  unfold partake; simp

/-- **C248 (radius)** For finite values, `radius(data, feat, 2)` is a nonnegative number or infinity, never NaN, at least the computed
distance of every sample to the computed averages over the features other than `feat`, and the distance of one of the samples. -/
theorem C248_radius (sqrt : Dbl → Dbl) (hq : GoodRoot sqrt) (x : ℕ → ℕ → ℚ) (names : ℕ → ℤ) (n d : ℕ) (feat : ℤ)
    (h0 : 0 < n) (hn : n ≤ 2 ^ 53) (js : List ℕ)
    (hjs : js = (List.range d).filter (fun j => feat < 0 ∨ names j ≠ feat)) (c : ℕ → Dbl)
    (hc : ∀ j, c j = meanOf (atPoint ((List.range n).map (fun i => x i j)))) :
    ∃ r, radiusOf sqrt (fun i j => .fin (x i j)) names n d feat (.fin 2) = r ∧ r ≠ .nan ∧ (Dbl.fin 0).le r = true ∧
      (∀ i < n, (toCentre sqrt c (fun j => .fin (x i j)) js).le r = true) ∧
      ∃ i < n, r = toCentre sqrt c (fun j => .fin (x i j)) js := by
  have hp : partake names feat d = js := by
    rw [hjs]; unfold partake; congr 1; funext j; simp
  have hav : ∀ j, avgAt (fun i j => .fin (x i j)) n j = c j := by
    intro j
    rw [hc]
    unfold avgAt meanOf atPoint
    rw [if_pos (by simpa using h0), List.map_map]
    simp only [List.length_map, List.length_range]
    rfl
  have hnorm : ∀ i, sqrt (normAt (fun i j => .fin (x i j)) n js i) = toCentre sqrt c (fun j => .fin (x i j)) js := by
    intro i
    rw [normAt_eq]
    unfold toCentre
    simp only [hav]
    rfl
  have hD : ∀ i, D0 (sqrt (normAt (fun i j => .fin (x i j)) n js i)) := by
    intro i
    rw [normAt_eq]
    exact hq.nonneg _ (sum_D0 _ (terms_D0 h0 hn js i) _ zero_D0).1
  have hall : ∀ v ∈ (List.range n).map (fun i => sqrt (normAt (fun i j => .fin (x i j)) n js i)), D0 v := by
    intro v hv
    obtain ⟨i, _, rfl⟩ := List.mem_map.1 hv
    exact hD i
  obtain ⟨a, b, cc, e⟩ := maxOf_ge _ hall _ zero_D0
  refine ⟨_, rfl, ?_⟩
  rw [radius_two, hp]
  refine ⟨D0.ne_nan a, b, ?_, ?_⟩
  · intro i hi
    rw [← hnorm]
    exact cc _ (List.mem_map.2 ⟨i, by simpa using hi, rfl⟩)
  · rcases e with e | e
    · refine ⟨0, h0, ?_⟩
      have := cc _ (List.mem_map.2 ⟨0, by simpa using h0, rfl⟩)
      rw [e] at this
      rw [e, ← hnorm]
      exact ((hD 0).eq_zero this).symm
    · obtain ⟨i, hi, h⟩ := List.mem_map.1 e
      refine ⟨i, by simpa using hi, ?_⟩
      rw [← hnorm, h]

private theorem max_le {l1 : List Dbl} {b : Dbl} (h1 : ∀ v ∈ l1, D0 v) (hb : D0 b) (h : ∀ v ∈ l1, v.le b = true) :
    (l1.foldl (fun (m v : Dbl) => if m.lt v then v else m) (.fin 0)).le b = true := by
  obtain ⟨_, _, _, e⟩ := maxOf_ge _ h1 _ zero_D0
  rcases e with e | e
  · rw [e]
    rcases hb with ⟨q, rfl, _, q0⟩ | rfl
    · simpa [Dbl.le] using q0
    · rfl
  · exact h _ e

private theorem partake_sublist (names : ℕ → ℤ) (feat : ℤ) (d : ℕ) : (partake names feat d).Sublist (partake names (-1) d) := by
  have : partake names (-1) d = List.range d := by unfold partake; simp
  rw [this]
  exact List.filter_sublist

private theorem eq_one (a : Dbl) : a.eq (.fin 1) = true ↔ a = .fin 1 := by
  cases a <;> simp [Dbl.eq]

private theorem sideSize_pos {y : ℕ → Dbl} {n : ℕ} (h1 : ∃ i < n, y i = .fin 1) (h2 : ∃ i < n, y i ≠ .fin 1) (side : Bool) :
    0 < sideSize y n side := by
  unfold sideSize
  rw [List.length_pos_iff_exists_mem]
  cases side
  · obtain ⟨i, hi, h⟩ := h2
    refine ⟨i, List.mem_filter.2 ⟨by simpa using hi, ?_⟩⟩
    have : (y i).eq (.fin 1) = false := by rw [Bool.eq_false_iff, Ne, eq_one]; exact h
    simp [this]
  · obtain ⟨i, hi, h⟩ := h1
    refine ⟨i, List.mem_filter.2 ⟨by simpa using hi, ?_⟩⟩
    simp [(eq_one _).2 h]

private theorem sideAvg_eq {x : ℕ → ℕ → ℚ} {y : ℕ → Dbl} {n : ℕ} (h1 : ∃ i < n, y i = .fin 1) (h2 : ∃ i < n, y i ≠ .fin 1) (side : Bool)
    (j : ℕ) : sideAvg (fun i j => .fin (x i j)) y n side j = classMean x y n side j := by
  have h0 := sideSize_pos h1 h2 side
  have hf : (List.range n).filter (fun i => decide (y i = .fin 1) = side) =
      (List.range n).filter (fun i => (y i).eq (.fin 1) == side) := by
    apply List.filter_congr
    intro i _
    have := eq_one (y i)
    cases h : (y i).eq (.fin 1) <;> cases side <;> simp_all
  unfold sideAvg classMean meanOf
  unfold sideSize at h0 ⊢
  rw [hf, if_pos (by simpa using h0), List.map_map, List.length_map]
  rfl

/-- **C248 (leaving out a feature)** Leaving out a feature never increases the radius, nor, while the class averages are finite, the
distance of the class centres: rounding does not disturb this. -/
theorem C248_drop (sqrt : Dbl → Dbl) (hq : GoodRoot sqrt) (x : ℕ → ℕ → ℚ) (y : ℕ → Dbl) (names : ℕ → ℤ) (n d : ℕ) (feat : ℤ)
    (hn : n ≤ 2 ^ 53) (h1 : ∃ i < n, y i = .fin 1) (h2 : ∃ i < n, y i ≠ .fin 1) :
    (radiusOf sqrt (fun i j => .fin (x i j)) names n d feat (.fin 2)).le
      (radiusOf sqrt (fun i j => .fin (x i j)) names n d (-1) (.fin 2)) = true ∧
    ((∀ j < d, ∀ one, ∃ q, classMean x y n one j = .fin q) →
      (distCentersOf sqrt (fun i j => .fin (x i j)) y names n d feat).le
        (distCentersOf sqrt (fun i j => .fin (x i j)) y names n d (-1)) = true) := by
  constructor
  · rcases Nat.eq_zero_or_pos n with rfl | h0
    · simp [radiusOf, Dbl.eq, Dbl.le]
    · rw [radius_two, radius_two]
      have hD : ∀ js i, D0 (normAt (fun i j => .fin (x i j)) n js i) := by
        intro js i
        rw [normAt_eq]
        exact (sum_D0 _ (terms_D0 h0 hn js i) _ zero_D0).1
      have hall : ∀ js, ∀ v ∈ (List.range n).map (fun i => sqrt (normAt (fun i j => .fin (x i j)) n js i)), D0 v := by
        intro js v hv
        obtain ⟨i, _, rfl⟩ := List.mem_map.1 hv
        exact hq.nonneg _ (hD js i)
      obtain ⟨a, _, c, _⟩ := maxOf_ge _ (hall (partake names (-1) d)) _ zero_D0
      refine max_le (hall _) a ?_
      intro v hv
      obtain ⟨i, hi, rfl⟩ := List.mem_map.1 hv
      have hs := sum_sublist ((partake_sublist names feat d).map _) (terms_D0 (x := x) h0 hn (partake names (-1) d) i) _ _ zero_D0 zero_D0
        zero_D0.refl
      have hle : (normAt (fun i j => .fin (x i j)) n (partake names feat d) i).le
          (normAt (fun i j => .fin (x i j)) n (partake names (-1) d) i) = true := by
        rw [normAt_eq, normAt_eq]; exact hs
      exact (hq.nonneg _ (hD _ i)).trans (hq.mono _ _ (hD _ i) (hD _ i) hle) (c _ (List.mem_map.2 ⟨i, hi, rfl⟩))
  · intro hf
    have hsub : ∀ j ∈ partake names (-1) d, D0 (pow2 ((sideAvg (fun i j => .fin (x i j)) y n true j).sub
        (sideAvg (fun i j => .fin (x i j)) y n false j))) := by
      intro j hj
      obtain ⟨p, hp⟩ := hf j (mem_partake.1 hj).1 true
      obtain ⟨q, hq'⟩ := hf j (mem_partake.1 hj).1 false
      rw [sideAvg_eq h1 h2, sideAvg_eq h1 h2, hp, hq']
      exact pow2_D0 (sub_fin_ne_nan (by simp) q)
    have hD : ∀ js : List ℕ, js.Sublist (partake names (-1) d) → ∀ v ∈ js.map (fun j => pow2 ((sideAvg (fun i j => .fin (x i j)) y n
        true j).sub (sideAvg (fun i j => .fin (x i j)) y n false j))), D0 v := by
      intro js hs v hv
      obtain ⟨j, hj, rfl⟩ := List.mem_map.1 hv
      exact hsub j (hs.subset hj)
    have hs1 := partake_sublist names feat d
    have := sum_sublist (hs1.map _) (hD _ (List.Sublist.refl _)) _ _ zero_D0 zero_D0 zero_D0.refl
    unfold distCentersOf
    rw [gapOf_eq, gapOf_eq]
    exact hq.mono _ _ (sum_D0 _ (hD _ hs1) _ zero_D0).1 (sum_D0 _ (hD _ (List.Sublist.refl _)) _ zero_D0).1 this

private theorem max_nest (f : ℕ → ℕ → Dbl) (js : List ℕ) : ∀ (l : List ℕ) (s : Dbl),
    l.foldl (fun mx i => js.foldl (fun mx j => if mx.lt (f i j) then f i j else mx) mx) s =
      (l.flatMap (fun i => js.map (f i))).foldl (fun m v => if m.lt v then v else m) s := by
  intro l
  induction l with
  | nil => intro s; rfl
  | cons a l ih =>
    intro s
    rw [List.foldl_cons, List.flatMap_cons, List.foldl_append, ih, List.foldl_map]

/-- **C248 (largest value)** For finite values, `radius(data, feat, 1)` is, without any rounding, the largest magnitude among the values of
the features other than `feat`, and zero if there are none. -/
theorem C248_largest (sqrt : Dbl → Dbl) (x : ℕ → ℕ → ℚ) (hx : ∀ i j, IsDbl (x i j)) (names : ℕ → ℤ) (n d : ℕ) (feat : ℤ) :
    ∃ r : ℚ, radiusOf sqrt (fun i j => .fin (x i j)) names n d feat (.fin 1) = .fin r ∧ 0 ≤ r ∧
      (∀ i < n, ∀ j < d, (feat < 0 ∨ names j ≠ feat) → |x i j| ≤ r) ∧
      (r = 0 ∨ ∃ i < n, ∃ j < d, (feat < 0 ∨ names j ≠ feat) ∧ |x i j| = r) := by
  have hall : ∀ v ∈ (List.range n).flatMap (fun i => (partake names feat d).map (fun j => Dbl.fin |x i j|)), D0 v := by
    intro v hv
    obtain ⟨i, _, hv⟩ := List.mem_flatMap.1 hv
    obtain ⟨j, _, rfl⟩ := List.mem_map.1 hv
    refine .inl ⟨_, rfl, ?_, abs_nonneg _⟩
    rcases abs_choice (x i j) with h | h <;> rw [h]
    · exact hx i j
    · exact (hx i j).neg
  obtain ⟨a, b, c, e⟩ := maxOf_ge _ hall _ zero_D0
  have hr : radiusOf sqrt (fun i j => .fin (x i j)) names n d feat (.fin 1) =
      ((List.range n).flatMap (fun i => (partake names feat d).map (fun j => Dbl.fin |x i j|))).foldl
        (fun m v => if m.lt v then v else m) (.fin 0) := by
    rw [← max_nest]
    unfold radiusOf
    simp only
    rw [if_neg (by simp [Dbl.eq]), if_pos (by simp [Dbl.eq])]
    rfl
  rw [hr]
  have key : ∃ r : ℚ, ((List.range n).flatMap (fun i => (partake names feat d).map (fun j => Dbl.fin |x i j|))).foldl
      (fun m v => if m.lt v then v else m) (.fin 0) = .fin r ∧
      (r = 0 ∨ ∃ i < n, ∃ j < d, (feat < 0 ∨ names j ≠ feat) ∧ |x i j| = r) := by
    rcases e with e | e
    · exact ⟨0, e, .inl rfl⟩
    · obtain ⟨i, hi, h⟩ := List.mem_flatMap.1 e
      obtain ⟨j, hj, h⟩ := List.mem_map.1 h
      exact ⟨_, h.symm, .inr ⟨i, by simpa using hi, j, (mem_partake.1 hj).1, (mem_partake.1 hj).2, rfl⟩⟩
  obtain ⟨r, h1, h2⟩ := key
  rw [h1] at b c ⊢
  refine ⟨r, rfl, by simpa [Dbl.le] using b, ?_, h2⟩
  intro i hi j hj hf
  have := c (.fin |x i j|) (List.mem_flatMap.2 ⟨i, by simpa using hi, List.mem_map.2 ⟨j, mem_partake.2 ⟨hj, hf⟩, rfl⟩⟩)
  simpa [Dbl.le] using this

private theorem pow2_swap (a b : Dbl) : pow2 (a.sub b) = pow2 (b.sub a) := by
  have h : b.sub a = (a.sub b).neg := by
    cases a with
    | fin p => cases b with
      | fin q => rw [Fp.sub_fin, Fp.sub_fin, ← rnd_neg]; congr 1; ring
      | inf s => simp [Dbl.sub, Dbl.add, Dbl.neg]
      | nan => rfl
    | inf s => cases b with
      | fin q => simp [Dbl.sub, Dbl.add, Dbl.neg]
      | inf t => cases s <;> cases t <;> rfl
      | nan => rfl
    | nan => cases b <;> rfl
  rw [h]
  unfold pow2
  generalize a.sub b = v
  cases v with
  | fin x => simp only [Dbl.mul, Dbl.neg, neg_mul_neg]
  | inf s => simp [Dbl.mul, Dbl.neg]
  | nan => rfl

/-- **C248 (centres, exchange)** Exchanging the two classes changes nothing: datasets with the same values, in which exactly the samples
labelled 1 in the one are not labelled 1 in the other, have the same distance of class centres, whatever the values. -/
theorem C248_centres_exchange (sqrt : Dbl → Dbl) (x : ℕ → ℕ → Dbl) (y y' : ℕ → Dbl) (names : ℕ → ℤ) (n d : ℕ) (feat : ℤ)
    (hy : ∀ i < n, (y i = .fin 1 ↔ y' i ≠ .fin 1)) :
    distCentersOf sqrt x y names n d feat = distCentersOf sqrt x y' names n d feat := by
  have heq : ∀ a : Dbl, a.eq (.fin 1) = true ↔ a = .fin 1 := by
    intro a; cases a <;> simp [Dbl.eq]
  have hf : ∀ side, (List.range n).filter (fun i => (y i).eq (.fin 1) == side) =
      (List.range n).filter (fun i => (y' i).eq (.fin 1) == !side) := by
    intro side
    apply List.filter_congr
    intro i hi
    have h := hy i (by simpa using hi)
    rw [← heq, Ne, ← heq] at h
    cases h1 : (y i).eq (.fin 1) <;> cases h2 : (y' i).eq (.fin 1) <;> cases side <;> simp_all
  have ha : ∀ side j, sideAvg x y n side j = sideAvg x y' n (!side) j := by
    intro side j
    unfold sideAvg sideSize
    rw [hf]
  unfold distCentersOf gapOf
  simp only [ha, Bool.not_true, Bool.not_false]
  congr 2
  funext s j
  rw [pow2_swap]

private theorem sideAvg_ne_nan {x : ℕ → ℕ → ℚ} {y : ℕ → Dbl} {n : ℕ} {side : Bool} (h0 : 0 < sideSize y n side) (hn : n ≤ 2 ^ 53)
    (j : ℕ) : sideAvg (fun i j => .fin (x i j)) y n side j ≠ .nan := by
  unfold sideAvg
  have : ∀ l : List ℕ, l.map (fun i => Dbl.fin (x i j)) = atPoint (l.map (fun i => x i j)) := by
    intro l; unfold atPoint; rw [List.map_map]; rfl
  rw [this]
  refine div_nat_ne_nan (total_ne_nan _) h0 (le_trans ?_ hn)
  unfold sideSize
  exact (List.length_filter_le _ _).trans (by simp)

private theorem sub_eq_nan_iff {a b : Dbl} (ha : a ≠ .nan) (hb : b ≠ .nan) : a.sub b = .nan ↔ ∃ s, a = .inf s ∧ b = .inf s := by
  cases a with
  | fin p => cases b with
    | fin q => rw [Fp.sub_fin]; simp [rnd_ne_nan]
    | inf s => simp [Dbl.sub, Dbl.add, Dbl.neg]
    | nan => exact absurd rfl hb
  | inf s => cases b with
    | fin q => simp [Dbl.sub, Dbl.add, Dbl.neg]
    | inf t => cases s <;> cases t <;> simp [Dbl.sub, Dbl.add, Dbl.neg]
    | nan => exact absurd rfl hb
  | nan => exact absurd rfl ha

/-- **C248 (centres, partial)** For finite values and two classes that both occur, `distCenters(data, feat)` is the root of the sum of the squared
differences of the class averages over the features other than `feat`.  The sum is a nonnegative number or infinity, unless one of these
features has averages that overflow to the same infinity in both classes: then, and only then, it is NaN. -/
theorem C248_centres_partial (sqrt : Dbl → Dbl) (x : ℕ → ℕ → ℚ) (y : ℕ → Dbl) (names : ℕ → ℤ) (n d : ℕ) (feat : ℤ)
    (hn : n ≤ 2 ^ 53) (h1 : ∃ i < n, y i = .fin 1) (h2 : ∃ i < n, y i ≠ .fin 1) (js : List ℕ)
    (hjs : js = (List.range d).filter (fun j => feat < 0 ∨ names j ≠ feat)) :
    distCentersOf sqrt (fun i j => .fin (x i j)) y names n d feat = toCentre sqrt (classMean x y n true) (classMean x y n false) js ∧
    ∃ v, distCentersOf sqrt (fun i j => .fin (x i j)) y names n d feat = sqrt v ∧
      (v = .nan ∨ (Dbl.fin 0).le v = true) ∧
      (v = .nan ↔ ∃ j < d, (feat < 0 ∨ names j ≠ feat) ∧ ∃ s, ∀ one, classMean x y n one j = .inf s) := by
  have hp : partake names feat d = js := by
    rw [hjs]; unfold partake; congr 1; funext j; simp
  have hs := sideSize_pos h1 h2
  have hnn : ∀ one j, classMean x y n one j ≠ .nan := by
    intro one j
    rw [← sideAvg_eq h1 h2]
    exact sideAvg_ne_nan (hs one) hn j
  have hg : gapOf (fun i j => .fin (x i j)) y names n d feat = Fp.total (js.map (fun j =>
      pow2 ((classMean x y n true j).sub (classMean x y n false j)))) := by
    rw [gapOf_eq, hp]
    simp only [sideAvg_eq h1 h2]
  refine ⟨by unfold distCentersOf; rw [hg]; rfl, _, rfl, ?_⟩
  rw [hg]
  by_cases hb : ∃ j < d, (feat < 0 ∨ names j ≠ feat) ∧ ∃ s, ∀ one, classMean x y n one j = .inf s
  · have hnan : Fp.total (js.map (fun j => pow2 ((classMean x y n true j).sub (classMean x y n false j)))) = .nan := by
      obtain ⟨j, hj, hf, s, h⟩ := hb
      apply total_nan
      refine List.mem_map.2 ⟨j, hp ▸ mem_partake.2 ⟨hj, hf⟩, ?_⟩
      rw [h, h]
      cases s <;> rfl
    exact ⟨.inl hnan, fun _ => hb, fun _ => hnan⟩
  · have hD := (sum_D0 (js.map (fun j => pow2 ((classMean x y n true j).sub (classMean x y n false j)))) (by
      intro v hv
      obtain ⟨j, hj, rfl⟩ := List.mem_map.1 hv
      rw [← hp] at hj
      apply pow2_D0
      intro h
      obtain ⟨s, h3, h4⟩ := (sub_eq_nan_iff (hnn true j) (hnn false j)).1 h
      exact hb ⟨j, (mem_partake.1 hj).1, (mem_partake.1 hj).2, s, fun one => by cases one <;> assumption⟩) _ zero_D0)
    exact ⟨.inr hD.2.1, fun h => absurd h (D0.ne_nan hD.1), fun h => absurd h hb⟩

/-- **C248 (one class, refuted)** If only one of the classes occurs and a feature takes part, the distance of the class centres is the root
of NaN, whatever the values. -/
theorem C248_one_class_refuted (sqrt : Dbl → Dbl) (x : ℕ → ℕ → Dbl) (y : ℕ → Dbl) (names : ℕ → ℤ) (n d : ℕ) (feat : ℤ)
    (hy : (∀ i < n, y i = .fin 1) ∨ ∀ i < n, y i ≠ .fin 1) (hd : ∃ j < d, feat < 0 ∨ names j ≠ feat) :
    distCentersOf sqrt x y names n d feat = sqrt .nan := by
  have heq : ∀ a : Dbl, a.eq (.fin 1) = true ↔ a = .fin 1 := by
    intro a; cases a <;> simp [Dbl.eq]
  obtain ⟨j, hj, hf⟩ := hd
  have hz : ∃ side, (List.range n).filter (fun i => (y i).eq (.fin 1) == side) = [] := by
    rcases hy with h | h
    · refine ⟨false, List.filter_eq_nil_iff.2 ?_⟩
      intro i hi
      simp [(heq _).2 (h i (by simpa using hi))]
    · refine ⟨true, List.filter_eq_nil_iff.2 ?_⟩
      intro i hi
      have : (y i).eq (.fin 1) = false := by rw [Bool.eq_false_iff, Ne, heq]; exact h i (by simpa using hi)
      simp [this]
  obtain ⟨side, hz⟩ := hz
  have hav : sideAvg x y n side j = .nan := by
    unfold sideAvg sideSize
    rw [hz]
    have : Dbl.ofNat 0 = .fin 0 := by simpa using ofNat_eq (n := 0) (by norm_num)
    simp only [List.map_nil, List.length_nil, this]
    simp [Fp.total, Dbl.div]
  have : pow2 ((sideAvg x y n true j).sub (sideAvg x y n false j)) = .nan := by
    cases side
    · rw [hav]; cases sideAvg x y n true j <;> rfl
    · rw [hav]; cases sideAvg x y n false j <;> rfl
  unfold distCentersOf
  rw [gapOf_eq, total_nan (List.mem_map.2 ⟨j, mem_partake.2 ⟨hj, hf⟩, this⟩)]

/-! ## Covariance -/

/-- **C248 (covariance)** The covariance of two points is the same in both orders, whatever the values, and undefined in both or none; that
of a point of at least two finite values with itself is the square of their deviation (as `std_dev` computes it), a nonnegative number or
infinity, never NaN.  For two points of the same size it is the sum of the products of the differences from the means, divided by one less
than the size. -/
theorem C248_covariance :
    (∀ p q : List Dbl, covarPoint p q = covarPoint q p) ∧
    (∀ p : List ℚ, 2 ≤ p.length → p.length ≤ 2 ^ 53 →
      ∃ v, covarPoint (atPoint p) (atPoint p) = .ok v ∧ v = spread (atPoint p) ∧ v ≠ .nan ∧ (Dbl.fin 0).le v = true) ∧
    ∀ p q : List ℚ, p.length = q.length → 2 ≤ p.length → p.length ≤ 2 ^ 53 →
      covarPoint (atPoint p) (atPoint q) = .ok ((Fp.total (List.zipWith Dbl.mul
        (p.map (fun a => (Dbl.fin a).sub (meanOf (atPoint p)))) (q.map (fun b => (Dbl.fin b).sub (meanOf (atPoint q)))))).div
          (.fin (p.length - 1))) := by
  have hmean' : ∀ p : List ℚ, 2 ≤ p.length → meanPoint (atPoint p) = .ok (meanOf (atPoint p)) := by
    intro p h2
    have hl : (atPoint p).length = p.length := by simp [atPoint]
    unfold meanPoint meanOf
    rw [if_pos (by omega), if_pos (by omega)]
  refine ⟨?_, ?_, ?_⟩
  · intro p q
    unfold covarPoint
    by_cases h : p.length = q.length
    · rw [if_pos h, if_pos h.symm]
      unfold meanPoint
      by_cases h0 : q.length > 0
      · rw [if_pos (by omega), if_pos h0]
        simp only [Res_bind_ok, h]
        congr 3
        rw [List.zipWith_comm]
        congr 1
        funext a b
        exact dmul_comm _ _
      · rw [if_neg (by omega), if_neg h0]
        rfl
    · rw [if_neg h, if_neg (fun e => h e.symm)]
  · intro p h2 hn
    have hl : (atPoint p).length = p.length := by simp [atPoint]
    have hm := meanOf_ne_nan hn
    have hmean : meanPoint (atPoint p) = .ok (meanOf (atPoint p)) := by
      unfold meanPoint meanOf
      rw [if_pos (by omega), if_pos (by omega)]
    have hz : List.zipWith (fun a b => (a.sub (meanOf (atPoint p))).mul (b.sub (meanOf (atPoint p)))) (atPoint p) (atPoint p) =
        (atPoint p).map (fun x => (x.sub (meanOf (atPoint p))).mul (x.sub (meanOf (atPoint p)))) := by
      rw [List.zipWith_self]
    have hdiv : (Dbl.ofNat (atPoint p).length).sub (.fin 1) = .ofNat (p.length - 1) := by
      rw [hl, ofNat_eq hn, ofNat_eq (by omega), Fp.sub_fin]
      have : ((p.length : ℚ) - 1) = ((p.length - 1 : ℕ) : ℚ) := by push_cast [Nat.cast_sub (show 1 ≤ p.length by omega)]; ring
      rw [this]
      exact isDbl_nat (by omega)
    have hD := div_nat_D0 (sum_D0 _ (squares_terms hm p) _ zero_D0).1 (n := p.length - 1) (by omega) (by omega)
    refine ⟨_, ?_, ?_, D0.ne_nan hD, ?_⟩
    · unfold covarPoint
      rw [if_pos rfl, hmean, Res_bind_ok, Res_bind_ok, hz, hdiv]
      rfl
    · rw [spread_eq (by omega) (by omega), squares_eq, hl]
      rfl
    · rcases hD with ⟨v, h, _, h0⟩ | h
      · rw [h]; simpa [Dbl.le] using h0
      · rw [h]; rfl
  · intro p q hpq h2 hn
    unfold covarPoint
    have hl : (atPoint p).length = p.length ∧ (atPoint q).length = q.length := by simp [atPoint]
    rw [if_pos (by omega), hmean' p h2, hmean' q (by omega), Res_bind_ok, Res_bind_ok, hl.2, ← hpq, ofNat_eq hn, Fp.sub_fin]
    have : rnd ((p.length : ℚ) - 1) = .fin ((p.length : ℚ) - 1) := by
      have e : ((p.length : ℚ) - 1) = ((p.length - 1 : ℕ) : ℚ) := by push_cast [Nat.cast_sub (show 1 ≤ p.length by omega)]; ring
      rw [e]
      exact isDbl_nat (by omega)
    rw [this, List.zipWith_map]
    unfold atPoint
    rw [List.zipWith_map]
    rfl

/-- A root as it may be: whole numbers only, rounded down.  Beside the theorems it shows that `GoodRoot` can be met. -/
def wholeRoot : Dbl → Dbl
  | .fin q => rnd ((Nat.sqrt ⌊q⌋.toNat : ℕ) : ℚ)
  | a => a

theorem wholeRoot_good : GoodRoot wholeRoot where
  nonneg := by
    intro a h
    rcases h with ⟨q, rfl, _, _⟩ | rfl
    · exact rnd_D0 (by positivity)
    · exact .inr rfl
  mono := by
    intro a b ha hb h
    rcases ha with ⟨p, rfl, _, _⟩ | rfl <;> rcases hb with ⟨q, rfl, _, _⟩ | rfl
    · simp only [Dbl.le, decide_eq_true_eq] at h
      apply rnd_mono
      exact_mod_cast Nat.sqrt_le_sqrt (Int.toNat_le_toNat (Int.floor_le_floor h))
    · rcases rnd_D0 (q := ((Nat.sqrt ⌊p⌋.toNat : ℕ) : ℚ)) (by positivity) with ⟨r, h, _⟩ | h <;>
        simp only [wholeRoot, h] <;> rfl
    · simp [Dbl.le] at h
    · rfl

end

/-! ## Concrete cases and refutations -/

/-- Three samples with two features. -/
def centreRows (i j : ℕ) : ℚ := ([[1, 2], [3, 10], [5, -6]].getD i []).getD j 0

/-- The labels of the three samples. -/
def centreLabels (i : ℕ) : Dbl := if i = 1 then .fin (-1) else .fin 1

example : radiusOf wholeRoot (fun i j => .fin (centreRows i j)) (fun j => j) 3 2 (-1) (.fin 2) = .fin 8 := by decide +kernel
example : radiusOf wholeRoot (fun i j => .fin (centreRows i j)) (fun j => j) 3 2 1 (.fin 2) = .fin 2 := by decide +kernel
example : radiusOf wholeRoot (fun i j => .fin (centreRows i j)) (fun j => j) 3 2 (-1) (.fin 1) = .fin 10 := by decide +kernel
example : distCentersOf wholeRoot (fun i j => .fin (centreRows i j)) centreLabels (fun j => j) 3 2 (-1) = .fin 12 := by decide +kernel
example : ∀ j < 2, ∀ one, ∃ q, classMean centreRows centreLabels 3 one j = .fin q := by
  intro j hj one
  interval_cases j <;> cases one
  · exact ⟨3, by decide +kernel⟩
  · exact ⟨3, by decide +kernel⟩
  · exact ⟨10, by decide +kernel⟩
  · exact ⟨-2, by decide +kernel⟩
example : (∃ i < 3, centreLabels i = .fin 1) ∧ ∃ i < 3, centreLabels i ≠ .fin 1 := ⟨⟨0, by decide, by decide +kernel⟩, 1, by decide, by decide +kernel⟩
example : covarPoint (atPoint [1, 2, 6]) (atPoint [1, 4, 1]) = .ok (.fin (-3 / 2)) := by decide +kernel

/-- **C248 (equal samples, refuted)** Samples that are all equal can have a positive radius: the average of three times 0.1 is not 0.1. -/
theorem C248_equal_refuted : ¬ ∀ (v : ℚ) (n : ℕ), IsDbl v → 0 < n →
    radiusOf id (fun _ _ => .fin v) (fun j => j) n 1 (-1) (.fin 2) = .fin 0 := by
  intro h
  exact absurd (h (3602879701896397 / 2 ^ 55) 3 (by decide +kernel) (by decide)) (by decide +kernel)

/-- **C248 (overflow, refuted)** With finite values in both classes the distance of the class centres can be the root of NaN. -/
theorem C248_overflow_refuted : ¬ ∀ (x : ℕ → ℕ → ℚ) (y : ℕ → Dbl) (n d : ℕ), (∀ i j, IsDbl (x i j)) → (∃ i < n, y i = .fin 1) →
    (∃ i < n, y i ≠ .fin 1) → distCentersOf id (fun i j => .fin (x i j)) y (fun j => j) n d (-1) ≠ .nan := by
  intro h
  exact h (fun _ _ => 2 ^ 1023) (fun i => if i < 2 then .fin 1 else .fin (-1)) 4 1 (fun _ _ => by decide +kernel)
    ⟨0, by decide, by decide⟩ ⟨3, by decide, by decide⟩ (by decide +kernel)

/-- **C248 (covariance and variance, refuted)** The covariance of a point with itself is not its variance, the divisors differ, and that of a
point with one component is NaN. -/
theorem C248_variance_refuted :
    (¬ ∀ p : List ℚ, 2 ≤ p.length → covarPoint (atPoint p) (atPoint p) = varPoint (atPoint p)) ∧
    ∀ v : ℚ, IsDbl v → covarPoint (atPoint [v]) (atPoint [v]) = .ok .nan := by
  constructor
  · intro h
    exact absurd (h [0, 2] (by decide)) (by decide +kernel)
  · intro v hv
    have h1 : (Dbl.fin 0).add (.fin v) = .fin v := by
      show rnd (0 + v) = .fin v
      rw [zero_add]; exact hv
    have hone : Dbl.ofNat 1 = .fin 1 := by decide +kernel
    have hdiv : (Dbl.fin v).div (.fin 1) = .fin v := by
      simp only [Dbl.div]
      rw [if_neg (by norm_num), div_one]; exact hv
    have hsub : (Dbl.fin v).sub (.fin v) = .fin 0 := by
      rw [Fp.sub_fin, sub_self]; decide +kernel
    have hz : (Dbl.fin 0).mul (.fin 0) = .fin 0 := by decide +kernel
    have hz2 : (Dbl.fin 0).add (.fin 0) = .fin 0 := by decide +kernel
    have h11 : (Dbl.fin 1).sub (.fin 1) = .fin 0 := by decide +kernel
    have hmean : meanPoint (atPoint [v]) = .ok (.fin v) := by
      unfold meanPoint
      simp [atPoint, Fp.total, h1, hone, hdiv]
    unfold covarPoint
    rw [if_pos rfl, hmean, Res_bind_ok, Res_bind_ok]
    simp [atPoint, Fp.total, hsub, hz, hz2, hone, h11, Dbl.div, Res_pure]

end MLTK.Props
