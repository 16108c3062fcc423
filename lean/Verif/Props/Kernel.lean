import Verif.Lemmas.KernelPSD
/-!
# C27, C28, C72: kernels
-/
namespace MLTK.Props
open MLTK MLTK.Kernel MLTK.Spec
open MLTK.Data (Res_bind_ok Res_bind_error Res_pure)

/-- The kernels provided by the library. -/
def BuiltIn (t : KType) : Prop := t = .innerProduct ∨ t = .polynomial ∨ t = .gaussian

theorem function_ok (k : Kern) (hb : BuiltIn k.type) (a b : List ℝ) (n : Nat) (ha : a.length = n)
    (hbl : b.length = n) (f : Option CustomFn) :
    function k a b n f = .ok (kernelValue k.type k.param n a b) := by
  have h1 := dotLoop_ok n a b (by omega) (by omega)
  have h2 := sqLoop_ok n a b (by omega) (by omega)
  rcases hb with h | h | h
  · simp only [function, h]; exact h1
  · simp only [function, h, h1, Res_bind_ok, Res_pure]; rfl
  · simp only [function, h, h2, Res_bind_ok, Res_pure, kernelValue]
    congr 2
    change -1 * sd n a b * k.param = -(k.param * sd n a b)
    ring

theorem kernelValue_comm (t : KType) (p : ℝ) (n : Nat) (x y : List ℝ) :
    kernelValue t p n x y = kernelValue t p n y x := by
  have h1 : innerProd n x y = innerProd n y x := ip_comm n x y
  have h2 : sqDist n x y = sqDist n y x := sd_comm n x y
  cases t <;> simp [kernelValue, h1, h2]

theorem rep_rows {n : Nat} {M g} (h : Rep n M g) : ∀ row ∈ M, row.length = n := by
  intro row hr
  obtain ⟨i, hi, h2⟩ := List.getElem_of_mem hr
  obtain ⟨r, h3, h4, _⟩ := h.2 i (by rw [← h.1]; exact hi)
  rw [List.getElem?_eq_getElem hi] at h3
  rw [← h2]
  cases h3; exact h4

/-- **C27 (entries and symmetry)** For every built-in kernel and every dataset of dimension `n`, a kernel
object that has no cached matrix computes a square matrix whose `(i,j)` entry is the kernel value of
samples `i` and `j`; the matrix is symmetric. -/
theorem C27_matrix (k : Kern) (hb : BuiltIn k.type) (hc : k.computed = false) (n : Nat) (xs : List (List ℝ))
    (hx : ∀ x ∈ xs, x.length = n) (f : Option CustomFn) :
    ∃ k', compute k n xs f = .ok k' ∧ IsKernelMatrix k.type k.param n xs k'.K ∧
      (∀ i j, i < xs.length → j < xs.length → get2 k'.K i j = get2 k'.K j i) ∧
      k'.type = k.type ∧ k'.param = k.param ∧ k'.computed = true := by
  have hcu : k.type ≠ .custom := by rcases hb with h | h | h <;> simp [h]
  set v : Nat → Nat → ℝ := fun i j => kernelValue k.type k.param n (xs.getD i []) (xs.getD j [])
  have hf : ∀ i j, i ≤ j → j < xs.length → (do
      let a ← vget xs i
      let b ← vget xs j
      function k a b n f) = .ok (v i j) := by
    intro i j hij hj
    have hi : i < xs.length := by omega
    rw [PointM.vget_getD hi [], PointM.vget_getD hj [], Res_bind_ok, Res_bind_ok]
    apply function_ok k hb
    · apply hx; simp [List.getD_eq_getElem?_getD, List.getElem?_eq_getElem hi]
    · apply hx; simp [List.getD_eq_getElem?_getD, List.getElem?_eq_getElem hj]
  obtain ⟨M, e, h1, h2, h3, h4⟩ := fill_ok xs.length _ (fun _ _ v => .ok v) _ _ (rep_zero _) v v hf
    (fun _ _ _ _ => rfl)
  have he : ∀ i j, i < xs.length → j < xs.length → e i j = v i j := by
    intro i j hi hj
    rcases lt_trichotomy i j with h | h | h
    · exact (h3 i j h hj).1
    · subst h; exact h4 i hi
    · rw [(h3 j i h hi).2]; exact kernelValue_comm _ _ _ _ _
  have hcomp : compute k n xs f = .ok { k with K := M, computed := true } := by
    rw [compute, hc]
    simp only [Bool.false_eq_true, if_false, if_neg hcu]
    rw [h1]; rfl
  refine ⟨_, hcomp, ⟨h2.1, rep_rows h2, ?_⟩, ?_, rfl, rfl, rfl⟩
  · intro i j x y hxi hyj
    have hi : i < xs.length := (List.getElem?_eq_some_iff.1 hxi).1
    have hj : j < xs.length := (List.getElem?_eq_some_iff.1 hyj).1
    rw [rep_get h2 hi hj, he i j hi hj]
    simp [v, List.getD_eq_getElem?_getD, hxi, hyj]
  · intro i j hi hj
    rw [rep_get h2 hi hj, rep_get h2 hj hi, he i j hi hj, he j i hj hi]
    congr 1
    exact kernelValue_comm _ _ _ _ _

/-- A Gaussian kernel on two samples. -/
example : ∃ k', compute { type := .gaussian, param := 1 } 1 [[0], [1]] none = .ok k' ∧
    get2 k'.K 0 1 = .ok (Real.exp (-1)) := by
  obtain ⟨k', h1, h2, _⟩ := C27_matrix { type := .gaussian, param := 1 } (by simp [BuiltIn]) rfl 1 [[0], [1]]
    (by simp) none
  refine ⟨k', h1, ?_⟩
  rw [h2.2.2 0 1 [0] [1] rfl rfl]
  simp [kernelValue, sqDist]

/-- **C27 (custom kernels)** With a custom kernel function the upper triangle holds the function's values
and the lower triangle mirrors it. -/
theorem C27_custom (k : Kern) (ht : k.type = .custom) (hc : k.computed = false) (n : Nat) (xs : List (List ℝ))
    (f : CustomFn) :
    ∃ k', compute k n xs (some f) = .ok k' ∧ k'.K.length = xs.length ∧
      ∀ (i j : Nat) (x y : List ℝ), xs[i]? = some x → xs[j]? = some y → i ≤ j →
        get2 k'.K i j = .ok (f x y k.param) ∧ get2 k'.K j i = .ok (f x y k.param) := by
  set v : Nat → Nat → ℝ := fun i j => f (xs.getD i []) (xs.getD j []) k.param
  have hf : ∀ i j, i ≤ j → j < xs.length → (do
      let a ← vget xs i
      let b ← vget xs j
      function { k with func := some f } a b n (some f)) = .ok (v i j) := by
    intro i j hij hj
    have hi : i < xs.length := by omega
    rw [PointM.vget_getD hi [], PointM.vget_getD hj [], Res_bind_ok, Res_bind_ok]
    simp only [function, ht]; rfl
  obtain ⟨M, e, h1, h2, h3, h4⟩ := fill_ok xs.length _ (fun _ _ v => .ok v) _ _ (rep_zero _) v v hf
    (fun _ _ _ _ => rfl)
  have hcomp : compute k n xs (some f) = .ok { k with func := some f, K := M, computed := true } := by
    rw [compute]
    simp only [Bool.false_eq_true, if_false, if_pos ht, hc]
    rw [hc] at h1
    rw [h1]; rfl
  refine ⟨_, hcomp, h2.1, ?_⟩
  intro i j x y hxi hyj hij
  have hi : i < xs.length := (List.getElem?_eq_some_iff.1 hxi).1
  have hj : j < xs.length := (List.getElem?_eq_some_iff.1 hyj).1
  have hv : v i j = f x y k.param := by simp [v, List.getD_eq_getElem?_getD, hxi, hyj]
  rw [rep_get h2 hi hj, rep_get h2 hj hi]
  rcases Nat.lt_or_eq_of_le hij with h | h
  · rw [(h3 i j h hj).1, (h3 i j h hj).2, hv]; simp
  · subst h; rw [h4 i hi, hv]; simp

theorem psd_of_matrix {t p n xs M} (h : IsKernelMatrix t p n xs M)
    (hpos : ∀ c : Fin xs.length → ℝ, 0 ≤ ∑ i, ∑ j, c i * c j * kernelValue t p n (xs.getD i []) (xs.getD j [])) :
    PosSemidefinite xs.length M := by
  intro c m hm
  have hv : ∀ i j, i < xs.length → j < xs.length → m i j = kernelValue t p n (xs.getD i []) (xs.getD j []) := by
    intro i j hi hj
    have h1 := h.2.2 i j xs[i] xs[j] (List.getElem?_eq_getElem hi) (List.getElem?_eq_getElem hj)
    rw [hm i j hi hj] at h1
    rw [Except.ok.inj h1]
    simp [List.getD_eq_getElem?_getD, List.getElem?_eq_getElem hi, List.getElem?_eq_getElem hj]
  refine le_of_le_of_eq (hpos (fun i => c i)) ?_
  rw [Finset.sum_range]
  refine Finset.sum_congr rfl fun i _ => ?_
  rw [Finset.sum_range]
  refine Finset.sum_congr rfl fun j _ => ?_
  rw [hv i j i.2 j.2]

/-- **C27 (positive semidefinite)** The matrix of the inner product kernel is positive semidefinite for
every dataset; so is that of the polynomial kernel of every natural degree and that of the Gaussian
kernel with a non-negative parameter. -/
theorem C27_positive_semidefinite (n : Nat) (xs : List (List ℝ)) (M : List (List ℝ)) :
    (∀ p, IsKernelMatrix .innerProduct p n xs M → PosSemidefinite xs.length M) ∧
    (∀ d : Nat, IsKernelMatrix .polynomial d n xs M → PosSemidefinite xs.length M) ∧
    (∀ p, 0 ≤ p → IsKernelMatrix .gaussian p n xs M → PosSemidefinite xs.length M) := by
  refine ⟨fun p h => psd_of_matrix h ?_, fun d h => psd_of_matrix h ?_, fun p hp h => psd_of_matrix h ?_⟩
  · intro c
    exact psd_iff_sum (gram_psd xs.length n (fun i => xs.getD i [])) c
  · intro c
    by_cases hd : (d : ℝ) > 1
    · have := psd_iff_sum (gram_pow_psd xs.length n (fun i => xs.getD i []) d) c
      simpa [kernelValue, hd, Real.rpow_natCast] using this
    · have := psd_iff_sum (gram_psd xs.length n (fun i => xs.getD i [])) c
      simpa [kernelValue, hd, gram] using this
  · intro c
    exact gauss_form xs.length n (fun i => xs.getD i []) p hp c

/-- The hypotheses of the previous theorem are met by computed matrices. -/
example : ∃ M, IsKernelMatrix .gaussian 1 1 [[0], [1]] M := by
  obtain ⟨k', _, h2, _⟩ := C27_matrix { type := .gaussian, param := 1 } (by simp [BuiltIn]) rfl 1 [[0], [1]]
    (by simp) none
  exact ⟨k'.K, h2⟩

/-! ## C28 -/

/-- Calls on a kernel object. -/
inductive KOp where
  | setType (t : KType)
  | setParam (p : ℝ)
  | recompute
  | setMatrix (M : List (List ℝ))
  | compute (n : Nat) (xs : List (List ℝ)) (f : Option CustomFn)

/-- One call. -/
noncomputable def kstep (k : Kern) : KOp → Res Kern
  | .setType t => .ok (setType k t)
  | .setParam p => .ok (setParam k p)
  | .recompute => .ok (recompute k)
  | .setMatrix M => .ok (setKernelMatrix k M)
  | .compute n xs f => compute k n xs f

/-- Is this call a configuration change or a request to recompute? -/
def KOp.isReset : KOp → Bool
  | .setType _ | .setParam _ | .recompute => true
  | _ => false

/-- Is this call a computation? -/
def KOp.isCompute : KOp → Bool
  | .compute .. => true
  | _ => false

theorem compute_flag {k k' : Kern} {n xs f} (h : compute k n xs f = .ok k') : k'.computed = true := by
  unfold compute at h
  by_cases hc : k.computed = true
  · simp [hc] at h; rw [← h]; exact hc
  · simp only [Bool.not_eq_true] at hc
    simp only [hc, Bool.false_eq_true, if_false] at h
    revert h
    generalize fill _ _ _ _ = r
    cases r with
    | error e => intro h; cases h
    | ok M => intro h; cases h; rfl

/-- **C28 (partial)** After any history of calls in which no `compute` follows the last `setType`,
`setParam` or `recompute` (in particular no `compute` at all), `compute(samples)` yields the kernel
matrix of exactly those samples for the current type and parameter.
Missing: without such a call in between a second `compute` is ignored, see `C28_refuted`. -/
theorem C28_compute_partial (k0 k : Kern) (h0 : k0.computed = false) (before after : List KOp)
    (hreset : before = [] ∨ ∃ b o, before = b ++ [o] ∧ o.isReset = true)
    (hafter : ∀ o ∈ after, o.isCompute = false)
    (hrun : (before ++ after).foldlM kstep k0 = .ok k) (hb : BuiltIn k.type)
    (n : Nat) (xs : List (List ℝ)) (hx : ∀ x ∈ xs, x.length = n) (f : Option CustomFn) :
    ∃ k', compute k n xs f = .ok k' ∧ IsKernelMatrix k.type k.param n xs k'.K := by
  have hk : k.computed = false := by
    rw [List.foldlM_append] at hrun
    cases hb' : before.foldlM kstep k0 with
    | error e => rw [hb'] at hrun; cases hrun
    | ok k1 =>
      rw [hb', Res_bind_ok] at hrun
      have hk1 : k1.computed = false := by
        rcases hreset with h | ⟨b, o, h, ho⟩
        · subst h; cases hb'; exact h0
        · subst h
          rw [List.foldlM_append] at hb'
          cases hbb : b.foldlM kstep k0 with
          | error e => rw [hbb] at hb'; cases hb'
          | ok k2 =>
            rw [hbb, Res_bind_ok] at hb'
            simp only [List.foldlM_cons, List.foldlM_nil] at hb'
            cases o <;> simp [KOp.isReset] at ho <;> cases hb' <;> rfl
      refine foldlM_inv' (fun k => k.computed = false) kstep after k1 k hk1 ?_ hrun
      intro o ho b b' hbc hs
      have := hafter o ho
      cases o with
      | setType t => cases hs; rfl
      | setParam p => cases hs; rfl
      | recompute => cases hs; rfl
      | setMatrix M => cases hs; exact hbc
      | compute n xs f => simp [KOp.isCompute] at this
  obtain ⟨k', h1, h2, _⟩ := C27_matrix k hb hk n xs hx f
  exact ⟨k', h1, h2⟩

/-- A history with an earlier computation of other samples and a reset. -/
example : ∃ k : Kern, ([.compute 1 [[5]] none, .setParam 2] ++ [] : List KOp).foldlM kstep {} = .ok k ∧
    BuiltIn k.type := by
  obtain ⟨k', h1, _, _, h4, _⟩ := C27_matrix {} (by simp [BuiltIn]) rfl 1 [[5]] (by simp) none
  refine ⟨setParam k' 2, ?_, ?_⟩
  · simp [kstep, h1]
  · simp [setParam, h4, BuiltIn]

/-- **C28 (refuted)** Once a matrix has been computed, further calls of `compute` are ignored whatever
their samples: the second dataset's matrix is never computed (unless the kernel is reset). -/
theorem C28_refuted :
    (∀ (k k1 : Kern) n xs f m ys g, compute k n xs f = .ok k1 → compute k1 m ys g = .ok k1) ∧
    ∃ k1 k2, compute {} 1 [[1]] none = .ok k1 ∧ compute k1 1 [[2]] none = .ok k2 ∧
      ¬ IsKernelMatrix k2.type k2.param 1 [[2]] k2.K := by
  have h1 : ∀ (k k1 : Kern) n xs f m ys g, compute k n xs f = .ok k1 → compute k1 m ys g = .ok k1 := by
    intro k k1 n xs f m ys g h
    rw [compute, if_pos (compute_flag h)]; rfl
  refine ⟨h1, ?_⟩
  obtain ⟨k', h2, h3, _, h4, _⟩ := C27_matrix {} (by simp [BuiltIn]) rfl 1 [[1]] (by simp) none
  refine ⟨k', k', h2, h1 _ _ _ _ _ _ _ _ h2, fun hk => ?_⟩
  have e1 := h3.2.2 0 0 [1] [1] rfl rfl
  have e2 := hk.2.2 0 0 [2] [2] rfl rfl
  rw [e1, h4] at e2
  have := Except.ok.inj e2
  simp [kernelValue, innerProd] at this
  norm_num at this

/-! ## C72 -/

/-- **C72 (H matrix, partial)** `generateMatrixH` on a kernel whose previous H matrix is empty or of the
same size yields `y_i y_j k(x_i, x_j)`, a symmetric matrix, for all
samples. Missing: growing H matrices, see `C72_growing_refuted`. -/
theorem C72_matrix_H_partial (k : Kern) (hb : BuiltIn k.type) (n : Nat) (xs : List (List ℝ)) (ys : List ℝ)
    (hx : ∀ x ∈ xs, x.length = n) (hy : ys.length = xs.length)
    (hH : k.H = [] ∨ (k.H.length = xs.length ∧ ∀ row ∈ k.H, row.length = xs.length)) :
    ∃ k', generateMatrixH k n xs ys = .ok k' ∧
      ∀ (i j : Nat) (x x' : List ℝ) (y y' : ℝ), xs[i]? = some x → xs[j]? = some x' → ys[i]? = some y →
        ys[j]? = some y' → get2 k'.H i j = .ok (y * y' * kernelValue k.type k.param n x x') := by
  set v : Nat → Nat → ℝ := fun i j =>
    kernelValue k.type k.param n (xs.getD i []) (xs.getD j []) * ys.getD i 0 * ys.getD j 0
  have hf : ∀ i j, i ≤ j → j < xs.length → (do
      let a ← vget xs i
      let b ← vget xs j
      let v ← function k a b n none
      let yi ← vget ys i
      let yj ← vget ys j
      return v * yi * yj) = (.ok (v i j) : Res ℝ) := by
    intro i j hij hj
    have hi : i < xs.length := by omega
    rw [PointM.vget_getD hi [], PointM.vget_getD hj [], Res_bind_ok, Res_bind_ok, function_ok k hb,
      PointM.vget_getD (l := ys) (by omega) 0, PointM.vget_getD (l := ys) (by omega) 0]
    · rfl
    · apply hx; simp [List.getD_eq_getElem?_getD, List.getElem?_eq_getElem hi]
    · apply hx; simp [List.getD_eq_getElem?_getD, List.getElem?_eq_getElem hj]
  obtain ⟨g0, hrep⟩ : ∃ g0, Rep xs.length (resizeRows k.H xs.length) g0 := by
    rcases hH with h | ⟨h1, h2⟩
    · rw [h]; exact ⟨_, by simpa [resizeRows] using rep_zero xs.length⟩
    · refine ⟨fun i j => (k.H.getD i []).getD j 0, by simp [resizeRows, h1], fun i hi => ?_⟩
      have hi' : i < k.H.length := by omega
      refine ⟨k.H[i], ?_, h2 _ (List.getElem_mem hi'), fun j hj => ?_⟩
      · simp [resizeRows, ← h1]
      · have hj' : j < (k.H[i]).length := by rw [h2 _ (List.getElem_mem hi')]; exact hj
        simp [List.getD_eq_getElem?_getD, List.getElem?_eq_getElem hi', List.getElem?_eq_getElem hj']
  obtain ⟨M, e, h1, h2, h3, h4⟩ := fill_ok xs.length _ (fun _ _ v => .ok v) _ _ hrep v v hf (fun _ _ _ _ => rfl)
  refine ⟨{ k with H := M }, by rw [generateMatrixH, h1]; rfl, ?_⟩
  intro i j x x' y y' hxi hxj hyi hyj
  have hi : i < xs.length := (List.getElem?_eq_some_iff.1 hxi).1
  have hj : j < xs.length := (List.getElem?_eq_some_iff.1 hxj).1
  rw [rep_get h2 hi hj]
  congr 1
  rcases lt_trichotomy i j with h | h | h
  · rw [(h3 i j h hj).1]
    simp only [v, List.getD_eq_getElem?_getD, hxi, hxj, hyi, hyj, Option.getD_some]; ring
  · subst h; rw [h4 i hi]
    rw [hxi] at hxj; rw [hyi] at hyj; cases hxj; cases hyj
    simp only [v, List.getD_eq_getElem?_getD, hxi, hyi, Option.getD_some]; ring
  · rw [(h3 j i h hi).2]
    simp only [v, List.getD_eq_getElem?_getD, hxi, hxj, hyi, hyj, Option.getD_some]
    rw [kernelValue_comm]; ring

example : ∀ x ∈ ([[1, 2], [3, 4]] : List (List ℝ)), x.length = 2 := by simp

/-- **C72 (refuted)** Calling `generateMatrixH` for one sample and then for two writes outside the first
row: rows that exist keep their old length. -/
theorem C72_growing_refuted (x y : ℝ) :
    ∃ k1, generateMatrixH {} 1 [[x]] [1] = .ok k1 ∧
      generateMatrixH k1 1 [[x], [y]] [1, 1] = .error .outOfBounds := by
  refine ⟨{ H := [[x * x * 1 * 1]] }, ?_, ?_⟩
  · simp [generateMatrixH, fill, pairs, function, dotLoop, resizeRows, set2, vget, vset, List.range_succ,
      List.range'_succ]
  · simp [generateMatrixH, fill, pairs, function, dotLoop, resizeRows, set2, vget, vset, List.range_succ,
      List.range'_succ]

/-- **C72 (reduced H matrix, refuted)** The H matrix without a dimension is not symmetric: for samples with
different labels the two triangles have opposite signs. -/
theorem C72_without_dim_refuted :
    ∃ M, generateMatrixHwithoutDim {} 1 2 [[1, 0], [1, 0]] [1, -1] = .ok M ∧
      get2 M 0 1 = .ok 1 ∧ get2 M 1 0 = .ok (-1) := by
  refine ⟨[[1, 1], [-1, 1]], ?_, rfl, rfl⟩
  simp [generateMatrixHwithoutDim, fill, pairs, functionWithoutDim, dotLoop, set2, vget, vset, List.range_succ,
      List.range'_succ]

/-- **C72 (feature space norm)** For non-negative multipliers, `featureSpaceNorm` is the square root of
`Σ_i Σ_j α_i y_i α_j y_j K_ji`. -/
theorem C72_feature_space_norm (k : Kern) (ay : List (ℝ × ℝ)) (m : Nat → Nat → ℝ)
    (hK : ∀ i j, i < ay.length → j < ay.length → get2 k.K i j = .ok (m i j)) (hpos : ∀ p ∈ ay, 0 ≤ p.1) :
    featureSpaceNorm k ay = .ok (Real.sqrt (∑ i ∈ Finset.range ay.length, ∑ j ∈ Finset.range ay.length,
      (ay.getD i 0).1 * (ay.getD i 0).2 * ((ay.getD j 0).1 * (ay.getD j 0).2) * m j i)) := by
  have hz : ∀ i, i < ay.length → ¬ (ay.getD i 0).1 > 0 → (ay.getD i 0).1 = 0 := by
    intro i hi h
    have : ay.getD i 0 ∈ ay := by simp [List.getD_eq_getElem?_getD, List.getElem?_eq_getElem hi]
    have := hpos _ this
    exact le_antisymm (not_lt.1 h) this
  have hin : ∀ i, i < ay.length → (List.range ay.length).foldlM (fun (sum1 : ℝ) j => do
        let pj ← vget ay j
        if pj.1 > 0 then
          let v ← get2 k.K j i
          return sum1 + pj.2 * pj.1 * v
        else return sum1) (0 : ℝ) = (.ok (∑ j ∈ Finset.range ay.length, (ay.getD j 0).2 * (ay.getD j 0).1 * m j i) : Res ℝ) := by
    intro i hi
    rw [foldlM_ok _ (fun s j => s + (ay.getD j 0).2 * (ay.getD j 0).1 * m j i), foldl_add_sum, zero_add,
      Metric.list_range_sum]
    intro j hj s
    have hj : j < ay.length := by simpa using hj
    rw [PointM.vget_getD hj 0, Res_bind_ok]
    split
    · rw [hK j i hj hi]; rfl
    · next h => rw [hz j hj h]; simp
  rw [featureSpaceNorm, foldlM_ok _ (fun s i => s + (ay.getD i 0).1 * (ay.getD i 0).2 *
      ∑ j ∈ Finset.range ay.length, (ay.getD j 0).2 * (ay.getD j 0).1 * m j i), Res_bind_ok, foldl_add_sum,
    zero_add, Metric.list_range_sum]
  · rw [Res_pure]
    congr 2
    refine Finset.sum_congr rfl fun i _ => ?_
    rw [Finset.mul_sum]
    exact Finset.sum_congr rfl fun j _ => by ring
  · intro i hi s
    have hi : i < ay.length := by simpa using hi
    rw [PointM.vget_getD hi 0, Res_bind_ok]
    split
    · rw [hin i hi]; rfl
    · next h => rw [hz i hi h]; simp

example : (∀ i j, i < 1 → j < 1 → get2 [[(4 : ℝ)]] i j = .ok 4) ∧ (∀ p ∈ [((2 : ℝ), (1 : ℝ))], 0 ≤ p.1) := by
  constructor
  · intro i j hi hj
    have : i = 0 := by omega
    have : j = 0 := by omega
    subst_vars; rfl
  · simp

/-- **C72 (norm, refuted)** `norm` does not reset its inner sum: for two samples with `α = y = 1` and the
identity kernel matrix it returns `√5` instead of `√2`. -/
theorem C72_norm_refuted :
    Kernel.norm { K := [[1, 0], [0, 1]] } [(1, 1), (1, 1)] = .ok (Real.sqrt 5) ∧
    featureSpaceNorm { K := [[1, 0], [0, 1]] } [(1, 1), (1, 1)] = .ok (Real.sqrt 2) := by
  constructor
  · simp [Kernel.norm, List.range_succ, get2, vget]; norm_num
  · simp [featureSpaceNorm, List.range_succ, get2, vget]; norm_num

end MLTK.Props
