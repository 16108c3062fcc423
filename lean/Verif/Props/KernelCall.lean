import Verif.Model.KernelCall
import Verif.Props.Kernel
/-!
# C203 and C204: kernels as functions, and kernel matrices of the user
-/
namespace MLTK.Props
open MLTK MLTK.Kernel MLTK.Spec
open MLTK.Data (Res_bind_ok Res_bind_error Res_pure)

/-- **C203 (value)** Calling a kernel with two points gives the value of the kernel when they have the same dimension, and is
refused otherwise. -/
theorem C203_pair (k : Kern) (hb : BuiltIn k.type) (a b : List ℝ) :
    callPoints k a b = if a.length = b.length then .ok (kernelValue k.type k.param a.length a b) else .error .assertFail := by
  unfold callPoints
  split
  · rename_i h
    exact function_ok k hb a b a.length rfl h.symm none
  · rfl

/-- **C203 (agreement, built-in kernels)** After a kernel without a matrix was called with a dataset, `k[i][j]` is the value
`k(x_i, x_j)`, for all samples in both orders. -/
theorem C203_agree (k : Kern) (hb : BuiltIn k.type) (hc : k.computed = false) (n : Nat) (xs : List (List ℝ))
    (hx : ∀ x ∈ xs, x.length = n) (f : Option CustomFn) :
    ∃ k', callData k n xs f = .ok k' ∧ ∀ (i j : Nat) (x y : List ℝ), xs[i]? = some x → xs[j]? = some y →
      ∃ row v, rowOf k' i = .ok row ∧ vget row j = .ok v ∧ callPoints k' x y = .ok v ∧ callPoints k' y x = .ok v := by
  obtain ⟨k', h1, h2, _, h4, h5, _⟩ := C27_matrix k hb hc n xs hx f
  have hcu : k.type ≠ .custom := by rcases hb with h | h | h <;> simp [h]
  refine ⟨k', by rw [callData, if_neg (fun h => hcu h.1), h1], ?_⟩
  intro i j x y hxi hyj
  have hi : i < k'.K.length := by rw [h2.1]; exact (List.getElem?_eq_some_iff.1 hxi).1
  have hg := h2.2.2 i j x y hxi hyj
  have hlx := hx x (List.mem_of_getElem? hxi)
  have hly := hx y (List.mem_of_getElem? hyj)
  have hb' : BuiltIn k'.type := by rw [h4]; exact hb
  refine ⟨k'.K[i], kernelValue k.type k.param n x y, ?_, ?_, ?_, ?_⟩
  · rw [rowOf, if_pos hi, vget, List.getElem?_eq_getElem hi]
  · rw [get2, vget, List.getElem?_eq_getElem hi, Res_bind_ok] at hg
    exact hg
  · rw [C203_pair k' hb', if_pos (by omega), h4, h5, hlx]
  · rw [C203_pair k' hb', if_pos (by omega), h4, h5, hly, kernelValue_comm]

/-- **C203 (agreement, custom kernels, part)** With a custom function the matrix agrees with the call when the function is
symmetric. -/
theorem C203_custom_partial (k : Kern) (ht : k.type = .custom) (hc : k.computed = false) (n : Nat) (xs : List (List ℝ))
    (hx : ∀ x ∈ xs, x.length = n) (f : CustomFn) (hf : ∀ x y p, f x y p = f y x p) :
    ∃ k', callData k n xs (some f) = .ok k' ∧ ∀ (i j : Nat) (x y : List ℝ), xs[i]? = some x → xs[j]? = some y →
      ∃ row v, rowOf k' i = .ok row ∧ vget row j = .ok v ∧ callPoints k' x y = .ok v := by
  obtain ⟨k', h1, h2, h3⟩ := C27_custom k ht hc n xs f
  have hk : k'.type = .custom ∧ k'.func = some f ∧ k'.param = k.param := by
    rw [compute, hc] at h1
    simp only [Bool.false_eq_true, if_false, if_pos ht] at h1
    revert h1
    generalize fill _ _ _ _ = r
    cases r with
    | error e => intro h; cases h
    | ok M => intro h; cases h; exact ⟨ht, rfl, rfl⟩
  refine ⟨k', by rw [callData, if_neg (by simp), h1], ?_⟩
  intro i j x y hxi hyj
  have hi : i < k'.K.length := by rw [h2]; exact (List.getElem?_eq_some_iff.1 hxi).1
  have hg : get2 k'.K i j = .ok (f x y k.param) := by
    rcases Nat.le_total i j with h | h
    · exact (h3 i j x y hxi hyj h).1
    · rw [(h3 j i y x hyj hxi h).2, hf]
  refine ⟨k'.K[i], f x y k.param, ?_, ?_, ?_⟩
  · rw [rowOf, if_pos hi, vget, List.getElem?_eq_getElem hi]
  · rw [get2, vget, List.getElem?_eq_getElem hi, Res_bind_ok] at hg
    exact hg
  · rw [callPoints, if_pos (by rw [hx x (List.mem_of_getElem? hxi), hx y (List.mem_of_getElem? hyj)])]
    simp only [function, hk.1, hk.2.1, hk.2.2]

/-- **C203 (refuted)** With a custom function that is not symmetric some `k[i][j]` is not `k(x_i, x_j)`. -/
theorem C203_custom_refuted :
    ∃ (f : CustomFn) (k' : Kern), callData { type := .custom } 1 [[1], [2]] (some f) = .ok k' ∧
      ∃ row, rowOf k' 1 = .ok row ∧ vget row 0 = .ok 1 ∧ callPoints k' [2] [1] = .ok 2 := by
  refine ⟨fun x _ _ => x.getD 0 0, ?_⟩
  obtain ⟨k', h1, h2, h3⟩ := C27_custom { type := .custom } rfl rfl 1 [[1], [2]] (fun x _ _ => x.getD 0 0)
  have hk : k'.type = .custom ∧ k'.func = some (fun x _ _ => x.getD 0 0) := by
    rw [compute] at h1
    simp only [Bool.false_eq_true, if_false, if_true] at h1
    revert h1
    generalize fill _ _ _ _ = r
    cases r with
    | error e => intro h; cases h
    | ok M => intro h; cases h; exact ⟨rfl, rfl⟩
  have hi : 1 < k'.K.length := by rw [h2]; decide
  have hg := (h3 0 1 [1] [2] rfl rfl (by omega)).2
  refine ⟨k', by rw [callData, if_neg (by simp), h1], k'.K[1], ?_, ?_, ?_⟩
  · rw [rowOf, if_pos hi, vget, List.getElem?_eq_getElem hi]
  · rw [get2, vget, List.getElem?_eq_getElem hi, Res_bind_ok] at hg
    simpa using hg
  · simp [callPoints, function, hk.1, hk.2]

/-- **C203 (refuted)** A custom kernel that has not been computed cannot be called with two points. -/
theorem C203_custom_call_refuted (p : ℝ) (a b : List ℝ) (h : a.length = b.length) :
    callPoints { type := .custom, param := p } a b = .error .exception := by
  rw [callPoints, if_pos h]
  rfl

/-- **C203 (refuted)** The function of a custom kernel is forgotten: computing the matrix again without handing the function over
again, which is what training a dual classifier does, throws for every dataset with a sample, whatever function the kernel had. -/
theorem C203_forgotten_refuted (k : Kern) (ht : k.type = .custom) (hc : k.computed = false) (n : Nat) (x : List ℝ)
    (xs : List (List ℝ)) :
    compute k n (x :: xs) none = .error .exception ∧ callData k n (x :: xs) none = .error .assertFail := by
  constructor
  · rw [compute, hc]
    simp only [Bool.false_eq_true, if_false, if_pos ht]
    rw [fill, pairs, List.length_cons, List.range_succ_eq_map, List.flatMap_cons, Nat.sub_zero, List.range'_succ, List.map_cons,
      List.cons_append, List.foldlM_cons]
    simp only [vget, List.getElem?_cons_zero, Res_bind_ok, function, ht, Res_bind_error]
  · rw [callData, if_pos ⟨ht, rfl⟩]

/-- **C204 (refuted)** A matrix given to the constructor or set on a kernel that has not computed one is replaced by the kernel
matrix of the samples at the next computation, such as the one at the start of training. -/
theorem C204_replaced_refuted (M : List (List ℝ)) (n : Nat) (xs : List (List ℝ)) (hx : ∀ x ∈ xs, x.length = n)
    (k : Kern) (hk : k = ofMatrix M ∨ ∃ t p, (t = .innerProduct ∨ t = .polynomial ∨ t = .gaussian) ∧
      k = setKernelMatrix { type := t, param := p } M) (f : Option CustomFn) :
    ∃ k', compute k n xs f = .ok k' ∧ IsKernelMatrix k.type k.param n xs k'.K := by
  have : BuiltIn k.type ∧ k.computed = false := by
    rcases hk with rfl | ⟨t, p, ht, rfl⟩
    · exact ⟨Or.inl rfl, rfl⟩
    · exact ⟨ht, rfl⟩
  obtain ⟨k', h1, h2, _⟩ := C27_matrix k this.1 this.2 n xs hx f
  exact ⟨k', h1, h2⟩

/-- **C204 (part)** A matrix set on a kernel that has already computed one stays through any number of computations, until the
type or the parameter is set or a recomputation is asked for. -/
theorem C204_kept_partial (k : Kern) (hc : k.computed = true) (M : List (List ℝ)) (ops : List KOp) (k' : Kern)
    (ho : ∀ o ∈ ops, o.isCompute = true) (hr : ops.foldlM kstep (setKernelMatrix k M) = .ok k') :
    k'.K = M ∧ ∀ i row, M[i]? = some row → rowOf k' i = .ok row := by
  have key : ∀ (ops : List KOp) (s s' : Kern), s.computed = true → s.K = M → (∀ o ∈ ops, o.isCompute = true) →
      ops.foldlM kstep s = .ok s' → s'.K = M := by
    intro ops
    induction ops with
    | nil => intro s s' _ h _ e; cases e; exact h
    | cons o ops ih =>
      intro s s' h1 h2 ho e
      have hoc := ho o (by simp)
      cases o with
      | compute n xs f =>
        rw [List.foldlM_cons] at e
        have : kstep s (.compute n xs f) = .ok s := by
          show compute s n xs f = .ok s
          rw [compute, if_pos h1]; rfl
        rw [this, Res_bind_ok] at e
        exact ih s s' h1 h2 (fun o h => ho o (by simp [h])) e
      | _ => cases hoc
  have hK := key ops (setKernelMatrix k M) k' hc rfl ho hr
  refine ⟨hK, ?_⟩
  intro i row hrow
  rw [rowOf, hK, if_pos (List.getElem?_eq_some_iff.1 hrow).1, vget, hrow]

/-- **C204 (read back)** What was given is read back as long as nothing is computed; a row that does not exist is refused. -/
theorem C204_read (M : List (List ℝ)) (i : Nat) :
    rowOf (ofMatrix M) i = (match M[i]? with | some row => .ok row | none => .error .assertFail) := by
  unfold rowOf ofMatrix
  simp only
  split
  · rename_i h
    rw [vget, List.getElem?_eq_getElem h]
  · rename_i h
    rw [List.getElem?_eq_none (by omega)]

example : callPoints { type := .gaussian, param := 1 } [0] [1] = .ok (Real.exp (-1)) := by
  rw [C203_pair _ (by simp [BuiltIn])]
  simp [kernelValue, sqDist]
example := C203_agree { type := .polynomial, param := 2 } (by simp [BuiltIn]) rfl 2 [[1, 2], [3, 4]] (by simp) none
example := C203_custom_partial { type := .custom } rfl rfl 1 [[1], [2]] (by simp) (fun x y _ => x.getD 0 0 + y.getD 0 0)
  (by intro x y p; ring)
example := C203_forgotten_refuted { type := .custom, func := some (fun _ _ _ => 1) } rfl rfl 1 [1] []
example : ∃ k', compute (ofMatrix [[7]]) 1 [[2]] none = .ok k' ∧ IsKernelMatrix .innerProduct 0 1 [[2]] k'.K :=
  C204_replaced_refuted [[7]] 1 [[2]] (by simp) _ (Or.inl rfl) none
example := C204_kept_partial { computed := true } rfl [[7]] [.compute 1 [[2]] none, .compute 1 [[3]] none] _
  (by simp [KOp.isCompute]) rfl

end MLTK.Props
