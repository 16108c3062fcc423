import Verif.Lemmas.KernelSep
/-!
# C155, C156: who owns the kernel of a dual classifier, and which matrix training uses
-/
namespace MLTK.Props
open MLTK.KOwn MLTK.Kernel MLTK.Spec
open MLTK.Data (Res_bind_ok Res_bind_error Res_pure)

/-! ## C155 -/

/-- **C155 (partial)** A careful program, of any length, never uses or deletes a kernel that does not exist.  If it has no
`PerceptronDual` without a kernel type, the kernels allocated after it are those of its trained SMO objects, plus one for
each other dual classifier it constructed and each kernel it allocated itself.
Missing: copying a trained SMO and giving it a kernel, see `C155_copy_refuted`, `C155_given_refuted`. -/
theorem C155_careful_partial (ops : List Op) (h : CarefulProgram ops) :
    ∃ w, run ops = .ok w ∧
      ((∀ x ∈ wants ops, x.kind ≠ .linear) → live w = trainedSmos ops + percs ops + ownKernels ops) := by
  obtain ⟨w, hw, _, hc⟩ := careful_run ops h
  exact ⟨w, hw, hc⟩

/-- **C155 (SMO, partial)** A careful program that uses no dual classifier but SMO and has destroyed all its objects has
released every kernel. -/
theorem C155_smo_partial (ops : List Op) (h : CarefulProgram ops) (hs : ∀ x ∈ wants ops, x.kind = .smo)
    (hp : percs ops = 0) (hk : ownKernels ops = 0) (hd : ∀ x ∈ wants ops, x.alive = false) :
    ∃ w, run ops = .ok w ∧ live w = 0 := by
  obtain ⟨w, hw, hc⟩ := C155_careful_partial ops h
  refine ⟨w, hw, ?_⟩
  rw [hc (fun x hx => by rw [hs x hx]; simp), hp, hk]
  have : trainedSmos ops = 0 := by
    unfold trainedSmos
    rw [List.countP_eq_zero]
    intro x hx
    simp [hd x hx]
  omega

/-- **C155 refuted** for the other dual classifiers: the kernel of each perceptron or IMA object ever constructed is still
allocated at the end of the program, even if all objects are destroyed. -/
theorem C155_leak_refuted (ops : List Op) (h : CarefulProgram ops) (hl : ∀ x ∈ wants ops, x.kind ≠ .linear)
    (hp : 0 < percs ops) : ∃ w, run ops = .ok w ∧ 0 < live w := by
  obtain ⟨w, hw, hc⟩ := C155_careful_partial ops h
  exact ⟨w, hw, by rw [hc hl]; omega⟩

/-- Running further operations. -/
theorem run_append (a b : List Op) : run (a ++ b) = (run a) >>= fun w => b.foldlM step w := by
  unfold run; rw [List.foldlM_append]

theorem run_cons {w w' : World} {op : Op} (h : step w op = .ok w') (b : List Op) :
    (op :: b).foldlM step w = b.foldlM step w' := by
  rw [List.foldlM_cons, h, Res_bind_ok]

theorem run_fault {w : World} {op : Op} {e : Fault} (h : step w op = .error e) (b : List Op) :
    (op :: b).foldlM step w = .error e := by
  rw [List.foldlM_cons, h, Res_bind_error]

/-- The state after constructing and training an SMO. -/
theorem run_smo (d : KData) (hd : RectSamples d) (t : KType) (ht : Defined t) (p : ℝ) :
    ∃ k, run [.newSmo d t p, .train 0] = .ok ⟨[some k], [some ⟨.smo, d, t, p, some 0⟩], [], [(0, k.K)]⟩ ∧
      IsKernelMatrix t p d.dim d.xs k.K := by
  obtain ⟨k, h1, h2, _⟩ := C27_matrix (newK t p) ht rfl d.dim d.xs hd none
  refine ⟨k, ?_, h2⟩
  show List.foldlM step World.empty _ = _
  rw [run_cons (w' := ⟨[], [some ⟨.smo, d, t, p, none⟩], [], []⟩) rfl]
  refine (run_cons (w' := ⟨[some k], [some ⟨.smo, d, t, p, some 0⟩], [], [(0, k.K)]⟩) ?_ []).trans rfl
  simp only [step, getObj, trainSmo, deleteK, Res_bind_ok]
  show ((compute (newK t p) d.dim d.xs none) >>= _) = _
  rw [h1]; rfl

/-- **C155 refuted.**  A trained SMO and its copy cannot both be destroyed, nor one be trained and the other asked for an
answer: the kernel is deleted twice, or used after it is deleted. -/
theorem C155_copy_refuted (d : KData) (hd : RectSamples d) (t : KType) (ht : Defined t) (p : ℝ) :
    run [.newSmo d t p, .train 0, .copy 0, .destroy 1, .destroy 0] = .error .badPointer ∧
    run [.newSmo d t p, .train 0, .copy 0, .train 0, .evaluate 1] = .error .badPointer ∧
    run [.newSmo d t p, .train 0, .copy 0, .destroy 1, .evaluate 0] = .error .badPointer := by
  obtain ⟨k, h1, _⟩ := run_smo d hd t ht p
  obtain ⟨k', h2, _⟩ := C27_matrix (newK t p) ht rfl d.dim d.xs hd none
  have e : ∀ b, run ([.newSmo d t p, .train 0] ++ b) = b.foldlM step ⟨[some k], [some ⟨.smo, d, t, p, some 0⟩], [], [(0, k.K)]⟩ := by
    intro b; rw [run_append, h1, Res_bind_ok]
  have ec : ∀ b, run ([.newSmo d t p, .train 0] ++ (.copy 0 :: b)) =
      b.foldlM step ⟨[some k], [some ⟨.smo, d, t, p, some 0⟩, some ⟨.smo, d, t, p, some 0⟩], [], [(0, k.K)]⟩ := by
    intro b; rw [e]; exact run_cons rfl b
  refine ⟨?_, ?_, ?_⟩
  · refine (ec [.destroy 1, .destroy 0]).trans ?_
    rw [run_cons (w' := ⟨[none], [some ⟨.smo, d, t, p, some 0⟩, none], [], [(0, k.K)]⟩) rfl]
    exact run_fault rfl []
  · refine (ec [.train 0, .evaluate 1]).trans ?_
    rw [run_cons (w' := ⟨[none, some k'], [some ⟨.smo, d, t, p, some 1⟩, some ⟨.smo, d, t, p, some 0⟩], [],
      [(0, k.K), (0, k'.K)]⟩)]
    · exact run_fault rfl []
    · simp only [step, getObj, trainSmo, deleteK, Res_bind_ok]
      show ((compute (newK t p) d.dim d.xs none) >>= _) = _
      rw [h2]; rfl
  · refine (ec [.destroy 1, .evaluate 0]).trans ?_
    rw [run_cons (w' := ⟨[none], [some ⟨.smo, d, t, p, some 0⟩, none], [], [(0, k.K)]⟩) rfl]
    exact run_fault rfl []

/-- **C155 refuted** for a kernel given to an SMO by `setKernel`: the SMO deletes it when it is trained or destroyed, and
training does not use it. -/
theorem C155_given_refuted (d : KData) (hd : RectSamples d) (t t' : KType) (ht : Defined t) (p p' : ℝ) :
    run [.newKernel t' p', .newSmo d t p, .setKernel 0 0, .train 0, .useKernel 0] = .error .badPointer ∧
    run [.newKernel t' p', .newSmo d t p, .setKernel 0 0, .destroy 0, .useKernel 0] = .error .badPointer := by
  obtain ⟨k', h2, _⟩ := C27_matrix (newK t p) ht rfl d.dim d.xs hd none
  have e : ∀ b, run ([.newKernel t' p', .newSmo d t p, .setKernel 0 0] ++ b) =
      b.foldlM step ⟨[some (newK t' p')], [some ⟨.smo, d, t, p, some 0⟩], [0], []⟩ := fun b => rfl
  constructor
  · refine (e [.train 0, .useKernel 0]).trans ?_
    rw [run_cons (w' := ⟨[none, some k'], [some ⟨.smo, d, t, p, some 1⟩], [0], [(0, k'.K)]⟩)]
    · exact run_fault rfl []
    · simp only [step, getObj, trainSmo, deleteK, Res_bind_ok]
      show ((compute (newK t p) d.dim d.xs none) >>= _) = _
      rw [h2]; rfl
  · refine (e [.destroy 0, .useKernel 0]).trans ?_
    rw [run_cons (w' := ⟨[none], [none], [0], []⟩) rfl]
    exact run_fault rfl []

/-- A program with two SMOs (one a copy made before training), trained twice, and destroyed. -/
def demoProgram : List Op :=
  [.newSmo ⟨1, [[1], [2]]⟩ .gaussian 1, .copy 0, .setSamples 1 ⟨1, [[3]]⟩, .train 0, .train 1, .setType 1 .innerProduct,
   .train 1, .evaluate 0, .evaluate 1, .destroy 0, .destroy 1]

theorem careful_cons_check (ops : List Op) (h : ∀ n, (hn : n < ops.length) → Careful (ops.take n) ops[n]) :
    CarefulProgram ops := by
  intro pre op post he
  have hn : pre.length < ops.length := by rw [he]; simp
  have := h pre.length hn
  have e1 : ops.take pre.length = pre := by rw [he]; simp
  have e2 : ops[pre.length] = op := by simp [he]
  rwa [e1, e2] at this

example : CarefulProgram demoProgram := by
  apply careful_cons_check
  intro n hn
  have hn' : n < 11 := hn
  interval_cases n <;>
    simp [demoProgram, Careful, Existing, wants, wantStep, RectSamples, Defined, List.modify_succ_cons, List.modify_zero_cons]

example : (wants demoProgram).map (fun x => (x.kind, x.alive, x.trained)) = [(.smo, false, true), (.smo, false, true)] := rfl

/-! ## C156 -/

/-- **C156 (SMO)** In any program, whatever happened before, training an SMO object uses the kernel matrix of the samples,
kernel type and parameter the program last gave to that object. -/
theorem C156_smo_partial (ops : List Op) (i : Nat) (w : World) (h : run (ops ++ [.train i]) = .ok w) (x : Want)
    (hx : (wants ops)[i]? = some x) (hk : x.kind = .smo) (ht : Defined x.type) (hr : RectSamples x.samples) :
    ∃ M, w.log.getLast? = some (i, M) ∧ IsKernelMatrix x.type x.param x.samples.dim x.samples.xs M := by
  rw [run_snoc] at h
  obtain ⟨w0, h0, h1⟩ := bindInv h
  obtain ⟨o, ho, h2⟩ := bindInv h1
  obtain ⟨y, hy, e1, e2, e3⟩ := (agree_run ops w0 h0).obj i o (getObj_inv ho)
  rw [hx] at hy; cases hy
  rw [if_pos (by rw [e1, hk])] at h2
  obtain ⟨ks, k, _, hc, rfl⟩ := trainSmo_inv h2
  obtain ⟨e4, e5⟩ := e3 (by rw [e1, hk]; simp)
  rw [e2, e4, e5] at hc
  obtain ⟨k', h3, h4, _⟩ := C27_matrix (newK x.type x.param) ht rfl x.samples.dim x.samples.xs hr none
  rw [hc] at h3; cases h3
  exact ⟨k.K, by simp, h4⟩

/-- An operation that makes object `i` compute its kernel matrix anew. -/
def renews (i : Nat) : Op → Prop
  | .recompute j => j = i
  | .setType j _ => j = i
  | .setParam j _ => j = i
  | _ => False

/-- **C156 (partial)** In a program that copies no object and gives no kernel, training a perceptron or IMA object right
after `recomputeKernel`, `setKernelType` or `setKernelParam` uses the matrix of the samples, kernel type and parameter last
given to it.  Missing: without these calls, see `C156_stale_refuted`. -/
theorem C156_renewed_partial (ops : List Op) (r : Op) (i : Nat) (w : World) (hno : ∀ o ∈ ops, o.shares = false)
    (hri : renews i r) (h : run (ops ++ [r] ++ [.train i]) = .ok w) (x : Want) (hx : (wants (ops ++ [r]))[i]? = some x)
    (hk : x.kind = .perc) (ht : Defined x.type) (hr : RectSamples x.samples) :
    ∃ M, w.log.getLast? = some (i, M) ∧ IsKernelMatrix x.type x.param x.samples.dim x.samples.xs M := by
  rw [run_snoc] at h
  obtain ⟨w1, h0, h1⟩ := bindInv h
  have hnr : r.shares = false := by cases r <;> first | rfl | exact absurd hri (by simp [renews])
  have hsep := sep_run (ops ++ [r]) (fun o ho => by
    rcases List.mem_append.1 ho with ho | ho
    · exact hno o ho
    · simp at ho; subst ho; exact hnr) w1 h0
  obtain ⟨o, ho, h2⟩ := bindInv h1
  have ho' := getObj_inv ho
  obtain ⟨y, hy, e1, e2, _⟩ := hsep.agree.obj i o ho'
  rw [hx] at hy; cases hy
  obtain ⟨a, k, hka, hkk, hkt, hkp⟩ := hsep.perc i o x ho' hx (by rw [e1, hk])
  rw [if_neg (by rw [e1, hk]; simp)] at h2
  obtain ⟨k', hlog, _, hc⟩ := trainPerc_inv ho' h2
  rcases hc with ⟨a', k2, hka', hkk', hcomp, _, _⟩ | ⟨hn, _⟩
  · rw [hka] at hka'; cases hka'
    rw [hkk] at hkk'; cases hkk'
    -- the kernel of the object is not computed
    have hfl : k.computed = false := by
      rw [run_snoc] at h0
      obtain ⟨w0, h00, hst⟩ := bindInv h0
      have hinv : ∀ (o0 o1 : Obj) (g : Kern → Kern) (v : World), w0.objs[i]? = some (some o0) → v.kernels = w0.kernels →
          v.objs = w0.objs.set i (some o1) → o1.kernel = o0.kernel → onKernel v o0.kernel g = .ok w1 →
          (∀ k, (g k).computed = false) → k.computed = false := by
        intro o0 o1 g v ho0 hv1 hv2 hk01 hon hg
        obtain ⟨eo, _, _, ek⟩ := onKernel_objs hon
        have : w1.objs[i]? = some (some o1) := by
          rw [eo, hv2, List.getElem?_set_self (List.getElem?_eq_some_iff.1 ho0).1]
        rw [this] at ho'; cases ho'
        rcases ek with ⟨hn, _⟩ | ⟨b, kb, hb, hkb, ek⟩
        · rw [hk01, hn] at hka; cases hka
        · rw [hk01, hb] at hka; cases hka
          rw [ek, List.getElem?_set_self (List.getElem?_eq_some_iff.1 hkb).1] at hkk
          cases hkk; exact hg kb
      cases r with
      | recompute j =>
        have hj : j = i := hri
        subst hj
        obtain ⟨o0, ho0, hon⟩ := bindInv hst
        have ho0' := getObj_inv ho0
        refine hinv o0 o0 recompute w0 ho0' rfl ?_ rfl hon (fun _ => rfl)
        apply List.ext_getElem?
        intro m
        by_cases hm : j = m
        · subst hm; rw [List.getElem?_set_self (List.getElem?_eq_some_iff.1 ho0').1, ho0']
        · rw [List.getElem?_set_ne hm]
      | setType j t =>
        have hj : j = i := hri
        subst hj
        obtain ⟨o0, ho0, hon⟩ := bindInv hst
        exact hinv o0 { o0 with type := t } (fun k => setType k t)
          (putObj w0 j { o0 with type := t }) (getObj_inv ho0) rfl rfl rfl hon (fun _ => rfl)
      | setParam j p =>
        have hj : j = i := hri
        subst hj
        obtain ⟨o0, ho0, hon⟩ := bindInv hst
        exact hinv o0 { o0 with param := p } (fun k => setParam k p)
          (putObj w0 j { o0 with param := p }) (getObj_inv ho0) rfl rfl rfl hon (fun _ => rfl)
      | _ => exact absurd hri (by simp [renews])
    rw [e2] at hcomp
    obtain ⟨k'', h3, h4, _⟩ := C27_matrix k (by rw [hkt]; exact ht) hfl x.samples.dim x.samples.xs hr none
    rw [hcomp] at h3; cases h3
    rw [hkt, hkp] at h4
    exact ⟨k'.K, by rw [hlog]; simp, h4⟩
  · rw [hka] at hn; cases hn

/-- **C156 refuted.**  A perceptron or IMA object trained, given other samples and trained again trains with the matrix of
the first samples. -/
theorem C156_stale_refuted (d e : KData) (hd : RectSamples d) (t : KType) (ht : Defined t) (p : ℝ) :
    ∃ w M, run [.newPerc d t p, .train 0, .setSamples 0 e, .train 0] = .ok w ∧ w.log = [(0, M), (0, M)] ∧
      IsKernelMatrix t p d.dim d.xs M ∧
      (d.xs.length ≠ e.xs.length → ¬ IsKernelMatrix t p e.dim e.xs M) := by
  obtain ⟨k, h1, h2, _, _, _, hc⟩ := C27_matrix (newK t p) ht rfl d.dim d.xs hd none
  have h3 : compute k e.dim e.xs none = .ok k := by rw [compute, if_pos hc]; rfl
  refine ⟨⟨[some k], [some ⟨.perc, e, .innerProduct, 0, some 0⟩], [], [(0, k.K), (0, k.K)]⟩, k.K, ?_, rfl, h2,
    fun hne h4 => hne (h2.1.symm.trans h4.1)⟩
  show List.foldlM step World.empty _ = _
  rw [run_cons (w' := ⟨[some (newK t p)], [some ⟨.perc, d, .innerProduct, 0, some 0⟩], [], []⟩) rfl,
    run_cons (w' := ⟨[some k], [some ⟨.perc, d, .innerProduct, 0, some 0⟩], [], [(0, k.K)]⟩),
    run_cons (w' := ⟨[some k], [some ⟨.perc, e, .innerProduct, 0, some 0⟩], [], [(0, k.K)]⟩) rfl]
  · refine (run_cons ?_ []).trans rfl
    show ((compute k e.dim e.xs none) >>= _) = _
    rw [h3]; rfl
  · show ((compute (newK t p) d.dim d.xs none) >>= _) = _
    rw [h1]; rfl

/-- **C156 refuted** for copies: setting the kernel type of a copy sets that of the original, which then trains with it. -/
theorem C156_shared_refuted (d : KData) (hd : RectSamples d) (t t' : KType) (ht' : Defined t') (p : ℝ) :
    ∃ w M, run [.newPerc d t p, .copy 0, .setType 1 t', .train 0] = .ok w ∧ w.log = [(0, M)] ∧
      IsKernelMatrix t' p d.dim d.xs M := by
  obtain ⟨k, h1, h2, _⟩ := C27_matrix (newK t' p) ht' rfl d.dim d.xs hd none
  refine ⟨⟨[some k], [some ⟨.perc, d, .innerProduct, 0, some 0⟩, some ⟨.perc, d, t', 0, some 0⟩], [], [(0, k.K)]⟩, k.K,
    ?_, rfl, h2⟩
  show List.foldlM step World.empty _ = _
  rw [run_cons (w' := ⟨[some (newK t p)], [some ⟨.perc, d, .innerProduct, 0, some 0⟩], [], []⟩) rfl,
    run_cons (w' := ⟨[some (newK t p)], [some ⟨.perc, d, .innerProduct, 0, some 0⟩, some ⟨.perc, d, .innerProduct, 0, some 0⟩], [], []⟩) rfl,
    run_cons (w' := ⟨[some (newK t' p)], [some ⟨.perc, d, .innerProduct, 0, some 0⟩, some ⟨.perc, d, t', 0, some 0⟩], [], []⟩) rfl]
  refine (run_cons ?_ []).trans rfl
  show ((compute (newK t' p) d.dim d.xs none) >>= _) = _
  rw [h1]; rfl

/-- **C156 refuted** for `PerceptronDual` constructed without a kernel type: the type set by `setKernelType` before
training is ignored. -/
theorem C156_linear_refuted (d : KData) (hd : RectSamples d) (t : KType) :
    ∃ w M, run [.newLinear d, .setType 0 t, .train 0] = .ok w ∧ w.log = [(0, M)] ∧
      IsKernelMatrix .innerProduct 0 d.dim d.xs M := by
  obtain ⟨k, h1, h2, _⟩ := C27_matrix (newK .innerProduct 0) (Or.inl rfl) rfl d.dim d.xs hd none
  refine ⟨⟨[some k], [some ⟨.linear, d, t, 0, some 0⟩], [], [(0, k.K)]⟩, k.K, ?_, rfl, h2⟩
  show List.foldlM step World.empty _ = _
  rw [run_cons (w' := ⟨[], [some ⟨.linear, d, .innerProduct, 0, none⟩], [], []⟩) rfl,
    run_cons (w' := ⟨[], [some ⟨.linear, d, t, 0, none⟩], [], []⟩) rfl]
  refine (run_cons ?_ []).trans rfl
  show ((compute (newK .innerProduct 0) d.dim d.xs none) >>= _) = _
  rw [h1]; rfl

/-- **C156 refuted** for the getter: `getKernelType` of a perceptron or IMA object constructed with any kernel type answers
the inner product. -/
theorem C156_getter_refuted (d : KData) (t : KType) (p : ℝ) :
    ∃ w, run [.newPerc d t p] = .ok w ∧ getKernelType w 0 = .ok .innerProduct := ⟨_, rfl, rfl⟩

/-- The program of a one-vs-one or one-vs-all classifier on a dual base classifier: the copies are made first, then each
gets its samples and is trained. -/
def multiclassProgram (d0 : KData) (t : KType) (p : ℝ) (ds : List KData) : List Op :=
  .newPerc d0 t p :: (List.replicate ds.length (.copy 0) ++
    ds.zipIdx.flatMap (fun e => [.setSamples (e.2 + 1) e.1, .train (e.2 + 1)]))

/-- All objects are perceptrons on kernel 0. -/
def AllOnZero (w : World) : Prop :=
  ∀ j, j < w.objs.length → ∃ o : Obj, w.objs[j]? = some (some o) ∧ o.kind = .perc ∧ o.kernel = some 0

/-- One base learner gets its samples and is trained. -/
theorem multiclass_pair {w : World} (hz : AllOnZero w) {k k' : Kern} (hk : w.kernels = [some k]) (d : KData) {j : Nat}
    (hj : j < w.objs.length) (hc : compute k d.dim d.xs none = .ok k') (rest : List Op) :
    ∃ w', (.setSamples j d :: .train j :: rest).foldlM step w = rest.foldlM step w' ∧ w'.kernels = [some k'] ∧
      AllOnZero w' ∧ w'.objs.length = w.objs.length ∧ w'.log = w.log ++ [(j, k'.K)] := by
  obtain ⟨o, ho, hkind, hker⟩ := hz j hj
  have h1 : step w (.setSamples j d) = .ok (putObj w j { o with samples := d }) := by
    simp only [step, getObj_ok ho, Res_bind_ok]; rfl
  have ho2 : (putObj w j { o with samples := d }).objs[j]? = some (some { o with samples := d }) := by
    simp [putObj, hj]
  have h2 : step (putObj w j { o with samples := d }) (.train j) =
      .ok ⟨[some k'], w.objs.set j (some { o with samples := d }), w.handles, w.log ++ [(j, k'.K)]⟩ := by
    simp only [step, getObj_ok ho2, Res_bind_ok]
    rw [if_neg (show ¬ o.kind = .smo by rw [hkind]; simp)]
    have hens : ensureKernel (putObj w j { o with samples := d }) j { o with samples := d } =
        (putObj w j { o with samples := d }, 0) := by simp [ensureKernel, hker]
    unfold KOwn.trainPerc
    rw [hens]
    simp only [putObj, hk, derefK]
    show ((compute k d.dim d.xs none) >>= _) = _
    rw [hc]; rfl
  refine ⟨⟨[some k'], w.objs.set j (some { o with samples := d }), w.handles, w.log ++ [(j, k'.K)]⟩, ?_, rfl, ?_,
    by simp, rfl⟩
  · rw [run_cons h1, run_cons h2]
  · intro m hm
    simp at hm
    by_cases hjm : j = m
    · subst hjm; exact ⟨{ o with samples := d }, by simp [hj], hkind, hker⟩
    · obtain ⟨om, hom, h3⟩ := hz m hm
      exact ⟨om, by simp [List.getElem?_set_ne hjm, hom], h3⟩

theorem multiclass_loop (k : Kern) (hc : k.computed = true) : ∀ (l : List (KData × Nat)) (w : World), AllOnZero w →
    w.kernels = [some k] → (∀ e ∈ l, e.2 + 1 < w.objs.length) →
    ∃ w', (l.flatMap (fun e => [Op.setSamples (e.2 + 1) e.1, Op.train (e.2 + 1)])).foldlM step w = .ok w' ∧
      w'.log = w.log ++ l.map (fun e => (e.2 + 1, k.K)) := by
  intro l
  induction l with
  | nil => intro w _ _ _; exact ⟨w, rfl, by simp⟩
  | cons e l ih =>
    intro w hz hk hl
    have hcomp : compute k e.1.dim e.1.xs none = .ok k := by rw [compute, if_pos hc]; rfl
    obtain ⟨w1, h1, h2, h3, h4, h5⟩ := multiclass_pair hz hk e.1 (hl e (by simp)) hcomp
      (l.flatMap (fun e => [Op.setSamples (e.2 + 1) e.1, Op.train (e.2 + 1)]))
    obtain ⟨w', h6, h7⟩ := ih w1 h3 h2 (fun x hx => by rw [h4]; exact hl x (by simp [hx]))
    refine ⟨w', ?_, ?_⟩
    · rw [← h6]; exact h1
    · rw [h7, h5]; simp

theorem run_copies (o : Obj) (ks : List (Option Kern)) : ∀ (n m : Nat) (rest : List Op),
    (List.replicate n (Op.copy 0) ++ rest).foldlM step ⟨ks, List.replicate (m + 1) (some o), [], []⟩ =
      rest.foldlM step ⟨ks, List.replicate (n + m + 1) (some o), [], []⟩ := by
  intro n
  induction n with
  | zero => intro m rest; simp
  | succ n ih =>
    intro m rest
    rw [List.replicate_succ (n := n) (a := Op.copy 0), List.cons_append]
    have h1 : step ⟨ks, List.replicate (m + 1) (some o), [], []⟩ (.copy 0) =
        .ok ⟨ks, List.replicate (m + 1 + 1) (some o), [], []⟩ := by
      have : getObj ⟨ks, List.replicate (m + 1) (some o), [], []⟩ 0 = .ok o := getObj_ok (by simp)
      simp only [step, this, Res_bind_ok]
      rw [List.replicate_succ' (n := m + 1)]; rfl
    rw [run_cons h1, ih (m + 1) rest]
    congr 3; omega

/-- **C156 refuted** for one-vs-one and one-vs-all on a perceptron or IMA base classifier, whatever the number of classes:
every base learner trains with the kernel matrix of the samples of the first pair. -/
theorem C156_multiclass_refuted (d0 d : KData) (ds : List KData) (hd : RectSamples d) (t : KType) (ht : Defined t) (p : ℝ) :
    ∃ w M, run (multiclassProgram d0 t p (d :: ds)) = .ok w ∧ IsKernelMatrix t p d.dim d.xs M ∧
      w.log = (List.range (ds.length + 1)).map (fun i => (i + 1, M)) := by
  obtain ⟨k, h1, h2, _, _, _, hc⟩ := C27_matrix (newK t p) ht rfl d.dim d.xs hd none
  set o : Obj := ⟨.perc, d0, .innerProduct, 0, some 0⟩ with ho
  set n := ds.length + 1 with hn
  have hall : AllOnZero ⟨[some (newK t p)], List.replicate (n + 0 + 1) (some o), [], []⟩ := by
    intro j hj
    simp at hj
    exact ⟨o, by simp [List.getElem?_replicate]; omega, rfl, rfl⟩
  have hz : (d :: ds).zipIdx = (d, 0) :: ds.zipIdx 1 := by simp [List.zipIdx_cons]
  obtain ⟨w1, g1, g2, g3, g4, g5⟩ := multiclass_pair hall (k := newK t p) rfl d (j := 1) (by simp [hn]) h1
    ((ds.zipIdx 1).flatMap (fun e => [Op.setSamples (e.2 + 1) e.1, Op.train (e.2 + 1)]))
  obtain ⟨w', g6, g7⟩ := multiclass_loop k hc (ds.zipIdx 1) w1 g3 g2 (fun e he => by
    rw [g4]
    have := List.snd_lt_of_mem_zipIdx (l := ds) (k := 1) he
    simp [hn]; omega)
  refine ⟨w', k.K, ?_, h2, ?_⟩
  · unfold multiclassProgram
    show List.foldlM step World.empty _ = _
    rw [run_cons (w' := ⟨[some (newK t p)], [some o], [], []⟩) rfl]
    have := run_copies o [some (newK t p)] n 0
      ((d :: ds).zipIdx.flatMap (fun e => [Op.setSamples (e.2 + 1) e.1, Op.train (e.2 + 1)]))
    have e1 : (d :: ds).length = n := rfl
    rw [e1]
    refine this.trans ?_
    rw [hz, ← g6]
    exact g1
  · rw [g7, g5]
    have : (ds.zipIdx 1).map (fun e => (e.2 + 1, k.K)) = (List.range ds.length).map (fun i => (i + 2, k.K)) := by
      apply List.ext_getElem
      · simp
      · intro i hi hi'
        simp; omega
    rw [this, List.range_succ_eq_map]
    simp [Function.comp_def]

example : RectSamples ⟨1, [[1], [2]]⟩ ∧ Defined .gaussian := by simp [RectSamples, Defined]

end MLTK.Props
