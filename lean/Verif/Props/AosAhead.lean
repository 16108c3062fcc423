import Verif.Lemmas.AosAhead
import Verif.Props.AosRun
/-!
# C174 – C176: looking ahead in the search for features
-/
namespace MLTK.Props
open MLTK.Aos
open MLTK.Data (Res_bind_ok Res_bind_error Res_pure)
open MLTK.Feat (Tbl)
open MLTK.Perc (Libm)
open MLTK.Spec

section
variable {K : Type} [Field K] [LinearOrder K] [IsStrictOrderedRing K]

/-! ## C174 -/

/-- If training on the whole dataset succeeds whenever it is tried, a search with any look-ahead depth that ends returns the
samples restricted to some of their features, at least the requested number of them (and at least one).
Missing from C174: a training that fails while looking ahead (see the refutation). -/
theorem C174_subset_partial (lm : Libm K) (breadth finalDim ahead cut : Nat) (gMargin q : K) (cap hlen hwidth : Nat)
    (primal : Bool) (srt : List (K × Int) → List (K × Int)) (learn : Nat → Tbl K → Bool × List K × K) (samples : Tbl K)
    (lool n : Nat) (d : Tbl K) (l : Nat) (ha : Aligned samples) (hdim : 1 ≤ samples.dim) (hb : 1 ≤ breadth) (hcap : 1 ≤ cap)
    (hsrt : SortsByWeight srt) (hok : ∀ k, (learn k samples).1 = true)
    (e : aosSelectA lm breadth finalDim ahead cut gMargin q cap hlen hwidth primal srt learn samples lool n = .ok (d, l)) :
    (∃ R : List Int, R.Nodup ∧ (∀ f ∈ R, f ∈ samples.fnames) ∧ d = Without samples R) ∧
      d.dim = d.fnames.length ∧ d.rows.length = samples.rows.length ∧ (∀ r ∈ d.rows, r.length = d.dim) ∧
      min finalDim samples.dim ≤ d.dim ∧ 1 ≤ d.dim := by
  obtain ⟨R, h1, h2, h3, h4, h5, -⟩ := aosSelectA_inv e ha hdim hb hcap (fun l => (hsrt l).1) hok
  have h4 : R.length ≤ min (samples.dim - finalDim) (samples.dim - 1) := h4
  have hfl := filter_notin_length (nodup_of_aligned ha) h2 h3
  refine ⟨⟨R, h2, h3, h1⟩, ?_, ?_, ?_, ?_, ?_⟩
  · rw [h1]
    show samples.dim - R.length = (samples.fnames.filter _).length
    rw [hfl, ha.1]
  · rw [h1]; simp [Without]
  · intro r hr
    rw [h1] at hr ⊢
    obtain ⟨row, hrow, rfl⟩ := List.mem_map.1 hr
    have := Feat.cols_length (fun n => decide (n ∉ R)) samples.fnames row (by rw [ha.2.1 row hrow, ha.1])
    rw [hfl, ← ha.1] at this
    exact this
  · rw [h1]
    show _ ≤ samples.dim - R.length
    omega
  · rw [h1]
    show _ ≤ samples.dim - R.length
    omega

omit [IsStrictOrderedRing K] in
theorem expandA_off (lm : Libm K) (c : Cfg K) (primal : Bool) (srt : List (K × Int) → List (K × Int))
    (learn : Nat → Tbl K → Bool × List K × K) (sample : Tbl K) (w : List K) (margin : K) (level : Nat) (ofnames : List Int)
    (first : Bool) (a : AState K) (hg : a.g = c.gMargin) :
    expandA lm c 0 primal srt learn sample w margin level ofnames first a =
      (expand lm c srt sample w margin level ofnames first a.st).map (fun st => { a with st := st }) := by
  have h1 : lookAhead c 0 primal learn sample w level ofnames first a = .ok a := by
    unfold lookAhead
    rw [if_neg (by simp)]
    rfl
  have h2 : ({ c with gMargin := a.g } : Cfg K) = c := by rw [hg]
  unfold expandA
  rw [h1, Res_bind_ok, h2]
  cases expand lm c srt sample w margin level ofnames first a.st <;> rfl

omit [IsStrictOrderedRing K] in
theorem expandNodeA_off (lm : Libm K) (c : Cfg K) (primal : Bool) (srt : List (K × Int) → List (K × Int))
    (learn : Nat → Tbl K → Bool × List K × K) (sample : Tbl K) (w : List K) (margin : K) (nd : Node K) (a : AState K)
    (hg : a.g = c.gMargin) :
    expandNodeA lm c 0 primal srt learn sample w margin nd a =
      (expandNode lm c srt sample w margin nd a.st).map (fun st => { a with st := st }) := by
  unfold expandNodeA expandNode
  by_cases h : nd.level > a.st.lool
  · rw [if_pos h, if_pos h]
    exact expandA_off lm c primal srt learn sample w margin nd.level nd.fnames true _ hg
  · rw [if_neg h, if_neg h]
    exact expandA_off lm c primal srt learn sample w margin nd.level nd.fnames false a hg

omit [IsStrictOrderedRing K] in
theorem mainLoopA_off (lm : Libm K) (c : Cfg K) (primal : Bool) (srt : List (K × Int) → List (K × Int))
    (learn : Nat → Tbl K → Bool × List K × K) (sample : Tbl K) (a : AState K) (hg : a.g = c.gMargin) :
    ∃ sol, mainLoopA lm c 0 primal srt learn sample a =
      (mainLoop lm c srt learn sample a.st).map (fun st => ⟨st, a.g, sol⟩) := by
  unfold mainLoopA mainLoop
  by_cases h : a.st.heap.size = 0
  · rw [if_pos h, if_pos h]
    exact ⟨_, expandA_off lm c primal srt learn sample _ _ 0 [] _ _ hg⟩
  · rw [if_neg h, if_neg h]
    cases hp : pop a.st.mem a.st.heap with
    | error f => exact ⟨a.sol, rfl⟩
    | ok r =>
      obtain ⟨heap, p⟩ := r
      simp only [Res_bind_ok]
      cases hd : Aos.deref a.st.mem p with
      | error f => exact ⟨a.sol, rfl⟩
      | ok nd =>
        simp only [Res_bind_ok]
        by_cases h1 : nd.level > c.depth
        · rw [if_pos h1, if_pos h1]
          exact ⟨a.sol, rfl⟩
        · rw [if_neg h1, if_neg h1]
          by_cases h2 : nd.rgamma > 0
          · rw [if_pos h2, if_pos h2]
            cases hv : vget a.st.ws (p.getD 0) with
            | error f => exact ⟨a.sol, rfl⟩
            | ok w =>
              simp only [Res_bind_ok]
              exact ⟨a.sol, expandNodeA_off lm c primal srt learn sample _ _ _ _ hg⟩
          · rw [if_neg h2, if_neg h2]
            refine ⟨(learn a.st.calls sample).2.1, ?_⟩
            by_cases h3 : (learn a.st.calls sample).1 = false
            · rw [if_pos h3, if_pos h3]
              rfl
            · rw [if_neg h3, if_neg h3]
              cases ht : Aos.deref (store a.st.mem (p.getD 0)
                  { nd with value := (learn a.st.calls sample).2.2, rgamma := (learn a.st.calls sample).2.2 })
                  (heap.elements 1) with
              | error f => rfl
              | ok top =>
                simp only [Res_bind_ok]
                by_cases h4 : (learn a.st.calls sample).2.2 < top.value ∨ nd.level = c.depth
                · rw [if_pos h4, if_pos h4]
                  cases vset a.st.ws (p.getD 0) (learn a.st.calls sample).2.1 with
                  | error f => rfl
                  | ok ws =>
                    simp only [Res_bind_ok]
                    cases Aos.insert c.cap (store a.st.mem (p.getD 0)
                      { nd with value := (learn a.st.calls sample).2.2, rgamma := (learn a.st.calls sample).2.2 }) heap
                      (p.getD 0) <;> rfl
                · rw [if_neg h4, if_neg h4]
                  exact expandNodeA_off lm c primal srt learn sample _ _ _ _ hg

omit [IsStrictOrderedRing K] in
/-- With the look-ahead depth 0 the search is the plain one, whatever the formulation of the classifier: the same dataset, the
same level, the same fault. -/
theorem C174_off (lm : Libm K) (breadth finalDim cut : Nat) (gMargin q : K) (cap hlen hwidth : Nat)
    (primal : Bool) (srt : List (K × Int) → List (K × Int)) (learn : Nat → Tbl K → Bool × List K × K) (samples : Tbl K)
    (lool n : Nat) :
    aosSelectA lm breadth finalDim 0 cut gMargin q cap hlen hwidth primal srt learn samples lool n =
      aosSelect lm breadth finalDim cut gMargin q cap hlen hwidth srt learn samples lool n := by
  unfold aosSelectA aosSelect
  have key : ∀ (c : Cfg K) (n : Nat) (ftime : Bool) (a : AState K), a.g = c.gMargin →
      searchLoopA lm c 0 primal srt learn samples n ftime a = searchLoop lm c srt learn samples n ftime a.st := by
    intro c n
    induction n with
    | zero => intro _ _ _; rfl
    | succ n ih =>
      intro ftime a hg
      rw [searchLoopA, searchLoop]
      by_cases h : a.st.heap.size = 0
      · rw [if_pos h, if_pos h]
        by_cases hf : ftime = false
        · rw [if_pos hf, if_pos hf]
        · rw [if_neg hf, if_neg hf]
          obtain ⟨sol, hm⟩ := mainLoopA_off lm c primal srt learn samples a hg
          rw [hm]
          cases mainLoop lm c srt learn samples a.st with
          | error f => rfl
          | ok st =>
            simp only [Except.map, Res_bind_ok]
            rw [ih false ⟨st, a.g, sol⟩ hg]
      · rw [if_neg h, if_neg h]
        cases Aos.deref a.st.mem (a.st.heap.elements 1) with
        | error f => rfl
        | ok nd =>
          simp only [Res_bind_ok]
          cases Feat.removeFeatures samples nd.fnames with
          | error f => rfl
          | ok r =>
            obtain ⟨dd, b⟩ := r
            simp only [Res_bind_ok]
            by_cases hst : (samples.dim : Int) = (samples.dim : Int) - c.depth ∧ nd.rgamma > 0
            · rw [if_pos hst, if_pos hst]
            · rw [if_neg hst, if_neg hst]
              obtain ⟨sol, hm⟩ := mainLoopA_off lm c primal srt learn dd a hg
              rw [hm]
              cases mainLoop lm c srt learn dd a.st with
              | error f => rfl
              | ok st =>
                simp only [Except.map, Res_bind_ok]
                rw [ih ftime ⟨st, a.g, sol⟩ hg]
  exact key _ n true _ rfl

/-! ## C175 -/

/-- Without look-ahead a search that ends returns either the whole dataset or a dataset on which a training succeeded.
Missing from C175: searches with look-ahead (see the refutation). -/
theorem C175_trained_partial (lm : Libm K) (breadth finalDim cut : Nat) (gMargin q : K) (cap hlen hwidth : Nat)
    (srt : List (K × Int) → List (K × Int)) (learn : Nat → Tbl K → Bool × List K × K) (samples : Tbl K) (lool n : Nat)
    (d : Tbl K) (l : Nat) (ha : Aligned samples) (hdim : 1 ≤ samples.dim) (hb : 1 ≤ breadth) (hcap : 1 ≤ cap)
    (hsrt : SortsByWeight srt)
    (e : aosSelect lm breadth finalDim cut gMargin q cap hlen hwidth srt learn samples lool n = .ok (d, l)) :
    d = samples ∨ ∃ k, (learn k d).1 = true := by
  unfold aosSelect at e
  cases n with
  | zero => cases e
  | succ n =>
    rw [searchLoop, if_pos (by rfl), if_neg (by simp)] at e
    obtain ⟨st1, hmain, e⟩ := bind_inv e
    have hne := root_nonempty hmain rfl (by show 1 ≤ min breadth samples.dim; omega) hcap (by
      intro b hb
      exact List.eq_of_mem_replicate hb) (fun l => (hsrt l).1)
    rw [if_neg hne] at e
    obtain ⟨r1, r2, r3, r4⟩ := mainLoop_root (names := samples.fnames)
      (D := min (samples.dim - finalDim) (samples.dim - 1)) (Q := fun _ => True) hmain rfl (fun l => (hsrt l).1) (fun f hf => hf)
      (fun _ _ _ _ _ _ => trivial) (by intro p nd hp; simp at hp)
    have hpart : st1.part = samples := by rw [r2]; simp
    have ht : MemT (fun fs r => ∃ k w, learn k (Without samples fs) = (true, w, r)) st1.mem := by
      unfold mainLoop at hmain
      rw [if_pos (by rfl)] at hmain
      exact (expand_t hmain (by intro p nd hp; simp at hp)).1
    exact searchLoop_t ha (by show min _ _ ≤ _; omega) (fun l => (hsrt l).1) e r1 ht (Or.inl hpart)

/-! ## C176 -/

omit [IsStrictOrderedRing K] in
theorem aheadLoop_cfg (c : Cfg K) (g : K) (primal : Bool) (learn : Nat → Tbl K → Bool × List K × K) (sample : Tbl K)
    (level0 : Nat) (ofnames : List Int) : ∀ (n count : Nat) (feats : List Int) (w : List K) (stmp : Tbl K) (st : Srch K)
      (sol : List K), aheadLoop { c with gMargin := g } primal learn sample level0 ofnames n count feats w stmp st sol =
      aheadLoop c primal learn sample level0 ofnames n count feats w stmp st sol := by
  intro n
  induction n with
  | zero => intro _ _ _ _ _ _; rfl
  | succ n ih =>
    intro count feats w stmp st sol
    rw [aheadLoop, aheadLoop]
    simp only [ih]

omit [IsStrictOrderedRing K] in
theorem expandA_cfg (lm : Libm K) (c : Cfg K) (g : K) (ahead : Nat) (primal : Bool) (srt : List (K × Int) → List (K × Int))
    (learn : Nat → Tbl K → Bool × List K × K) (sample : Tbl K) (w : List K) (margin : K) (level : Nat) (ofnames : List Int)
    (first : Bool) (a : AState K) :
    expandA lm { c with gMargin := g } ahead primal srt learn sample w margin level ofnames first a =
      expandA lm c ahead primal srt learn sample w margin level ofnames first a := by
  unfold expandA lookAhead
  rw [aheadLoop_cfg]

omit [IsStrictOrderedRing K] in
theorem mainLoopA_cfg (lm : Libm K) (c : Cfg K) (g : K) (ahead : Nat) (primal : Bool) (srt : List (K × Int) → List (K × Int))
    (learn : Nat → Tbl K → Bool × List K × K) (sample : Tbl K) (a : AState K) :
    mainLoopA lm { c with gMargin := g } ahead primal srt learn sample a = mainLoopA lm c ahead primal srt learn sample a := by
  unfold mainLoopA expandNodeA
  simp only [expandA_cfg]

omit [IsStrictOrderedRing K] in
theorem searchLoopA_cfg (lm : Libm K) (c : Cfg K) (g : K) (ahead : Nat) (primal : Bool)
    (srt : List (K × Int) → List (K × Int)) (learn : Nat → Tbl K → Bool × List K × K) (samples : Tbl K) :
    ∀ (n : Nat) (ftime : Bool) (a : AState K), searchLoopA lm { c with gMargin := g } ahead primal srt learn samples n ftime a =
      searchLoopA lm c ahead primal srt learn samples n ftime a := by
  intro n
  induction n with
  | zero => intro _ _; rfl
  | succ n ih =>
    intro ftime a
    rw [searchLoopA, searchLoopA]
    simp only [mainLoopA_cfg, ih]

omit [IsStrictOrderedRing K] in
/-- C176 fails with look-ahead: a new object searches as if the pruning margin were 0, whatever margin it was given. -/
theorem C176_ignored_refuted (lm : Libm K) (breadth finalDim ahead cut : Nat) (gMargin gMargin' q : K) (cap hlen hwidth : Nat)
    (primal : Bool) (srt : List (K × Int) → List (K × Int)) (learn : Nat → Tbl K → Bool × List K × K) (samples : Tbl K)
    (n : Nat) (hahead : 1 ≤ ahead) :
    aosSelectA lm breadth finalDim ahead cut gMargin q cap hlen hwidth primal srt learn samples 0 n =
      aosSelectA lm breadth finalDim ahead cut gMargin' q cap hlen hwidth primal srt learn samples 0 n := by
  unfold aosSelectA
  rw [← searchLoopA_cfg lm _ gMargin' ahead primal srt learn samples n true ⟨_, gMargin, []⟩]
  cases n with
  | zero => rfl
  | succ n =>
    have : ∀ (c : Cfg K) (g g' : K) (st : Srch K), st.heap.size = 0 → st.lool = 0 →
        mainLoopA lm c ahead primal srt learn samples ⟨st, g, []⟩ =
          mainLoopA lm c ahead primal srt learn samples ⟨st, g', []⟩ := by
      intro c g g' st h1 h2
      unfold mainLoopA expandA lookAhead
      rw [if_pos h1, if_pos h1]
      simp only [h2, decide_true, true_and]
      rw [if_pos (by omega), if_pos (by omega)]
    have key : ∀ (c : Cfg K) (st : Srch K), st.heap.size = 0 → st.lool = 0 →
        searchLoopA lm c ahead primal srt learn samples (n + 1) true ⟨st, gMargin, []⟩ =
          searchLoopA lm c ahead primal srt learn samples (n + 1) true ⟨st, gMargin', []⟩ := by
      intro c st h1 h2
      rw [searchLoopA, searchLoopA]
      simp only [h1, if_true]
      rw [this c gMargin gMargin' st h1 h2]
    exact key _ _ rfl rfl


/-! ## What is looked at ahead -/

omit [IsStrictOrderedRing K] in
private theorem least_fold (stmp : Tbl K) (w : List K) (w0 : K) (f0 : Int) (hw0 : w[0]? = some w0)
    (hf0 : stmp.fnames[0]? = some f0) : ∀ (n : Nat) (b : K × Int),
    (List.range n).foldlM (fun (b : K × Int) i => do
      let wi ← vget w (i + 1)
      if |wi| < b.1 then do
        let f ← vget stmp.fnames (i + 1)
        pure (|wi|, f)
      else pure b) (|w0|, f0) = (.ok b : Res (K × Int)) →
    ∃ i wi, i ≤ n ∧ stmp.fnames[i]? = some b.2 ∧ w[i]? = some wi ∧ b.1 = |wi| ∧
      (∀ j wj, j ≤ n → w[j]? = some wj → |wi| ≤ |wj|) ∧ ∀ j wj, j < i → w[j]? = some wj → |wi| < |wj| := by
  intro n
  induction n with
  | zero =>
    intro b h
    cases h
    refine ⟨0, w0, le_rfl, hf0, hw0, rfl, ?_, by omega⟩
    intro j wj hj hwj
    have : j = 0 := by omega
    subst this
    rw [hw0, Option.some.injEq] at hwj
    rw [hwj]
  | succ n ih =>
    intro b h
    rw [List.range_succ, List.foldlM_append] at h
    obtain ⟨b1, h1, h2⟩ := Aos.bind_inv h
    obtain ⟨i, wi, hi, hf, hwi, hb, hmin, hfirst⟩ := ih b1 h1
    rw [List.foldlM_cons] at h2
    obtain ⟨b2, h2, h3⟩ := Aos.bind_inv h2
    cases h3
    obtain ⟨wn, hwn, h2⟩ := Aos.bind_inv h2
    rw [vget_eq_ok] at hwn
    by_cases hlt : |wn| < b1.1
    · rw [if_pos hlt] at h2
      obtain ⟨f, hfn, h2⟩ := Aos.bind_inv h2
      rw [vget_eq_ok] at hfn
      cases h2
      rw [hb] at hlt
      refine ⟨n + 1, wn, le_rfl, hfn, hwn, rfl, ?_, ?_⟩
      · intro j wj hj hwj
        rcases Nat.lt_or_ge j (n + 1) with h | h
        · exact le_of_lt (lt_of_lt_of_le hlt (hmin j wj (by omega) hwj))
        · have : j = n + 1 := by omega
          subst this
          rw [hwn, Option.some.injEq] at hwj
          rw [hwj]
      · intro j wj hj hwj
        exact lt_of_lt_of_le hlt (hmin j wj (by omega) hwj)
    · rw [if_neg hlt] at h2
      cases h2
      refine ⟨i, wi, by omega, hf, hwi, hb, ?_, hfirst⟩
      intro j wj hj hwj
      rcases Nat.lt_or_ge j (n + 1) with h | h
      · exact hmin j wj (by omega) hwj
      · have : j = n + 1 := by omega
        subst this
        rw [hwn, Option.some.injEq] at hwj
        rw [← hwj, ← hb]
        exact le_of_not_gt hlt

omit [IsStrictOrderedRing K] in
/-- C174 (which features are tried).  Every feature a look-ahead leaves out is one whose weight is least in absolute value, the first
one among equals. -/
theorem C174_least (stmp : Tbl K) (w : List K) (f : Int) (h : leastFeature stmp w = .ok f) :
    ∃ i wi, i ≤ stmp.dim - 1 ∧ stmp.fnames[i]? = some f ∧ w[i]? = some wi ∧
      (∀ j wj, j ≤ stmp.dim - 1 → w[j]? = some wj → |wi| ≤ |wj|) ∧ ∀ j wj, j < i → w[j]? = some wj → |wi| < |wj| := by
  unfold leastFeature at h
  obtain ⟨w0, hw0, h⟩ := Aos.bind_inv h
  obtain ⟨f0, hf0, h⟩ := Aos.bind_inv h
  obtain ⟨b, hb, h⟩ := Aos.bind_inv h
  cases h
  obtain ⟨i, wi, h1, h2, h3, -, h4, h5⟩ := least_fold stmp w w0 f0 (vget_eq_ok.1 hw0) (vget_eq_ok.1 hf0) _ b hb
  exact ⟨i, wi, h1, h2, h3, h4, h5⟩

example : leastFeature (⟨[], [1, 2, 3], 3⟩ : Tbl ℚ) [-2, -1, 1] = .ok 2 := by decide +kernel

omit [IsStrictOrderedRing K] in
/-- C174 (when it looks ahead).  Only the first node expanded on a level is looked ahead from: expanding any other node does the same
whatever the look-ahead depth, so in particular what it does without look-ahead. -/
theorem C174_first_only (lm : Libm K) (c : Cfg K) (ahead : Nat) (primal : Bool) (srt : List (K × Int) → List (K × Int))
    (learn : Nat → Tbl K → Bool × List K × K) (sample : Tbl K) (w : List K) (margin : K) (nd : Node K) (a : AState K)
    (hlev : nd.level ≤ a.st.lool) :
    expandNodeA lm c ahead primal srt learn sample w margin nd a = expandNodeA lm c 0 primal srt learn sample w margin nd a := by
  unfold expandNodeA
  rw [if_neg (by omega), if_neg (by omega)]
  unfold expandA lookAhead
  rw [if_neg (by simp), if_neg (by simp)]

end

/-! ## Witnesses -/

/-- A classifier with the weights 3, 4, 12 that fails unless it sees all three features. -/
def needsAll : Nat → Tbl ℚ → Bool × List ℚ × ℚ := fun _ s => (decide (s.dim = 3), ([3, 4, 12] : List ℚ).take s.dim, 1)

/-- C175 fails with look-ahead: the search returns two features although no training on fewer than three features succeeds.
Without look-ahead it returns all three. -/
theorem C175_ahead_refuted :
    aosSelectA squareLibm 1 2 1 0 0 2 100 7 5 true byWeight needsAll threeFeatures 0 20 =
        .ok (⟨[[2, 3], [5, 6]], [2, 3], 2⟩, 1) ∧
      (∀ k, (needsAll k ⟨[[2, 3], [5, 6]], [2, 3], 2⟩).1 = false) ∧
      aosSelectA squareLibm 1 2 0 0 0 2 100 7 5 true byWeight needsAll threeFeatures 0 20 = .ok (threeFeatures, 0) := by
  refine ⟨by decide +kernel, fun _ => rfl, by decide +kernel⟩

/-- A classifier with equal weights whose second training fails. -/
def failsSecond : Nat → Tbl ℚ → Bool × List ℚ × ℚ := fun k s => (decide (k ≠ 1), List.replicate s.dim 1, 1)

/-- C174 fails if a training fails while looking ahead: the search returns a dataset without samples and without features.
Without look-ahead the same classifier keeps the three features. -/
theorem C174_empty_refuted :
    aosSelectA squareLibm 1 2 1 0 0 2 100 7 5 true byWeight failsSecond threeFeatures 0 20 = .ok (⟨[], [], 0⟩, 0) ∧
      aosSelectA squareLibm 1 2 0 0 0 2 100 7 5 true byWeight failsSecond threeFeatures 0 20 = .ok (threeFeatures, 0) := by
  refine ⟨by decide +kernel, by decide +kernel⟩

/-- Looking two features ahead. -/
theorem search_ahead : aosSelectA squareLibm 1 1 2 0 0 2 100 7 5 true byWeight (learn3412 1) threeFeatures 0 20 =
    .ok (⟨[[3], [6]], [3], 1⟩, 2) := by decide +kernel

example := C174_subset_partial squareLibm 1 1 2 0 0 2 100 7 5 true byWeight (learn3412 1) threeFeatures 0 20 _ _
  threeFeatures_aligned (by decide) (by decide) (by decide) byWeight_sorts (fun _ => rfl) search_ahead

example : (⟨[[1], [4]], [1], 1⟩ : Tbl ℚ) = threeFeatures ∨ ∃ k, (learn3412 1 k ⟨[[1], [4]], [1], 1⟩).1 = true :=
  C175_trained_partial squareLibm 1 1 0 0 2 100 7 5 byWeight (learn3412 1) threeFeatures 0 20 _ _ threeFeatures_aligned (by decide)
    (by decide) (by decide) byWeight_sorts search_one

/-- A classifier with the weights 3, 4, 12 that fails without feature 3. -/
def needsThird : Nat → Tbl ℚ → Bool × List ℚ × ℚ := fun _ s => (decide (3 ∈ s.fnames), ([3, 4, 12] : List ℚ).take s.dim, 1)

/-- Without look-ahead the pruning margin matters: with 0 the second choice is tried, with 100 it is not. -/
theorem C176_matters :
    aosSelectA squareLibm 2 2 0 0 0 2 100 7 5 true byWeight needsThird threeFeatures 0 20 =
        .ok (⟨[[1, 3], [4, 6]], [1, 3], 2⟩, 1) ∧
      aosSelectA squareLibm 2 2 0 0 100 2 100 7 5 true byWeight needsThird threeFeatures 0 20 = .ok (threeFeatures, 0) := by
  refine ⟨by decide +kernel, by decide +kernel⟩

example : aosSelectA squareLibm 2 2 1 0 0 2 100 7 5 true byWeight needsThird threeFeatures 0 20 =
    aosSelectA squareLibm 2 2 1 0 100 2 100 7 5 true byWeight needsThird threeFeatures 0 20 :=
  C176_ignored_refuted squareLibm 2 2 1 0 0 100 2 100 7 5 true byWeight needsThird threeFeatures 20 (by decide)

end MLTK.Props
