import Verif.Lemmas.AosRun
import Verif.Lemmas.Aos
import Verif.Spec.Perceptron
/-!
# C164: the margin AOS predicts for a set of features
-/
namespace MLTK.Props
open MLTK MLTK.Spec MLTK.Aos
open MLTK.Feat (Tbl)
open MLTK.Perc (Libm)

section
variable {K : Type} [Field K] [LinearOrder K]

/-- What one branch writes into a new node. -/
private structure Made (level : Nat) (ofnames : List Int) (weights : List (K × Int)) (V : K → K → Prop) (nd : Node K) : Prop where
  len : nd.fnames.length = nd.level
  lev : nd.level = level + 1
  from_ : ∃ wt ∈ weights, nd.fnames = sortDesc (ofnames ++ [wt.2]) ∧ V wt.1 nd.value

omit [Field K] [LinearOrder K] in
private theorem scan_names {m : Nodes K} {nd : Node K} (hl : nd.fnames.length = nd.level) :
    ∀ {b : List Nat} {q : Nat}, scan m nd b = .ok (some q) →
      ∃ other, m[q]? = some (some other) ∧ (other.fnames.length = other.level → other.fnames = nd.fnames) := by
  intro b
  induction b with
  | nil => intro q h; cases h
  | cons r b ih =>
    intro q hf
    rw [scan] at hf
    obtain ⟨other, h1, hf⟩ := bind_inv hf
    obtain ⟨c, h2, hf⟩ := bind_inv hf
    cases c with
    | false => exact ih hf
    | true =>
      cases hf
      obtain ⟨r', hr, hm⟩ := deref_inv h1
      cases hr
      refine ⟨other, hm, fun hl' => ?_⟩
      obtain ⟨c, hc, hiff⟩ := nodeEqual_ok nd other hl hl'
      rw [hc] at h2
      cases h2
      have := hiff.1 rfl
      simp only [key, Prod.mk.injEq] at this
      exact this.2.symm

private theorem add_made {L level : Nat} {ofnames : List Int} {weights : List (K × Int)} {V : K → K → Prop} {m m' : Nodes K}
    {h h' : Hash} {p : Nat} {b : Bool} (e : add m h p = .ok (m', h', b)) (hL : L ≤ p)
    (hm : ∀ (r : Nat) (nd : Node K), L ≤ r → m[r]? = some (some nd) → Made level ofnames weights V nd) :
    m'.length = m.length ∧ ∀ (r : Nat) (nd : Node K), L ≤ r → m'[r]? = some (some nd) → Made level ofnames weights V nd := by
  refine ⟨(add_inv e).2.2.1, ?_⟩
  unfold add at e
  obtain ⟨nd, hnd, e⟩ := bind_inv e
  obtain ⟨index, _, e⟩ := bind_inv e
  obtain ⟨bucket, hbk, e⟩ := bind_inv e
  obtain ⟨found, hf, e⟩ := bind_inv e
  obtain ⟨p', hp', hp⟩ := deref_inv hnd
  cases hp'
  cases found with
  | none =>
    simp only at e
    split at e
    · cases e
    · obtain ⟨buckets, hv, e⟩ := bind_inv e
      cases e
      exact hm
  | some q =>
    simp only at e
    obtain ⟨m2, hr, e⟩ := bind_inv e
    cases e
    have hmp := hm p nd hL hp
    obtain ⟨other, hoth, heq⟩ := scan_names hmp.len hf
    unfold refound at hr
    rw [deref_of hoth, MLTK.Data.Res_bind_ok] at hr
    simp only at hr
    have hmf := free_inv hr
    subst hmf
    intro r nd' hLr hr'
    by_cases hrp : p = r
    · subst hrp
      rw [List.getElem?_set] at hr'
      simp at hr'
    · rw [List.getElem?_set_ne hrp] at hr'
      split at hr'
      · by_cases hrq : q = r
        · subst hrq
          have hlt : q < m.length := (List.getElem?_eq_some_iff.1 hoth).1
          rw [store, List.getElem?_set_self hlt] at hr'
          cases hr'
          have ho := hm q other hLr hoth
          obtain ⟨wt, hwt, h1, h2⟩ := hmp.from_
          exact ⟨ho.len, ho.lev, wt, hwt, by rw [← h1]; exact heq ho.len, h2⟩
        · rw [store, List.getElem?_set_ne hrq] at hr'
          exact hm r nd' hLr hr'
      · exact hm r nd' hLr hr'

private theorem branch_made {lm : Libm K} {c : Cfg K} {dim level : Nat} {ofnames : List Int} {weights : List (K × Int)}
    {wnorm margin : K} {st st' : Srch K} {i L : Nat} {V : K → K → Prop}
    (e : branch lm c dim level ofnames weights wnorm margin st i = .ok st') (hlen : ofnames.length = level)
    (hV : ∀ wt v, wt ∈ weights → i < weights.length → projMargin lm c.q dim i wt.1 wnorm margin = .ok v → V wt.1 v)
    (hL : L ≤ st.mem.length)
    (hm : ∀ (r : Nat) (nd : Node K), L ≤ r → st.mem[r]? = some (some nd) → Made level ofnames weights V nd) :
    L ≤ st'.mem.length ∧ ∀ (r : Nat) (nd : Node K), L ≤ r → st'.mem[r]? = some (some nd) → Made level ofnames weights V nd := by
  unfold branch at e
  obtain ⟨wt, hwt, e⟩ := bind_inv e
  obtain ⟨tp, htp, e⟩ := bind_inv e
  obtain ⟨old, hold, e⟩ := bind_inv e
  rw [← hlen, mapM_vget] at hold
  cases hold
  simp only at e
  obtain ⟨⟨mem, hash, new⟩, hadd, e⟩ := bind_inv e
  obtain ⟨hlt, hin⟩ := vget_lt_of hwt
  have hm1 : ∀ (r : Nat) (nd : Node K), L ≤ r → (st.mem ++ [some ⟨sortDesc (ofnames ++ [wt.2]), level + 1, tp, tp, -1⟩])[r]? = some (some nd) →
      Made level ofnames weights V nd := by
    intro r nd hr hnd
    rw [List.getElem?_append] at hnd
    split at hnd
    · exact hm r nd hr hnd
    · rw [List.getElem?_singleton] at hnd
      split at hnd <;> cases hnd
      exact ⟨by rw [(sortDesc_perm _).length_eq]; simp [hlen], rfl, wt, hin, rfl, hV wt tp hin hlt htp⟩
  obtain ⟨h1, h2⟩ := add_made hadd hL hm1
  have h3 : L ≤ mem.length := by rw [h1]; simp; omega
  simp only at e
  split at e
  · cases e
    exact ⟨h3, h2⟩
  · split at e
    · obtain ⟨⟨heap, b⟩, hins, e⟩ := bind_inv e
      cases e
      exact ⟨h3, h2⟩
    · cases e
      exact ⟨h3, h2⟩

private theorem expand_made {lm : Libm K} {c : Cfg K} {srt : List (K × Int) → List (K × Int)} {sample : Tbl K} {w : List K}
    {margin : K} {level : Nat} {ofnames : List Int} {first : Bool} {st st' : Srch K} {V : K → K → Prop}
    (e : expand lm c srt sample w margin level ofnames first st = .ok st') (hsrt : ∀ l, (srt l).Perm l)
    (hlen : ofnames.length = level)
    (hV : ∀ i x v, i < sample.dim → projMargin lm c.q sample.dim i x (normQ lm c.q w) margin = .ok v → V x v) :
    ∀ (r : Nat) (nd : Node _), st.mem.length ≤ r → st'.mem[r]? = some (some nd) →
      ∃ (i : Nat) (x : K) (f : Int), w[i]? = some x ∧ sample.fnames[i]? = some f ∧ i < sample.dim ∧
        nd.fnames = sortDesc (ofnames ++ [f]) ∧ V x nd.value := by
  unfold expand at e
  obtain ⟨st1, h1, e⟩ := bind_inv e
  obtain ⟨ws, hws, e⟩ := bind_inv e
  have hst1 : st1.mem.length = st.mem.length := by
    unfold closeLevel at h1
    split at h1
    · obtain ⟨⟨mem, heap⟩, hcut, h1⟩ := bind_inv h1
      cases h1
      exact (cutLoop_inv hcut).2
    · cases h1
      rfl
  have hfold := MLTK.Aos.foldlM_inv (fun s : Srch K => st.mem.length ≤ s.mem.length ∧ ∀ (r : Nat) (nd : Node _), st.mem.length ≤ r →
      s.mem[r]? = some (some nd) → Made level ofnames (srt ws) V nd) e
    ⟨hst1.ge, fun r nd hr h => by
      have := (List.getElem?_eq_some_iff.1 h).1
      omega⟩ (by
    rintro s i s' hi ⟨ha, hb⟩ hs
    exact branch_made hs hlen (fun wt v _ hi' hp => hV i wt.1 v (by
      rw [(hsrt ws).length_eq, (weightsOf_inv hws).1] at hi'; exact hi') hp) ha hb)
  intro r nd hr hnd
  obtain ⟨wt, hwt, h2, h3⟩ := (hfold.2 r nd hr hnd).from_
  obtain ⟨i, hi⟩ := List.mem_iff_getElem?.1 ((hsrt ws).mem_iff.1 hwt)
  obtain ⟨h4, h5⟩ := (weightsOf_inv hws).2 i wt hi
  refine ⟨i, wt.1, wt.2, h4, h5, ?_, h2, h3⟩
  rw [← (weightsOf_inv hws).1]
  exact (List.getElem?_eq_some_iff.1 hi).1

end

private theorem sum_others (n i : Nat) (hi : i < n) (c : ℝ) :
    ((List.range n).map (fun j => if i ≠ j then c else 0)).sum = ((n : ℝ) - 1) * c := by
  induction n with
  | zero => omega
  | succ n ih =>
    rw [List.range_succ, List.map_append, List.sum_append]
    rcases Nat.lt_or_ge i n with h | h
    · rw [ih h]
      have : i ≠ n := by omega
      simp [this]; ring
    · have hin : i = n := by omega
      subst hin
      have hc : (List.range i).map (fun j => if i ≠ j then c else 0) = (List.range i).map (fun _ => c) := by
        apply List.map_congr_left
        intro j hj
        have : i ≠ j := by have := List.mem_range.1 hj; omega
        simp [this]
      rw [hc]
      simp

private theorem normQ_real (q : ℝ) (w : List ℝ) : normQ realLibm q w = qNorm q w := rfl

private theorem qNorm_nonneg (q : ℝ) (w : List ℝ) : 0 ≤ qNorm q w := by
  apply Real.rpow_nonneg
  apply List.sum_nonneg
  intro x hx
  obtain ⟨y, _, rfl⟩ := List.mem_map.1 hx
  exact Real.rpow_nonneg (abs_nonneg _) _

private theorem projMargin_real {q : ℝ} (hq : 0 < q) {dim i : Nat} (hi : i < dim) (hdim : 1 < dim) {x N margin v : ℝ} (hN : 0 ≤ N)
    (hmar : 0 ≤ margin) (e : projMargin realLibm q dim i x N margin = .ok v) :
    0 < N ∧ v = ((dim : ℝ) - 1) ^ (1 / q) * (|x| / N) * margin := by
  unfold projMargin at e
  rw [if_pos hdim] at e
  split at e
  · cases e
  · rename_i hN0
    have hNp : 0 < N := lt_of_le_of_ne hN (Ne.symm hN0)
    refine ⟨hNp, ?_⟩
    have e' := Except.ok.inj e
    rw [← e', sum_others dim i hi]
    have h1 : (0 : ℝ) ≤ (dim : ℝ) - 1 := by
      have : (1 : ℝ) < dim := by exact_mod_cast hdim
      linarith
    have h2 : (0 : ℝ) ≤ |x / N| * margin := mul_nonneg (abs_nonneg _) hmar
    show (((dim : ℝ) - 1) * (|x / N| * margin) ^ q) ^ (1 / q) = _
    rw [Real.mul_rpow h1 (Real.rpow_nonneg h2 _), ← Real.rpow_mul h2, mul_one_div_cancel hq.ne', Real.rpow_one, abs_div,
      abs_of_pos hNp, mul_assoc]

/-- **C164 (what is computed)** Expanding a node of the search, with a margin that is not negative and at least two features:
every node this adds drops one feature of the dataset on top of those dropped before, and the margin it predicts is the share
of the *dropped* weight in the norm, times `(dim - 1)^(1/q)`, times the margin. -/
theorem C164_value_partial (c : Cfg ℝ) (srt : List (ℝ × Int) → List (ℝ × Int)) (sample : Tbl ℝ) (w : List ℝ) (margin : ℝ)
    (ofnames : List Int) (first : Bool) (st st' : Srch ℝ) (hsrt : SortsByWeight srt) (hq : 0 < c.q) (hmar : 0 ≤ margin)
    (hdim : 1 < sample.dim)
    (e : expand realLibm c srt sample w margin ofnames.length ofnames first st = .ok st') :
    ∀ (r : Nat) (nd : Node _), st.mem.length ≤ r → st'.mem[r]? = some (some nd) →
      ∃ (i : Nat) (x : ℝ), w[i]? = some x ∧ i < sample.dim ∧ Drops nd sample ofnames i ∧ 0 < qNorm c.q w ∧
        nd.value = ((sample.dim : ℝ) - 1) ^ (1 / c.q) * (|x| / qNorm c.q w) * margin := by
  intro r nd hr hnd
  obtain ⟨i, x, f, h1, h2, h3, h4, h5⟩ := expand_made (V := fun x v => 0 < qNorm c.q w ∧
      v = ((sample.dim : ℝ) - 1) ^ (1 / c.q) * (|x| / qNorm c.q w) * margin) e (fun l => (hsrt l).1) rfl
    (fun i x v hi hp => projMargin_real hq hi hdim (qNorm_nonneg _ _) hmar hp) r nd hr hnd
  exact ⟨i, x, h1, h3, ⟨f, h2, by rw [h4]; exact sortDesc_perm _⟩, h5.1, h5.2⟩

private theorem drops_unique {nd : Node ℝ} {sample : Tbl ℝ} {old : List Int} {i j : Nat} (hn : sample.fnames.Nodup)
    (h1 : Drops nd sample old i) (h2 : Drops nd sample old j) : i = j := by
  obtain ⟨f, hf, p1⟩ := h1
  obtain ⟨g, hg, p2⟩ := h2
  have hp := (List.perm_append_left_iff old).1 (p1.symm.trans p2)
  have hfg : f = g := by simpa using hp
  subst hfg
  have hi := (List.getElem?_eq_some_iff.1 hf).1
  exact (List.getElem?_inj hi hn).1 (hf.trans hg.symm)

private theorem sum_eraseIdx (w : List ℝ) (f : ℝ → ℝ) (i : Nat) (x : ℝ) (hx : w[i]? = some x) :
    (w.map f).sum = f x + ((w.eraseIdx i).map f).sum := by
  obtain ⟨hi, rfl⟩ := List.getElem?_eq_some_iff.1 hx
  have := ((List.getElem_cons_eraseIdx_perm hi).map f).sum_eq
  rw [← this]; simp

private theorem powers_nonneg (q : ℝ) (w : List ℝ) : 0 ≤ (w.map (fun x => |x| ^ q)).sum := by
  apply List.sum_nonneg
  intro x hx
  obtain ⟨y, _, rfl⟩ := List.mem_map.1 hx
  exact Real.rpow_nonneg (abs_nonneg _) _

/-- **C164 is false, and the order is turned round:** of two features with different weights, the search predicts the larger
margin for dropping the one with the larger weight, while the margin that remains is smaller there. -/
theorem C164_order_refuted (c : Cfg ℝ) (srt : List (ℝ × Int) → List (ℝ × Int)) (sample : Tbl ℝ) (w : List ℝ) (margin : ℝ)
    (ofnames : List Int) (first : Bool) (st st' : Srch ℝ) (hsrt : SortsByWeight srt) (hq : 0 < c.q) (hmar : 0 < margin)
    (hdim : 1 < sample.dim) (hn : sample.fnames.Nodup)
    (e : expand realLibm c srt sample w margin ofnames.length ofnames first st = .ok st')
    (r s : Nat) (nd nd' : Node ℝ) (hr : st.mem.length ≤ r) (hs : st.mem.length ≤ s) (hnd : st'.mem[r]? = some (some nd))
    (hnd' : st'.mem[s]? = some (some nd')) (i j : Nat) (x y : ℝ) (hi : Drops nd sample ofnames i) (hj : Drops nd' sample ofnames j)
    (hx : w[i]? = some x) (hy : w[j]? = some y) (hxy : |x| < |y|) :
    nd.value < nd'.value ∧ marginWithout c.q w j margin < marginWithout c.q w i margin := by
  obtain ⟨i', x', hx', _, hi', hN, hv⟩ := C164_value_partial c srt sample w margin ofnames first st st' hsrt hq hmar.le hdim e r nd hr hnd
  obtain ⟨j', y', hy', _, hj', _, hv'⟩ := C164_value_partial c srt sample w margin ofnames first st st' hsrt hq hmar.le hdim e s nd' hs hnd'
  obtain rfl := drops_unique hn hi hi'
  obtain rfl := drops_unique hn hj hj'
  rw [hx] at hx'
  rw [hy] at hy'
  cases hx'
  cases hy'
  have h1 : (0 : ℝ) < ((sample.dim : ℝ) - 1) ^ (1 / c.q) := by
    apply Real.rpow_pos_of_pos
    have : (1 : ℝ) < sample.dim := by exact_mod_cast hdim
    linarith
  constructor
  · rw [hv, hv']
    exact mul_lt_mul_of_pos_right (mul_lt_mul_of_pos_left (div_lt_div_of_pos_right hxy hN) h1) hmar
  · unfold marginWithout
    refine mul_lt_mul_of_pos_right (div_lt_div_of_pos_right ?_ hN) hmar
    unfold qNorm
    refine Real.rpow_lt_rpow (powers_nonneg _ _) ?_ (by positivity)
    have h2 := sum_eraseIdx w (fun x => |x| ^ c.q) i x hx
    have h3 := sum_eraseIdx w (fun x => |x| ^ c.q) j y hy
    have h4 : |x| ^ c.q < |y| ^ c.q := Real.rpow_lt_rpow (abs_nonneg _) hxy hq
    linarith

/-- **C164 (where it holds)** When all weights have the same absolute value, the predicted margin is the margin that remains. -/
theorem C164_equal_weights_partial (c : Cfg ℝ) (srt : List (ℝ × Int) → List (ℝ × Int)) (sample : Tbl ℝ) (w : List ℝ) (margin : ℝ)
    (ofnames : List Int) (first : Bool) (st st' : Srch ℝ) (hsrt : SortsByWeight srt) (hq : 0 < c.q) (hmar : 0 ≤ margin)
    (hdim : 1 < sample.dim) (hw : w.length = sample.dim) (a : ℝ) (ha : ∀ x ∈ w, |x| = a)
    (e : expand realLibm c srt sample w margin ofnames.length ofnames first st = .ok st')
    (r : Nat) (nd : Node ℝ) (hr : st.mem.length ≤ r) (hnd : st'.mem[r]? = some (some nd)) :
    ∃ i, Drops nd sample ofnames i ∧ nd.value = marginWithout c.q w i margin := by
  obtain ⟨i, x, hx, hid, hi, hN, hv⟩ := C164_value_partial c srt sample w margin ofnames first st st' hsrt hq hmar hdim e r nd hr hnd
  refine ⟨i, hi, ?_⟩
  have hxa : |x| = a := ha x (List.mem_of_getElem? hx)
  have ha0 : 0 ≤ a := hxa ▸ abs_nonneg x
  have h1 : (0 : ℝ) ≤ (sample.dim : ℝ) - 1 := by
    have : (1 : ℝ) < sample.dim := by exact_mod_cast hdim
    linarith
  have h2 : ((w.eraseIdx i).map (fun x => |x| ^ c.q)).sum = ((sample.dim : ℝ) - 1) * a ^ c.q := by
    have : (w.eraseIdx i).map (fun x => |x| ^ c.q) = List.replicate (sample.dim - 1) (a ^ c.q) := by
      rw [List.eq_replicate_iff]
      refine ⟨by simp [List.length_eraseIdx, hw, hid], ?_⟩
      intro b hb
      obtain ⟨y, hy, rfl⟩ := List.mem_map.1 hb
      rw [ha y (List.mem_of_mem_eraseIdx hy)]
    rw [this, List.sum_replicate, nsmul_eq_mul, Nat.cast_sub hdim.le, Nat.cast_one]
  rw [hv]
  unfold marginWithout
  congr 1
  rw [show qNorm c.q (w.eraseIdx i) = (((sample.dim : ℝ) - 1) * a ^ c.q) ^ (1 / c.q) by rw [← h2]; rfl,
    Real.mul_rpow h1 (Real.rpow_nonneg ha0 _), ← Real.rpow_mul ha0, mul_one_div_cancel hq.ne', Real.rpow_one, hxa]
  ring

/-! ## A case -/

/-- Sorting real weights. -/
noncomputable def byRealWeight (l : List (ℝ × Int)) : List (ℝ × Int) :=
  open Classical in l.insertionSort (fun a b => |a.1| ≥ |b.1|)

theorem byRealWeight_sorts : SortsByWeight byRealWeight := by
  intro l
  haveI : Std.Total (fun a b : ℝ × Int => |a.1| ≥ |b.1|) := ⟨fun a b => le_total _ _⟩
  haveI : IsTrans (ℝ × Int) (fun a b => |a.1| ≥ |b.1|) := ⟨fun a b c h1 h2 => le_trans h2 h1⟩
  classical
  exact ⟨List.perm_insertionSort _ l, List.pairwise_insertionSort _ l⟩

/-- A search with breadth 2. -/
noncomputable def twoWide : Cfg ℝ := ⟨2, 1, 0, 1, 1, 10, 7, 5⟩

/-- Two features. -/
def twoColumns : Tbl ℝ := ⟨[[1, 2], [3, 4]], [1, 2], 2⟩

/-- Nothing searched yet. -/
def fresh : Srch ℝ := ⟨[], [], Heap.new, Hash.new 7 5, 0, ⟨[], [], 0⟩, 0⟩

/-- The weights 4 and 3: the search predicts 4/7 without the first feature, and 3/7 without the second. -/
theorem expand_two : ∃ st', expand realLibm twoWide byRealWeight twoColumns [4, 3] 1 0 [] false fresh = .ok st' ∧
    st'.mem = [some ⟨[1], 1, 4 / 7, 4 / 7, -1⟩, some ⟨[2], 1, 3 / 7, 3 / 7, -1⟩] := by
  have hs : byRealWeight [(4, 1), (3, 2)] = [(4, 1), (3, 2)] := by
    unfold byRealWeight
    simp [List.insertionSort, List.orderedInsert]
    norm_num
  have hw : weightsOf twoColumns [4, 3] = .ok [(4, 1), (3, 2)] := rfl
  have hN : normQ realLibm twoWide.q [4, 3] = 7 := by
    simp [normQ, realLibm, twoWide]
    norm_num
  have h0 : projMargin realLibm twoWide.q 2 0 4 7 1 = .ok (4 / 7) := by
    simp [projMargin, realLibm, twoWide, List.range_succ]
    norm_num
  have h1 : projMargin realLibm twoWide.q 2 1 3 7 1 = .ok (3 / 7) := by
    simp [projMargin, realLibm, twoWide, List.range_succ]
    norm_num
  have b0 : branch realLibm twoWide 2 0 [] [(4, 1), (3, 2)] 7 1 fresh 0 = .ok ⟨[some ⟨[1], 1, 4 / 7, 4 / 7, -1⟩], [[]],
      ⟨upd (fun _ => none) 1 (some 0), 1⟩, ⟨[[], [0], [], [], [], [], []], 5⟩, 0, ⟨[], [], 0⟩, 0⟩ := by
    unfold branch
    simp only [vget, List.getElem?_cons_zero, MLTK.Data.Res_bind_ok, h0]
    rfl
  have b1 : branch realLibm twoWide 2 0 [] [(4, 1), (3, 2)] 7 1 ⟨[some ⟨[1], 1, 4 / 7, 4 / 7, -1⟩], [[]],
      ⟨upd (fun _ => none) 1 (some 0), 1⟩, ⟨[[], [0], [], [], [], [], []], 5⟩, 0, ⟨[], [], 0⟩, 0⟩ 1 =
      .ok ⟨[some ⟨[1], 1, 4 / 7, 4 / 7, -1⟩, some ⟨[2], 1, 3 / 7, 3 / 7, -1⟩], [[], []],
      ⟨upd (fun _ => none) 1 (some 0), 1⟩, ⟨[[], [0], [], [], [1], [], []], 5⟩, 0, ⟨[], [], 0⟩, 0⟩ := by
    have hc : (1 : Nat) ≠ 0 ∧ (3 / 7 : ℝ) < (19 / 20) * twoWide.gMargin := by
      refine ⟨by decide, ?_⟩
      show (3 / 7 : ℝ) < (19 / 20) * 1
      norm_num
    have hadd : add [some ⟨[1], 1, 4 / 7, 4 / 7, -1⟩, some (⟨[2], 1, 3 / 7, 3 / 7, -1⟩ : Node ℝ)] ⟨[[], [0], [], [], [], [], []], 5⟩ 1 =
      .ok ([some ⟨[1], 1, 4 / 7, 4 / 7, -1⟩, some (⟨[2], 1, 3 / 7, 3 / 7, -1⟩ : Node ℝ)], ⟨[[], [0], [], [], [1], [], []], 5⟩, true) := rfl
    unfold branch
    simp only [vget, List.getElem?_cons_succ, List.getElem?_cons_zero, MLTK.Data.Res_bind_ok, h1, List.range_zero, List.mapM_nil,
      MLTK.Data.Res_pure, List.nil_append, List.length_cons, List.length_nil, List.cons_append, sortDesc, List.insertionSort,
      List.orderedInsert, List.foldr_cons, List.foldr_nil, Nat.zero_add, hadd, if_pos hc]
  refine ⟨⟨[some ⟨[1], 1, 4 / 7, 4 / 7, -1⟩, some ⟨[2], 1, 3 / 7, 3 / 7, -1⟩], [[], []],
      ⟨upd (fun _ => none) 1 (some 0), 1⟩, ⟨[[], [0], [], [], [1], [], []], 5⟩, 0, ⟨[], [], 0⟩, 0⟩, ?_, rfl⟩
  unfold expand
  rw [hw, hN]
  simp only [closeLevel, Bool.false_eq_true, if_false, MLTK.Data.Res_pure, MLTK.Data.Res_bind_ok, hs]
  show ((List.range 2).foldlM (branch realLibm twoWide 2 0 [] [(4, 1), (3, 2)] 7 1) fresh) = _
  rw [show List.range 2 = [0, 1] from rfl, List.foldlM_cons, b0, MLTK.Data.Res_bind_ok, List.foldlM_cons, b1]
  rfl

example : ∃ st', expand realLibm twoWide byRealWeight twoColumns [4, 3] 1 0 [] false fresh = .ok st' ∧
    ∃ nd nd' : Node ℝ, st'.mem[0]? = some (some nd) ∧ st'.mem[1]? = some (some nd') ∧ nd'.value < nd.value ∧
      marginWithout 1 [4, 3] 0 1 < marginWithout 1 [4, 3] 1 1 := by
  obtain ⟨st', e, hm⟩ := expand_two
  have g0 : st'.mem[0]? = some (some ⟨[1], 1, 4 / 7, 4 / 7, -1⟩) := by rw [hm]; rfl
  have g1 : st'.mem[1]? = some (some ⟨[2], 1, 3 / 7, 3 / 7, -1⟩) := by rw [hm]; rfl
  have := C164_order_refuted twoWide byRealWeight twoColumns [4, 3] 1 [] false fresh st' byRealWeight_sorts (by simp [twoWide])
    (by norm_num) (by decide) (by decide) e 1 0 _ _ (Nat.zero_le _) (Nat.zero_le _) g1 g0 1 0 3 4 ⟨2, rfl, by simp⟩ ⟨1, rfl, by simp⟩ rfl rfl
    (by norm_num)
  exact ⟨st', e, _, _, g0, g1, this.1, this.2⟩

end MLTK.Props
