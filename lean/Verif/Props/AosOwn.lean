import Verif.Lemmas.AosOwn
import Verif.Props.AosRun
/-!
# C200: the memory of an admissible ordered search
-/
namespace MLTK.Props
open MLTK.Aos
open MLTK.Feat (Tbl)
open MLTK.Perc (Libm)
open MLTK.Spec
open MLTK.Data (Res_bind_ok Res_bind_error Res_pure)

section
variable {K : Type} [Field K] [LinearOrder K]

omit [Field K] [LinearOrder K] in
private theorem start_q {hlen hwidth lool : Nat} {samples : Tbl K} :
    QInv (⟨[], [], Heap.new, Hash.new hlen hwidth, lool, samples, 0⟩ : Srch K) :=
  ⟨rfl, by
    intro q hq
    obtain ⟨i, h1, h2, _⟩ := mem_cont.1 hq
    have h2 : i ≤ 0 := h2
    omega, by
    show (cont _ 1 0).Nodup
    rw [cont_empty _ 1 0 (by omega)]
    exact Multiset.nodup_zero, by
    intro b hb q hq
    rw [List.eq_of_mem_replicate hb] at hq
    simp at hq, by
    intro p nd hp
    simp at hp⟩

/-- The search with the state at its end is the search. -/
private theorem end_select {lm : Libm K} {c : Cfg K} {srt : List (K × Int) → List (K × Int)}
    {learn : Nat → Tbl K → Bool × List K × K} {samples : Tbl K} : ∀ {n : Nat} {f : Bool} {st : Srch K} {d : Tbl K} {l : Nat},
    searchLoop lm c srt learn samples n f st = .ok (d, l) →
    ∃ st', searchEnd lm c srt learn samples n f st = .ok (d, st') ∧ st'.lool = l := by
  intro n
  induction n with
  | zero => intro f st d l e; cases e
  | succ n ih =>
    intro f st d l e
    rw [searchLoop] at e
    rw [searchEnd]
    split at e
    · rename_i hs
      rw [if_pos hs]
      split at e
      · rename_i hf
        rw [if_pos hf]
        cases e
        exact ⟨st, rfl, rfl⟩
      · rename_i hf
        rw [if_neg hf]
        obtain ⟨s1, h1, e⟩ := bind_inv e
        rw [h1, Res_bind_ok]
        split at e
        · rename_i h0
          rw [if_pos h0]
          cases e
          exact ⟨s1, rfl, rfl⟩
        · rename_i h0
          rw [if_neg h0]
          exact ih e
    · rename_i hs
      rw [if_neg hs]
      obtain ⟨nd, hnd, e⟩ := bind_inv e
      obtain ⟨⟨dd, b⟩, hrem, e⟩ := bind_inv e
      simp only at e
      rw [hnd, Res_bind_ok, hrem, Res_bind_ok]
      simp only
      split at e
      · rename_i hst
        rw [if_pos hst]
        cases e
        exact ⟨st, rfl, rfl⟩
      · rename_i hst
        rw [if_neg hst]
        obtain ⟨s1, h1, e⟩ := bind_inv e
        rw [h1, Res_bind_ok]
        exact ih e

omit [Field K] [LinearOrder K] in
/-- **C200** Destroying a queue of distinct live nodes deletes exactly those. -/
theorem C200_destroy (m : Nodes K) (h : Heap) (hq : LiveQueue m h) :
    ∃ m', destroy m h = .ok m' ∧ m'.length = m.length ∧ (∀ p, some p ∈ queueContents h → m'[p]? = some none) ∧
      (∀ p, some p ∉ queueContents h → m'[p]? = m[p]?) := by
  obtain ⟨m', e, r1, r2, r3⟩ := freeFrom_ok h.elements h.size 1 m
    (fun j h1 h2 => hq.1 _ (mem_cont.2 ⟨j, h1, by omega, rfl⟩))
    (fun j k h1 h2 h3 h4 h5 => cont_inj hq.2 j k h1 (by omega) h3 (by omega) h5)
  refine ⟨m', e, r1, ?_, ?_⟩
  · intro p hp
    obtain ⟨j, h1, h2, h3⟩ := mem_cont.1 hp
    exact r2 j h1 (by omega) p h3
  · intro p hp
    exact r3 p (fun j h1 h2 h3 => hp (mem_cont.2 ⟨j, h1, by omega, h3⟩))

/-- A queue with two nodes among three. -/
example : destroy ([some ⟨[1], 1, 5, 5, -1⟩, some ⟨[2], 1, 4, 4, -1⟩, some ⟨[3], 1, 3, 3, -1⟩] : Nodes Int)
    { elements := fun i => if i = 1 then some 2 else if i = 2 then some 0 else none, size := 2 } =
    .ok [none, some ⟨[2], 1, 4, 4, -1⟩, none] := rfl

/-- **C200 (partial)** Whatever the settings, the classifier and the fill of the queue: after a search that ends, destroying the object
deletes no node twice and reads no deleted one.
Missing: that all nodes are deleted, see `C200_leak_refuted`. -/
theorem C200_no_double_delete_partial (lm : Libm K) (breadth finalDim cut : Nat) (gMargin q : K) (cap hlen hwidth : Nat)
    (srt : List (K × Int) → List (K × Int)) (learn : Nat → Tbl K → Bool × List K × K) (samples : Tbl K) (lool n : Nat)
    (d : Tbl K) (l : Nat)
    (e : aosSelect lm breadth finalDim cut gMargin q cap hlen hwidth srt learn samples lool n = .ok (d, l)) :
    ∃ m m', selectAndDestroy lm breadth finalDim cut gMargin q cap hlen hwidth srt learn samples lool n = .ok (d, l, m, m') ∧
      m'.length = m.length ∧ ∀ p, LiveNode m' p → m'[p]? = m[p]? := by
  obtain ⟨st, h1, h2⟩ := end_select e
  obtain ⟨r1, _⟩ := searchEnd_o (l0 := lool) h1 start_q (fun L h1 h2 => by
    have h2 : L ≤ lool := h2
    omega)
  obtain ⟨m', e', h3, h4, h5⟩ := C200_destroy st.mem st.heap ⟨r1.live, r1.nodup⟩
  refine ⟨st.mem, m', ?_, h3, ?_⟩
  · rw [selectAndDestroy, h1, Res_bind_ok]
    simp only
    rw [e', Res_bind_ok, h2]
    rfl
  · rintro p ⟨nd, hnd⟩
    apply h5
    intro hin
    rw [h4 p hin] at hnd
    cases hnd

/-- **C200 (refuted)** Of every level a search reaches, a node is never deleted: a new object that has removed `l` features leaves at least
`l` nodes behind when it is destroyed. -/
theorem C200_leak_refuted (lm : Libm K) (breadth finalDim cut : Nat) (gMargin q : K) (cap hlen hwidth : Nat)
    (srt : List (K × Int) → List (K × Int)) (learn : Nat → Tbl K → Bool × List K × K) (samples : Tbl K) (n : Nat)
    (d : Tbl K) (l : Nat)
    (e : aosSelect lm breadth finalDim cut gMargin q cap hlen hwidth srt learn samples 0 n = .ok (d, l)) :
    ∃ m m', selectAndDestroy lm breadth finalDim cut gMargin q cap hlen hwidth srt learn samples 0 n = .ok (d, l, m, m') ∧
      ∀ L, 1 ≤ L → L ≤ l → ∃ (p : Nat) (nd : Node K), m'[p]? = some (some nd) ∧ nd.level = L := by
  obtain ⟨st, h1, h2⟩ := end_select e
  obtain ⟨r1, r2⟩ := searchEnd_o (l0 := 0) h1 start_q (fun L h1 h2 => by
    have h2 : L ≤ 0 := h2
    omega)
  obtain ⟨m', e', h3, h4, h5⟩ := C200_destroy st.mem st.heap ⟨r1.live, r1.nodup⟩
  refine ⟨st.mem, m', ?_, ?_⟩
  · rw [selectAndDestroy, h1, Res_bind_ok]
    simp only
    rw [e', Res_bind_ok, h2]
    rfl
  · intro L hL1 hL2
    obtain ⟨p, nd, g1, g2, g3⟩ := r2 L (by omega) (by omega)
    exact ⟨p, nd, by rw [h5 p g3]; exact g1, g2⟩

end

/-- Three features, one requested: two levels, and a node of each is left. -/
example := C200_leak_refuted squareLibm 1 1 0 0 2 100 7 5 byWeight (learn3412 1) threeFeatures 20 _ _ search_one

example : (selectAndDestroy squareLibm 1 1 0 0 2 100 7 5 byWeight (learn3412 1) threeFeatures 0 20).map
    (fun r => (r.2.1, r.2.2.2.map Option.isSome)) = .ok (2, [true, true, true]) := by decide +kernel

end MLTK.Props
