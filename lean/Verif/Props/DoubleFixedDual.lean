import Verif.Model.DoubleFixedDual
import Verif.Props.DoubleDual
import Verif.Lemmas.DoubleSum
/-!
# C244: the dual fixed-margin perceptron in `double` arithmetic
-/
namespace MLTK.Spec
open MLTK.Fp MLTK.Perc

/-- A classifier as constructed, on samples whose points hold zero `Alpha` values. -/
def freshDual (n : Nat) (index : List Nat) : GState Dbl :=
  ⟨List.replicate n (.fin 0), [], .fin 0, .fin 0, index, 0, 0, 0⟩

/-- A square root to about 52 binary places, for witnesses. -/
def rootD : Dbl → Dbl
  | .fin q => if q < 0 then .nan else rnd ((Nat.sqrt ⌊q * 4 ^ 80⌋.toNat : ℚ) / 2 ^ 80)
  | .inf false => .inf false
  | _ => .nan

end MLTK.Spec

namespace MLTK.Props
open MLTK.Spec MLTK.Fp
open MLTK.Perc (Sample GState FCfg epochs)

section
attribute [local irreducible] Fp.rnd Fp.near Fp.huge Fp.two

variable (sqrt : Dbl → Dbl)

theorem gScan_clean (c : FCfg Dbl) (kv : ℕ → ℕ → Dbl) (samples : List (Sample Dbl)) (l : List ℕ)
    (s s' : GState Dbl) (e : ℕ) (h : Fp.gScanD sqrt c kv samples l s e = (s', 0)) :
    e = 0 ∧ s' = s ∧ ∀ i ∈ l, (((samples.getD (s.index.getD i 0) ⟨[], .fin 0⟩).y.mul
      (s.func.getD (s.index.getD i 0) (.fin 0))).sub (c.gamma.mul s.norm)).le (.fin 0) = false := by
  have hmono : ∀ (l : List ℕ) (s : GState Dbl) (e : ℕ), e ≤ (Fp.gScanD sqrt c kv samples l s e).2 := by
    intro l
    induction l with
    | nil => intro s e; simp [Fp.gScanD]
    | cons i l ih =>
      intro s e
      simp only [Fp.gScanD]
      split
      · exact le_trans (Nat.le_succ e) (ih _ _)
      · split
        · exact le_refl _
        · exact ih _ _
  induction l generalizing s e with
  | nil => simp [Fp.gScanD] at h; exact ⟨h.2, h.1.symm, by simp⟩
  | cons i l ih =>
    simp only [Fp.gScanD] at h
    split at h
    · have := hmono l (Fp.gUpdateD sqrt c kv (samples.getD (s.index.getD i 0) ⟨[], .fin 0⟩) i (s.index.getD i 0) e s) (e + 1)
      rw [h] at this; simp at this
    · rename_i hle
      split at h
      · rename_i h2
        simp only [Prod.mk.injEq] at h
        omega
      · obtain ⟨a, b, d⟩ := ih _ _ h
        refine ⟨a, b, ?_⟩
        intro k hk
        rcases List.mem_cons.mp hk with rfl | hk
        · simpa using hle
        · exact d k hk

theorem gScan_keeps (c : FCfg Dbl) (kv : ℕ → ℕ → Dbl) (samples : List (Sample Dbl)) (P : GState Dbl → Prop)
    (hP : ∀ (s : GState Dbl) (i idx e : ℕ), idx < samples.length → P s →
      P (Fp.gUpdateD sqrt c kv (samples.getD idx ⟨[], .fin 0⟩) i idx e s)) :
    ∀ (n i : ℕ) (s : GState Dbl) (e : ℕ), P s → e ≤ i → i + n ≤ samples.length → s.index.Perm (List.range samples.length) →
      P (Fp.gScanD sqrt c kv samples (List.range' i n) s e).1 ∧
      (Fp.gScanD sqrt c kv samples (List.range' i n) s e).1.index.Perm (List.range samples.length) := by
  intro n
  induction n with
  | zero => intro i s e h _ _ hp; simp [Fp.gScanD, h, hp]
  | succ n ih =>
    intro i s e h he hi hp
    have hlen : s.index.length = samples.length := by rw [hp.length_eq]; simp
    have hidx : s.index.getD i 0 < samples.length := by
      rw [Perc.getD_lt _ _ _ (by omega)]
      simpa using hp.mem_iff.1 (List.getElem_mem (by omega : i < s.index.length))
    rw [List.range'_succ]
    simp only [Fp.gScanD]
    split
    · have hperm : (Fp.gUpdateD sqrt c kv (samples.getD (s.index.getD i 0) ⟨[], .fin 0⟩) i (s.index.getD i 0) e s).index.Perm s.index := by
        simp only [Fp.gUpdateD]
        exact Perc.swap_perm _ _ _ (by split <;> omega) (by omega)
      exact ih (i+1) _ (e+1) (hP s i _ e hidx h) (by omega) (by omega) (hperm.trans hp)
    · split
      · exact ⟨h, hp⟩
      · exact ih (i+1) s e h (by omega) (by omega) hp

/-- A successful training ends with a pass without mistakes, in a state with every kept property. -/
theorem g_success (c : FCfg Dbl) (clock : ℕ → Bool) (k : List Dbl → List Dbl → Dbl) (dim : ℕ) (samples : List (Sample Dbl))
    (s0 s : GState Dbl) (P : GState Dbl → Prop)
    (hP : ∀ (s : GState Dbl) (i idx e : ℕ), idx < samples.length → P s →
      P (Fp.gUpdateD sqrt c (Fp.matrix k samples) (samples.getD idx ⟨[], .fin 0⟩) i idx e s))
    (hsteps : ∀ (s : GState Dbl) (n : ℕ), P s → P { s with steps := n })
    (h0 : P { s0 with func := if s0.func = [] then List.replicate samples.length (.fin 0) else s0.func, s := 0 })
    (hperm : s0.index.Perm (List.range samples.length))
    (h : Fp.gTrainD sqrt c clock k dim samples s0 = .ok (true, s)) :
    P s ∧ s.index.Perm (List.range samples.length) ∧
    ∀ i (hi : i < samples.length), ((samples[i].y.mul (s.func.getD i (.fin 0))).sub (c.gamma.mul s.norm)).le (.fin 0) = false := by
  unfold Fp.gTrainD at h
  generalize (if s0.func = [] then List.replicate samples.length (Dbl.fin 0) else s0.func) = fn at h h0
  dsimp only at h
  split_ifs at h with hok
  by_cases hc : clock 0 = true
  · have hpass : ∀ t : GState Dbl, P t ∧ t.index.Perm (List.range samples.length) →
        P (Fp.gPassD sqrt c (Fp.matrix k samples) samples t).1 ∧
        (Fp.gPassD sqrt c (Fp.matrix k samples) samples t).1.index.Perm (List.range samples.length) := by
      intro t ht
      have := gScan_keeps sqrt c (Fp.matrix k samples) samples P hP samples.length 0 t 0 ht.1 (le_refl _) (by simp) ht.2
      rw [← List.range_eq_range'] at this
      simp only [Fp.gPassD]
      exact ⟨hsteps _ _ this.1, this.2⟩
    obtain ⟨s1, hP1, hs1⟩ := Perc.epochs_last (Fp.gPassD sqrt c (Fp.matrix k samples) samples)
      (fun s => s.steps > c.maxIt ∨ s.ctot > c.maxUp) clock
      (fun t => P t ∧ t.index.Perm (List.range samples.length)) (fun t ht _ => hpass t ht) (c.maxIt + 1 - s0.steps) 0
      { s0 with func := fn, s := 0 } 1 ⟨h0, hperm⟩ hc
    rw [hs1] at h
    simp only [Except.ok.injEq, Prod.mk.injEq, decide_eq_true_eq] at h
    obtain ⟨he, hs⟩ := h
    refine ⟨by rw [← hs]; exact (hpass s1 hP1).1, by rw [← hs]; exact (hpass s1 hP1).2, ?_⟩
    simp only [Fp.gPassD] at he hs
    obtain ⟨-, h2, h3⟩ := gScan_clean sqrt c (Fp.matrix k samples) samples (List.range samples.length) s1
      (Fp.gScanD sqrt c (Fp.matrix k samples) samples (List.range samples.length) s1 0).1 0 (Prod.ext rfl he)
    rw [h2] at hs
    rw [← hs]
    intro i hi
    have hmem : i ∈ s1.index := hP1.2.mem_iff.mpr (by simpa using hi)
    obtain ⟨j, hj, hji⟩ := List.mem_iff_getElem.mp hmem
    have hj' : j < samples.length := by rw [hP1.2.length_eq] at hj; simpa using hj
    have := h3 j (by simpa using hj')
    rw [Perc.getD_lt _ _ _ hj, hji, Perc.getD_lt samples _ _ hi] at this
    exact this
  · rw [epochs] at h
    simp [hc] at h

/-! ### Whole numbers -/

/-- The trainer's numbers as counts of updates, scaled by the rate. -/
structure GInv (samples : List (Sample ℤ)) (dim k : ℕ) (A : List ℕ) (B : ℤ) (s : GState Dbl) : Prop where
  len : A.length = samples.length
  sa : s.alphas = A.map (fun a : ℕ => .fin ((a : ℚ) * (1 / 2) ^ k))
  sb : s.bias = .fin ((B : ℚ) * (1 / 2) ^ k)
  fn : s.func = (List.range samples.length).map (fun r =>
    .fin ((intDual samples.length A (fun j => (samples.getD j ⟨[], 0⟩).y) (intGram dim samples r) B : ℚ) * (1 / 2) ^ k))
  sum : A.sum = s.ctot
  bB : |B| ≤ s.ctot

theorem intDual_bump (n : ℕ) (A : List ℕ) (ys ks : ℕ → ℤ) (B b : ℤ) {i : ℕ} (hi : i < n) (hA : n ≤ A.length) :
    intDual n (A.set i (A.getD i 0 + 1)) ys ks (B + b) = intDual n A ys ks B + b + ys i * ks i := by
  have key : ∀ m, m ≤ n → intDual m (A.set i (A.getD i 0 + 1)) ys ks (B + b) =
      intDual m A ys ks B + b + (if i < m then ys i * ks i else 0) := by
    intro m
    induction m with
    | zero => intro _; simp [intDual]
    | succ m ih =>
      intro hm
      rw [intDual_succ, intDual_succ, ih (by omega)]
      by_cases him : i = m
      · subst him
        rw [Perc.getD_lt (A.set i _) _ _ (by simp; omega)]
        simp only [List.getElem_set_self]
        rw [if_neg (by omega), if_pos (by omega)]
        push_cast; ring
      · have e : (A.set i (A.getD i 0 + 1)).getD m 0 = A.getD m 0 := by
          simp only [List.getD_eq_getElem?_getD, List.getElem?_set_ne him]
        rw [e]
        by_cases h2 : i < m
        · rw [if_pos h2, if_pos (by omega)]; ring
        · rw [if_neg h2, if_neg (by omega)]; ring
  rw [key n (le_refl _), if_pos hi]

variable {samples : List (Sample ℤ)} {dim X k : ℕ}

theorem GInv.bound {A : List ℕ} {B : ℤ} {s : GState Dbl} (h : GInv samples dim k A B s)
    (hl : ∀ p ∈ samples, p.y = 1 ∨ p.y = -1) (hx : ∀ p ∈ samples, ∀ a ∈ p.x, |a| ≤ X) (hc : s.ctot * (1 + dim * X ^ 2) ≤ 2 ^ 53)
    {r : ℕ} (hr : r < samples.length) :
    |intDual samples.length A (fun j => (samples.getD j ⟨[], 0⟩).y) (intGram dim samples r) B| ≤ 2 ^ 53 := by
  refine le_trans (intDual_bound (M := dim * X ^ 2) ?_ (fun j hj => gram_bound hx hr hj)) ?_
  · intro j hj
    rw [Perc.getD_lt _ _ _ hj]
    rcases hl _ (List.getElem_mem hj) with e | e <;> rw [e] <;> simp
  · have h1 := sum_take_le A samples.length
    rw [h.sum] at h1
    have h2 : ((A.take samples.length).sum : ℤ) * ((dim * X ^ 2 : ℕ) : ℤ) ≤ s.ctot * ((dim * X ^ 2 : ℕ) : ℤ) :=
      mul_le_mul_of_nonneg_right (by exact_mod_cast h1) (by positivity)
    have h3 : ((s.ctot * (1 + dim * X ^ 2) : ℕ) : ℤ) ≤ 2 ^ 53 := by exact_mod_cast hc
    have h4 := h.bB
    push_cast at h2 h3 ⊢
    linarith

theorem GInv.update {A : List ℕ} {B : ℤ} {s : GState Dbl} (h : GInv samples dim k A B s) (hk : k ≤ 1074) (c : FCfg Dbl)
    (hr : c.rate = .fin ((1 / 2) ^ k)) (hg : c.gamma = .fin 0)
    (hl : ∀ p ∈ samples, p.y = 1 ∨ p.y = -1) (hx : ∀ p ∈ samples, ∀ a ∈ p.x, |a| ≤ X)
    (hc : (s.ctot + 1) * (1 + dim * X ^ 2) ≤ 2 ^ 53) {i : ℕ} (hi : i < samples.length) (pos e : ℕ) :
    GInv samples dim k (A.set i (A.getD i 0 + 1)) (B + samples[i].y)
      (Fp.gUpdateD sqrt c (Fp.matrix (Fp.dot dim) (samples.map Spec.intSample)) ((samples.map Spec.intSample).getD i ⟨[], .fin 0⟩) pos i e s) := by
  have hy := hl _ (List.getElem_mem hi)
  have hyabs : |samples[i].y| = 1 := by rcases hy with e | e <;> rw [e] <;> simp
  have hiA : i < A.length := by rw [h.len]; exact hi
  have hc0 : s.ctot * (1 + dim * X ^ 2) ≤ 2 ^ 53 := le_trans (Nat.mul_le_mul_right _ (Nat.le_succ _)) hc
  have hc1 : s.ctot + 1 ≤ 2 ^ 53 := le_trans (by nlinarith [Nat.zero_le ((s.ctot + 1) * (dim * X ^ 2))]) hc
  have hM : 1 + dim * X ^ 2 ≤ 2 ^ 53 := le_trans (by nlinarith [Nat.zero_le (s.ctot * (1 + dim * X ^ 2))]) hc
  have hd : dim * X ^ 2 ≤ 2 ^ 53 := by omega
  have hp : (samples.map Spec.intSample).getD i ⟨[], .fin 0⟩ = Spec.intSample samples[i] := by
    rw [Perc.getD_lt _ _ _ (by simpa using hi)]; simp
  have h1r : rnd (1 : ℚ) = .fin 1 := by have := rnd_whole (m := 1) (by norm_num); simpa using this
  have h0r : rnd (0 : ℚ) = .fin 0 := by have := rnd_whole (m := 0) (by norm_num); simpa using this
  have hlam : Fp.gLambda c s.norm = .fin 1 := by simp [Fp.gLambda, hg, Dbl.eq]
  have hrate : (Dbl.fin ((1 / 2) ^ k)).mul (.fin (samples[i].y : ℚ)) = .fin ((samples[i].y : ℚ) * (1 / 2) ^ k) := by
    simp only [Dbl.mul]
    rw [mul_comm, rnd_scaled hk (by rw [hyabs]; norm_num)]
  have hbB : |B + samples[i].y| ≤ ((s.ctot + 1 : ℕ) : ℤ) := by
    refine le_trans (abs_add_le _ _) ?_
    rw [hyabs]; push_cast
    linarith [h.bB]
  have hAle : ∀ j, A.getD j 0 ≤ s.ctot := by
    intro j
    have := sum_take_succ A j
    have := sum_take_le A (j + 1)
    have := h.sum
    omega
  have hsame : s.alphas.map (fun a => a.mul (.fin 1)) = s.alphas := by
    rw [h.sa, List.map_map]
    refine List.map_congr_left fun a ha => ?_
    obtain ⟨j, hj, rfl⟩ := List.mem_iff_getElem.1 ha
    have hb : |((A[j] : ℕ) : ℤ)| ≤ 2 ^ 53 := by
      have := hAle j
      rw [Perc.getD_lt _ _ _ hj] at this
      rw [abs_of_nonneg (by positivity)]
      exact_mod_cast this.trans (by omega)
    have := rnd_scaled hk hb
    rw [Int.cast_natCast] at this
    simp only [Function.comp, Dbl.mul, mul_one]
    exact this
  have hfun : ∀ r (hrr : r < samples.length), Fp.gFunc (.fin 1) (.fin ((1 / 2) ^ k)) (.fin (samples[i].y : ℚ))
      (Fp.matrix (Fp.dot dim) (samples.map Spec.intSample) i r) s.bias
      (.fin ((intDual samples.length A (fun j => (samples.getD j ⟨[], 0⟩).y) (intGram dim samples r) B : ℚ) * (1 / 2) ^ k)) =
      .fin ((intDual samples.length (A.set i (A.getD i 0 + 1)) (fun j => (samples.getD j ⟨[], 0⟩).y) (intGram dim samples r)
        (B + samples[i].y) : ℚ) * (1 / 2) ^ k) := by
    intro r hrr
    have hV := h.bound hl hx hc0 hrr
    have hgr := gram_bound (dim := dim) hx hi hrr
    have hcomm : intGram dim samples r i = intGram dim samples i r := by
      unfold intGram intDot
      simp only [mul_comm]
    have hnew : |intDual samples.length (A.set i (A.getD i 0 + 1)) (fun j => (samples.getD j ⟨[], 0⟩).y) (intGram dim samples r)
        (B + samples[i].y)| ≤ 2 ^ 53 := by
      refine le_trans (intDual_bound (M := dim * X ^ 2) ?_ (fun j hj => gram_bound hx hrr hj)) ?_
      · intro j hj
        rw [Perc.getD_lt _ _ _ hj]
        rcases hl _ (List.getElem_mem hj) with e | e <;> rw [e] <;> simp
      · have h1 := sum_take_le (A.set i (A.getD i 0 + 1)) samples.length
        rw [sum_set_succ A hiA, h.sum] at h1
        have h2 : (((A.set i (A.getD i 0 + 1)).take samples.length).sum : ℤ) * ((dim * X ^ 2 : ℕ) : ℤ) ≤
            (s.ctot + 1 : ℕ) * ((dim * X ^ 2 : ℕ) : ℤ) :=
          mul_le_mul_of_nonneg_right (by exact_mod_cast h1) (by positivity)
        have h3 : (((s.ctot + 1) * (1 + dim * X ^ 2) : ℕ) : ℤ) ≤ 2 ^ 53 := by exact_mod_cast hc
        push_cast at h2 h3 hbB ⊢
        linarith
    rw [intDual_bump _ _ _ _ _ _ hi (by rw [h.len]), hcomm] at hnew ⊢
    rw [Perc.getD_lt samples _ _ hi] at hnew ⊢
    set v := intDual samples.length A (fun j => (samples.getD j ⟨[], 0⟩).y) (intGram dim samples r) B with hv
    set g := intGram dim samples i r with hgdef
    have hg1 : |g + 1| ≤ 2 ^ 53 := by
      refine le_trans (abs_add_le _ _) ?_
      have : ((1 + dim * X ^ 2 : ℕ) : ℤ) ≤ 2 ^ 53 := by exact_mod_cast hM
      push_cast at this hgr
      simp only [abs_one]
      linarith
    have hyg : |samples[i].y * (g + 1)| ≤ 2 ^ 53 := by rw [abs_mul, hyabs, one_mul]; exact hg1
    unfold Fp.gFunc
    rw [gram_double hx hd hi hrr, hrate]
    have m1 : (Dbl.fin 1).mul (.fin ((v : ℚ) * (1 / 2) ^ k)) = .fin ((v : ℚ) * (1 / 2) ^ k) := by
      simp only [Dbl.mul, one_mul]; exact rnd_scaled hk hV
    have m2 : (Dbl.fin (g : ℚ)).add (.fin 1) = .fin ((g + 1 : ℤ) : ℚ) := by
      rw [← rnd_whole hg1]; simp only [Dbl.add]; congr 1; push_cast; ring
    have m3 : (Dbl.fin ((samples[i].y : ℚ) * (1 / 2) ^ k)).mul (.fin ((g + 1 : ℤ) : ℚ)) =
        .fin ((samples[i].y * (g + 1) : ℤ) * (1 / 2) ^ k) := by
      rw [← rnd_scaled hk hyg]; simp only [Dbl.mul]; congr 1; push_cast; ring
    have m4 : (Dbl.fin 1).sub (.fin 1) = .fin 0 := by
      simp only [Dbl.sub, Dbl.neg, Dbl.add]; rw [add_neg_cancel, h0r]
    have m5 : s.bias.mul (.fin 0) = .fin 0 := by
      rw [h.sb]; simp only [Dbl.mul, mul_zero, h0r]
    have hsum : |v + samples[i].y * (g + 1)| ≤ 2 ^ 53 := by
      have : v + samples[i].y * (g + 1) = v + samples[i].y + samples[i].y * g := by ring
      rw [this]; exact hnew
    have m6 : (Dbl.fin ((v : ℚ) * (1 / 2) ^ k)).add (.fin ((samples[i].y * (g + 1) : ℤ) * (1 / 2) ^ k)) =
        .fin ((v + samples[i].y * (g + 1) : ℤ) * (1 / 2) ^ k) := by
      rw [← rnd_scaled hk hsum]; simp only [Dbl.add]; congr 1; push_cast; ring
    rw [m1, m2, m3, m4, m5, m6]
    have m7 : (Dbl.fin ((v + samples[i].y * (g + 1) : ℤ) * (1 / 2) ^ k)).add (.fin 0) =
        .fin ((v + samples[i].y * (g + 1) : ℤ) * (1 / 2) ^ k) := by
      simp only [Dbl.add, add_zero]; exact rnd_scaled hk hsum
    rw [m7]
    congr 1; push_cast; ring
  refine ⟨by simp [h.len], ?_, ?_, ?_, ?_, ?_⟩
  · simp only [Fp.gUpdateD, hlam, hsame]
    rw [h.sa, getD_map_nat, List.map_set, hr]
    congr 1
    have hb : |((A.getD i 0 + 1 : ℕ) : ℤ)| ≤ 2 ^ 53 := by
      rw [abs_of_nonneg (by positivity)]
      have := hAle i
      exact_mod_cast (by omega : A.getD i 0 + 1 ≤ 2 ^ 53)
    have := rnd_scaled hk hb
    rw [Int.cast_natCast] at this
    simp only [Dbl.add]
    rw [← this]
    congr 1; push_cast; ring
  · simp only [Fp.gUpdateD, hp, Spec.intSample]
    rw [h.sb, hr, hrate]
    refine Eq.trans ?_ (rnd_scaled hk (hbB.trans (by exact_mod_cast hc1)))
    simp only [Dbl.add]
    congr 1; push_cast; ring
  · simp only [Fp.gUpdateD, hlam, hp, hr, Spec.intSample]
    rw [h.fn]
    apply List.ext_getElem
    · simp
    · intro r h1 h2
      simp only [List.length_mapIdx, List.length_map, List.length_range] at h1
      simp only [List.getElem_mapIdx, List.getElem_map, List.getElem_range]
      exact hfun r h1
  · simp only [Fp.gUpdateD]
    rw [sum_set_succ A hiA, h.sum]
  · simpa [Fp.gUpdateD] using hbB

/-- **C244 (answers)** (partial: see the refutations)  Whole-number samples, the inner product kernel, a rate that is a power of 1/2, no margin asked
for, and few enough updates that every number stays below 2^53.  When `PerceptronFixedMarginDual::train` on a fresh classifier reports success with
a norm that is a number, the value kept for every training sample is the one `evaluate` computes, and `evaluate` answers its label. -/
theorem C244_answers_partial (pow : Dbl → Dbl → Dbl) (exp : Dbl → Dbl) (param : Dbl) (c : FCfg Dbl) (hk : k ≤ 1074)
    (hr : c.rate = .fin ((1 / 2) ^ k)) (hg : c.gamma = .fin 0) (clock : ℕ → Bool)
    (hl : ∀ p ∈ samples, p.y = 1 ∨ p.y = -1) (hx : ∀ p ∈ samples, ∀ a ∈ p.x, |a| ≤ X) (hdim : ∀ p ∈ samples, p.x.length = dim)
    (index : List ℕ) (hperm : index.Perm (List.range samples.length)) (s : GState Dbl)
    (h : Fp.gTrainD sqrt c clock (Fp.kernel pow exp .innerProduct param dim) dim (samples.map Spec.intSample)
      (freshDual samples.length index) = .ok (true, s))
    (hnorm : ∃ n, s.norm = .fin n) (hd : dim * X ^ 2 ≤ 2 ^ 53) (hc : s.ctot * (1 + dim * X ^ 2) ≤ 2 ^ 53) :
    ∀ i (hi : i < samples.length),
      s.func.getD i (.fin 0) = Fp.dualDecision samples.length s.alphas (samples.map Spec.intSample)
        (fun r => Fp.kernel pow exp .innerProduct param dim (Spec.intSample samples[i]).x
          ((samples.map Spec.intSample).getD r ⟨[], .fin 0⟩).x) s.bias ∧
      Fp.dualEvaluate (Fp.kernel pow exp .innerProduct param dim) dim s.alphas (samples.map Spec.intSample) s.bias
        (Spec.intSample samples[i]).x = .ok samples[i].y := by
  have hker : Fp.kernel pow exp .innerProduct param dim = Fp.dot dim := rfl
  rw [hker] at h ⊢
  obtain ⟨hP, -, hclean⟩ := g_success sqrt c clock (Fp.dot dim) dim (samples.map Spec.intSample) (freshDual samples.length index) s
    (fun s => s.ctot * (1 + dim * X ^ 2) ≤ 2 ^ 53 → ∃ A B, GInv samples dim k A B s) (by
      intro t i idx e hidx hP hcc
      simp only [List.length_map] at hidx
      have e1 : (Fp.gUpdateD sqrt c (Fp.matrix (Fp.dot dim) (samples.map Spec.intSample))
        ((samples.map Spec.intSample).getD idx ⟨[], .fin 0⟩) i idx e t).ctot = t.ctot + 1 := rfl
      rw [e1] at hcc
      obtain ⟨A, B, hI⟩ := hP (le_trans (Nat.mul_le_mul_right _ (Nat.le_succ _)) hcc)
      exact ⟨_, _, hI.update sqrt hk c hr hg hl hx hcc hidx i e⟩) (by
      intro t n hP hcc
      obtain ⟨A, B, hI⟩ := hP hcc
      exact ⟨A, B, hI.len, hI.sa, hI.sb, hI.fn, hI.sum, hI.bB⟩) (by
      intro _
      refine ⟨List.replicate samples.length 0, 0, by simp, ?_, ?_, ?_, ?_, ?_⟩
      · simp [freshDual]
      · simp [freshDual]
      · have h0 : ∀ m r, intDual m (List.replicate samples.length 0) (fun j => (samples.getD j ⟨[], 0⟩).y) (intGram dim samples r) 0 = 0 := by
          intro m r
          induction m with
          | zero => rfl
          | succ m ih =>
            rw [intDual_succ, ih]
            have : (List.replicate samples.length 0).getD m 0 = 0 := by
              rw [List.getD_eq_getElem?_getD, List.getElem?_replicate]; split <;> rfl
            rw [this]; simp
        simp only [freshDual, if_true, List.length_map, h0]
        apply List.ext_getElem <;> simp
      · simp [freshDual]
      · simp [freshDual]) (by simpa [freshDual] using hperm) h
  obtain ⟨A, B, hI⟩ := hP hc
  obtain ⟨nn, hnn⟩ := hnorm
  intro i hi
  have hV := hI.bound hl hx hc hi
  have hfi : s.func.getD i (.fin 0) = .fin ((intDual samples.length A (fun j => (samples.getD j ⟨[], 0⟩).y) (intGram dim samples i) B : ℚ) *
      (1 / 2) ^ k) := by
    rw [hI.fn, Perc.getD_lt _ _ _ (by simpa using hi)]; simp
  have hdec : Fp.dualDecision samples.length s.alphas (samples.map Spec.intSample)
      (fun r => Fp.dot dim (Spec.intSample samples[i]).x ((samples.map Spec.intSample).getD r ⟨[], .fin 0⟩).x) s.bias =
      .fin ((intDual samples.length A (fun j => (samples.getD j ⟨[], 0⟩).y) (intGram dim samples i) B : ℚ) * (1 / 2) ^ k) := by
    rw [hI.sa, hI.sb, ← dual_int hk hl hI.sum hI.bB (fun r hr => gram_bound hx hi hr) hc (le_refl _)]
    unfold Fp.dualDecision
    apply foldl_range_congr
    intro f r hr
    beta_reduce
    rw [Perc.getD_lt (samples.map Spec.intSample) _ _ (by simpa using hr)]
    simp only [List.getElem_map, Spec.intSample]
    rw [dot_int (hx _ (List.getElem_mem hi)) (hx _ (List.getElem_mem hr)) hd]
    unfold intGram
    rw [Perc.getD_lt _ _ _ hi, Perc.getD_lt _ _ _ hr]
  refine ⟨by rw [hfi, hdec], ?_⟩
  unfold Fp.dualEvaluate
  rw [if_neg (by simp [Spec.intSample, hdim _ (List.getElem_mem hi)]), if_neg (by rw [hI.sa]; simp [hI.len])]
  simp only [List.length_map]
  rw [hdec]
  have hle := hclean i (by simpa using hi)
  simp only [List.getElem_map, Spec.intSample] at hle
  rw [hfi, hg, hnn] at hle
  generalize intDual samples.length A (fun j => (samples.getD j ⟨[], 0⟩).y) (intGram dim samples i) B = v at hV hle ⊢
  have h0r : rnd (0 : ℚ) = .fin 0 := by have := rnd_whole (m := 0) (by norm_num); simpa using this
  have hpos : (0 : ℚ) < (1 / 2) ^ k := by positivity
  have hyv : |samples[i].y * v| ≤ 2 ^ 53 := by
    rw [abs_mul]
    rcases hl _ (List.getElem_mem hi) with e | e <;> rw [e] <;> simpa using hV
  have e1 : ((Dbl.fin (samples[i].y : ℚ)).mul (.fin ((v : ℚ) * (1 / 2) ^ k))).sub ((Dbl.fin 0).mul (.fin nn)) =
      .fin ((samples[i].y * v : ℤ) * (1 / 2) ^ k) := by
    have a1 : (Dbl.fin (samples[i].y : ℚ)).mul (.fin ((v : ℚ) * (1 / 2) ^ k)) = .fin ((samples[i].y * v : ℤ) * (1 / 2) ^ k) := by
      rw [← rnd_scaled hk hyv]; simp only [Dbl.mul]; congr 1; push_cast; ring
    have a2 : (Dbl.fin 0).mul (.fin nn) = .fin 0 := by simp only [Dbl.mul, zero_mul, h0r]
    rw [a1, a2]
    simp only [Dbl.sub, Dbl.neg, Dbl.add, neg_zero, add_zero]
    exact rnd_scaled hk hyv
  rw [e1] at hle
  simp only [Dbl.le, decide_eq_false_iff_not, not_le] at hle
  have hyv0 : (0 : ℚ) < ((samples[i].y * v : ℤ) : ℚ) := by
    by_contra hh
    have := mul_nonpos_of_nonpos_of_nonneg (not_lt.1 hh) hpos.le
    linarith
  have hyv1 : 0 < samples[i].y * v := by exact_mod_cast hyv0
  rcases hl _ (List.getElem_mem hi) with e | e
  · rw [e] at hyv1 ⊢
    have : (0 : ℚ) ≤ (v : ℚ) * (1 / 2) ^ k := mul_nonneg (by exact_mod_cast (by linarith : (0 : ℤ) ≤ v)) hpos.le
    rw [if_pos (by simpa only [Dbl.le, decide_eq_true_eq] using this)]
  · rw [e] at hyv1 ⊢
    have hv : (v : ℚ) < 0 := by exact_mod_cast (by linarith : v < 0)
    have : (v : ℚ) * (1 / 2) ^ k < 0 := mul_neg_of_neg_of_pos hv hpos
    rw [if_neg (by simpa only [Dbl.le, decide_eq_true_eq, not_le] using this)]

theorem sub_nan (a : Dbl) : a.sub .nan = .nan := by cases a <;> rfl
theorem mul_nan (a : Dbl) : a.mul .nan = .nan := by cases a <;> rfl
theorem nan_mul (a : Dbl) : Dbl.nan.mul a = .nan := by cases a <;> rfl
theorem nan_add (a : Dbl) : Dbl.nan.add a = .nan := by cases a <;> rfl
theorem add_nan (a : Dbl) : a.add .nan = .nan := by cases a <;> rfl

theorem gScan_nan (c : FCfg Dbl) (kv : ℕ → ℕ → Dbl) (samples : List (Sample Dbl)) (l : List ℕ) (s : GState Dbl) (e : ℕ)
    (hn : s.norm = .nan) (he : e ≤ 1) : Fp.gScanD sqrt c kv samples l s e = (s, e) := by
  induction l with
  | nil => rfl
  | cons i l ih =>
    simp only [Fp.gScanD]
    rw [hn, mul_nan, sub_nan, if_neg (by simp [Dbl.le]), if_neg (by omega), ih]

/-- **C244 (refuted)** A fresh `PerceptronFixedMarginDual` asked for any positive margin reports success on every data set, with a norm that is NaN, and
`evaluate` then answers -1 for every point: the first update divides by the norm 0, everything becomes NaN, and NaN counts as no
mistake. -/
theorem C244_any_margin_refuted (hs : sqrt .nan = .nan) (c : FCfg Dbl) {r g : ℚ} (hr : c.rate = .fin r) (hr0 : 0 < r) (hg : c.gamma = .fin g)
    (hg0 : 0 < g) (hit : 1 ≤ c.maxIt) (hup : 1 ≤ c.maxUp) (clock : ℕ → Bool) (hc0 : clock 0 = true) (hc1 : clock 1 = true)
    (ker : List Dbl → List Dbl → Dbl) (dim : ℕ) (samples : List (Sample Dbl)) (hne : samples ≠ [])
    (hl : ∀ p ∈ samples, p.y = .fin 1 ∨ p.y = .fin (-1)) (hx : ∀ p ∈ samples, p.x.length = dim)
    (index : List ℕ) (hperm : index.Perm (List.range samples.length)) :
    ∃ s, Fp.gTrainD sqrt c clock ker dim samples (freshDual samples.length index) = .ok (true, s) ∧ s.norm = .nan ∧
      ∀ x : List Dbl, x.length = dim → Fp.dualEvaluate ker dim s.alphas samples s.bias x = .ok (-1) := by
  have h0r : rnd (0 : ℚ) = .fin 0 := by have := rnd_whole (m := 0) (by norm_num); simpa using this
  have hlen : index.length = samples.length := by rw [hperm.length_eq]; simp
  have hpos : 0 < samples.length := List.length_pos_iff.2 hne
  have hlam : (Fp.gLambda c (.fin 0)) = .nan ∨ Fp.gLambda c (.fin 0) = .inf true := by
    have e1 : c.gamma.eq (.fin 0) = false := by simp [hg, Dbl.eq, hg0.ne']
    unfold Fp.gLambda
    rw [if_neg (by simp [e1]), hr, hg]
    rcases rnd_D0 (q := r * g) (mul_pos hr0 hg0).le with ⟨t, ht, -, ht0⟩ | ht
    · simp only [Dbl.mul, ht]
      rcases ht0.eq_or_lt with rfl | h1
      · left; simp [Dbl.div, Dbl.sub, Dbl.neg, Dbl.add]
      · right; simp [Dbl.div, h1.ne', not_lt.2 h1.le, Dbl.sub, Dbl.neg, Dbl.add]
    · right
      simp [Dbl.mul, ht, Dbl.div, Dbl.sub, Dbl.neg, Dbl.add]
  have h0lam : (Dbl.fin 0).mul (Fp.gLambda c (.fin 0)) = .nan := by
    rcases hlam with e | e <;> rw [e] <;> simp [Dbl.mul]
  have hlam0 : (Fp.gLambda c (.fin 0)).mul (.fin 0) = .nan := by
    rcases hlam with e | e <;> rw [e] <;> simp [Dbl.mul]
  set s0 : GState Dbl := { freshDual samples.length index with func := List.replicate samples.length (.fin 0), s := 0 } with hs0
  set idx := index.getD 0 0 with hidx
  have hidx' : idx < samples.length := by
    rw [hidx, Perc.getD_lt _ _ _ (by omega)]
    simpa using hperm.mem_iff.1 (List.getElem_mem (by omega : 0 < index.length))
  set s1 := Fp.gUpdateD sqrt c (Fp.matrix ker samples) (samples.getD idx ⟨[], .fin 0⟩) 0 idx 0 s0 with hs1
  have hn1 : s1.norm = .nan := by
    simp only [hs1, Fp.gUpdateD, hs0, freshDual, h0lam, nan_mul, nan_add, hs]
  have ha1 : s1.alphas = List.replicate samples.length .nan := by
    simp only [hs1, Fp.gUpdateD, hs0, freshDual, List.map_replicate, h0lam]
    rw [Perc.getD_lt _ _ _ (by simpa using hidx')]
    simp only [List.getElem_replicate, nan_add]
    rw [List.eq_replicate_iff]
    refine ⟨by simp, fun b hb => ?_⟩
    rcases List.mem_or_eq_of_mem_set hb with h | h
    · exact (List.eq_replicate_iff.1 rfl).2 b h
    · exact h
  have hst1 : s1.steps = 0 := rfl
  have hct1 : s1.ctot = 1 := rfl
  obtain ⟨n, hn⟩ : ∃ n, samples.length = n + 1 := ⟨samples.length - 1, by omega⟩
  have hpass1 : Fp.gPassD sqrt c (Fp.matrix ker samples) samples s0 = ({ s1 with steps := 1 }, 1) := by
    have hscan : Fp.gScanD sqrt c (Fp.matrix ker samples) samples (List.range samples.length) s0 0 = (s1, 1) := by
      rw [hn, List.range_succ_eq_map]
      rw [Fp.gScanD]
      have ei : s0.index.getD 0 0 = idx := rfl
      simp only [ei]
      have ef : s0.func.getD idx (.fin 0) = .fin 0 := by
        rw [Perc.getD_lt _ _ _ (by simp [hs0]; exact hidx')]; simp [hs0]
      have en : s0.norm = .fin 0 := rfl
      have em : (((samples.getD idx ⟨[], .fin 0⟩).y.mul (.fin 0)).sub (c.gamma.mul (.fin 0))).le (.fin 0) = true := by
        rw [Perc.getD_lt _ _ _ hidx', hg]
        have : (samples[idx].y).mul (.fin 0) = .fin 0 := by
          rcases hl _ (List.getElem_mem hidx') with e | e <;> rw [e] <;> simp only [Dbl.mul, mul_zero, h0r]
        rw [this]
        simp only [Dbl.mul, mul_zero, h0r, Dbl.sub, Dbl.neg, Dbl.add, neg_zero, add_zero]
        simp [Dbl.le]
      rw [ef, en, if_pos em]
      exact gScan_nan sqrt c _ samples _ s1 1 hn1 (le_refl _)
    simp only [Fp.gPassD, hscan, hst1]
  have hpass2 : Fp.gPassD sqrt c (Fp.matrix ker samples) samples { s1 with steps := 1 } = ({ s1 with steps := 2 }, 0) := by
    simp only [Fp.gPassD]
    rw [gScan_nan sqrt c _ samples _ _ 0 (by exact hn1) (by omega)]
  refine ⟨{ s1 with steps := 2 }, ?_, hn1, ?_⟩
  · unfold Fp.gTrainD
    have e1 : (if (freshDual samples.length index).func = [] then List.replicate samples.length (Dbl.fin 0) else
        (freshDual samples.length index).func) = List.replicate samples.length (.fin 0) := if_pos rfl
    simp only [e1]
    rw [if_neg (by
      push Not
      refine ⟨⟨hlen, fun i hi => by simpa using hperm.mem_iff.1 hi⟩, by simp [freshDual], by simp, fun p hp => (hx p hp).ge⟩)]
    have e2 : c.maxIt + 1 - (freshDual samples.length index).steps = c.maxIt + 1 := rfl
    rw [e2, epochs]
    simp only [hc0, if_true]
    have e3 : Fp.gPassD sqrt c (Fp.matrix ker samples) samples
        { freshDual samples.length index with func := List.replicate samples.length (.fin 0), s := 0 } = ({ s1 with steps := 1 }, 1) := hpass1
    rw [e3]
    have e4 : (decide ((1 : ℕ) = 0) || decide (1 > c.maxIt ∨ s1.ctot > c.maxUp)) = false := by
      rw [hct1]; simp; omega
    simp only [e4, Bool.false_eq_true, if_false]
    rw [epochs]
    simp only [zero_add, hc1, if_true, hpass2]
    simp
  · intro x hxx
    unfold Fp.dualEvaluate
    rw [if_neg (by simp [hxx])]
    have e1 : ({ s1 with steps := 2 } : GState Dbl).alphas = List.replicate samples.length .nan := ha1
    rw [e1, if_neg (by simp)]
    have e2 : ∀ (ks : ℕ → Dbl) b, Fp.dualDecision samples.length (List.replicate samples.length .nan) samples ks b = .nan := by
      intro ks b
      unfold Fp.dualDecision
      rw [hn, List.range_succ, List.foldl_append, List.foldl_cons, List.foldl_nil]
      rw [Perc.getD_lt _ _ _ (by simp)]
      simp only [List.getElem_replicate, nan_mul, add_nan]
    rw [e2]
    rfl

end

/-- **C244 (refuted)** The samples -1 (label -1) and the `double` nearest to -1/3 (label 1), no margin asked for, rate 1: training reports success, but
`evaluate` answers 1 for the first: the values kept during training and those computed afterwards are rounded differently. -/
theorem C244_drift_refuted :
    (Fp.gTrainD rootD ⟨.fin 1, .fin 0, .fin 0, .fin 0, .two, 100, 100⟩ (fun _ => true) (Fp.dot 1) 1
      [⟨[.fin (-1)], .fin (-1)⟩, ⟨[.fin (-6004799503160661 / 18014398509481984)], .fin 1⟩] (freshDual 2 [0, 1])).toOption.map
      (fun r => (r.1, r.2.func.getD 0 (.fin 0), Fp.dualEvaluate (Fp.dot 1) 1 r.2.alphas
        [⟨[.fin (-1)], .fin (-1)⟩, ⟨[.fin (-6004799503160661 / 18014398509481984)], .fin 1⟩] r.2.bias [.fin (-1)])) =
    some (true, .fin (-1 / 2 ^ 52), .ok 1) := by decide +kernel

/-- The hypotheses of `C244_answers_partial` are met. -/
example : (Fp.gTrainD rootD ⟨.fin (1 / 2), .fin 0, .fin 0, .fin 0, .two, 100, 100⟩ (fun _ => true)
      (Fp.kernel (fun a _ => a) id .innerProduct (.fin 0) 2) 2
      (([⟨[2, 1], 1⟩, ⟨[-1, 1], -1⟩, ⟨[1, -3], -1⟩] : List (Sample ℤ)).map Spec.intSample) (freshDual 3 [0, 1, 2])).toOption.map
      (fun r => (r.1, r.2.ctot, match r.2.norm with | .fin _ => true | _ => false)) = some (true, 4, true) := by decide +kernel

/-- The hypotheses of `C244_any_margin_refuted` are met, here by one point with both labels. -/
example : ∃ s, Fp.gTrainD rootD ⟨.fin 1, .fin (1 / 2), .fin 0, .fin 0, .two, 10, 10⟩ (fun _ => true) (Fp.dot 1) 1
      [⟨[.fin 1], .fin 1⟩, ⟨[.fin 1], .fin (-1)⟩] (freshDual 2 [1, 0]) = .ok (true, s) ∧ s.norm = .nan ∧
      ∀ x : List Dbl, x.length = 1 → Fp.dualEvaluate (Fp.dot 1) 1 s.alphas [⟨[.fin 1], .fin 1⟩, ⟨[.fin 1], .fin (-1)⟩] s.bias x = .ok (-1) :=
  C244_any_margin_refuted rootD rfl _ rfl (by norm_num) rfl (by norm_num) (by decide) (by decide) _ rfl rfl _ _ _ (by simp) (by simp) (by simp)
    _ (by decide)

end MLTK.Props
