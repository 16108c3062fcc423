import Verif.Model.DoubleDsm
import Verif.Lemmas.Subspace
import Verif.Lemmas.DoubleSum
import Verif.Lemmas.Double
/-!
# Scores of the diverse subspace method in `double` arithmetic
-/
namespace MLTK.Fp
open MLTK.Sampling (setIntersection setIntersection_length Filled Good exists_unused unset dsmInit firstMax firstMax_spec)

/-- `std::max_element` does not choose a NaN, unless it is the first element. -/
theorem maxLoop_number (f : Nat → Dbl) : ∀ (m i best : Nat) (v : Dbl),
    maxLoop ((List.range' i m).map f) i best v = best ∨
      (maxLoop ((List.range' i m).map f) i best v < i + m ∧ f (maxLoop ((List.range' i m).map f) i best v) ≠ .nan)
  | 0, _, _, _ => .inl rfl
  | m + 1, i, best, v => by
    rw [List.range'_succ, List.map_cons, maxLoop]
    split
    · rename_i hlt
      have hn : f i ≠ .nan := by
        intro h
        rw [h] at hlt
        cases v <;> simp [Dbl.lt] at hlt
      rcases maxLoop_number f m (i + 1) i (f i) with h | h
      · rw [h]; exact .inr ⟨by omega, hn⟩
      · exact .inr ⟨by omega, h.2⟩
    · rcases maxLoop_number f m (i + 1) best v with h | h
      · exact .inl h
      · exact .inr ⟨by omega, h.2⟩

theorem maxElement_range (f : Nat → Dbl) (n : Nat) :
    maxElement ((List.range (n + 1)).map f) = maxLoop ((List.range' 1 n).map f) 1 0 (f 0) := by
  rw [List.range_eq_range', List.range'_succ, List.map_cons]
  rfl

/-- The chosen feature is the first one, or its score is a number. -/
theorem choice_number (f : Nat → Dbl) (n : Nat) :
    maxElement ((List.range n).map f) = 0 ∨
      (maxElement ((List.range n).map f) < n ∧ f (maxElement ((List.range n).map f)) ≠ .nan) := by
  cases n with
  | zero => exact .inl rfl
  | succ n =>
    rw [maxElement_range]
    rcases maxLoop_number f n 1 0 (f 0) with h | h
    · exact .inl h
    · exact .inr ⟨by omega, h.2⟩

/-- A first element that is a NaN is chosen. -/
theorem choice_nan (f : Nat → Dbl) (n : Nat) (h : f 0 = .nan) : maxElement ((List.range n).map f) = 0 := by
  have key : ∀ (l : List Dbl) (i : Nat), maxLoop l i 0 .nan = 0 := by
    intro l
    induction l with
    | nil => intro i; rfl
    | cons x l ih => intro i; simp [maxLoop, Dbl.lt, ih]
  cases n with
  | zero => rfl
  | succ n => rw [maxElement_range, h]; exact key _ _

theorem maxLoop_fin (g : Nat → ℚ) : ∀ (m i best : Nat),
    maxLoop ((List.range' i m).map (fun c => Dbl.fin (g c))) i best (.fin (g best)) =
      (List.range' i m).foldl (fun b c => if g b < g c then c else b) best
  | 0, _, _ => rfl
  | m + 1, i, best => by
    rw [List.range'_succ, List.map_cons, maxLoop, List.foldl_cons]
    by_cases h : g best < g i
    · rw [if_pos (by simpa [Dbl.lt] using h), if_pos h]
      exact maxLoop_fin g m (i + 1) i
    · rw [if_neg (by simpa [Dbl.lt] using h), if_neg h]
      exact maxLoop_fin g m (i + 1) best

/-- Among numbers, the first greatest one is chosen. -/
theorem choice_fin (g : Nat → ℚ) (f : Nat → Dbl) (n : Nat) (h : ∀ c < n, f c = .fin (g c)) :
    maxElement ((List.range n).map f) = firstMax g n := by
  have e : (List.range n).map f = (List.range n).map (fun c => Dbl.fin (g c)) :=
    List.map_congr_left (fun c hc => h c (List.mem_range.1 hc))
  rw [e]
  cases n with
  | zero => rfl
  | succ n =>
    rw [maxElement_range (fun c => Dbl.fin (g c)), maxLoop_fin, firstMax, List.range_eq_range', List.range'_succ, List.foldl_cons,
      if_neg (lt_irrefl _)]

/-- A round turns every subspace with `P` into one with `Q`. -/
theorem round_inv (choose : List (List Nat) → Nat → Nat) (i : Nat) (P Q : List Nat → Prop)
    (subs : List (List Nat))
    (step : ∀ (s : List (List Nat)) (j : Nat), s.length = subs.length → j < s.length → P (s.getD j []) →
      Q ((s.getD j []).set i (choose s j))) (h : ∀ s ∈ subs, P s) :
    ((List.range subs.length).foldl (fun s j => s.set j ((s.getD j []).set i (choose s j))) subs).length = subs.length ∧
      ∀ s ∈ (List.range subs.length).foldl (fun s j => s.set j ((s.getD j []).set i (choose s j))) subs, Q s := by
  have key : ∀ k, k ≤ subs.length →
      ((List.range k).foldl (fun s j => s.set j ((s.getD j []).set i (choose s j))) subs).length = subs.length ∧
      (∀ j < k, Q (((List.range k).foldl (fun s j => s.set j ((s.getD j []).set i (choose s j))) subs).getD j [])) ∧
      (∀ j, k ≤ j → j < subs.length →
        P (((List.range k).foldl (fun s j => s.set j ((s.getD j []).set i (choose s j))) subs).getD j [])) := by
    intro k
    induction k with
    | zero =>
      intro _
      refine ⟨rfl, by omega, ?_⟩
      intro j _ hj
      simp only [List.range_zero, List.foldl_nil]
      rw [List.getD_eq_getElem _ _ hj]
      exact h _ (List.getElem_mem hj)
    | succ k ih =>
      intro hk
      obtain ⟨h1, h2, h3⟩ := ih (by omega)
      rw [List.range_succ, List.foldl_append, List.foldl_cons, List.foldl_nil]
      set s := (List.range k).foldl (fun s j => s.set j ((s.getD j []).set i (choose s j))) subs with hs
      have hks : k < s.length := by omega
      refine ⟨by rw [List.length_set, h1], ?_, ?_⟩
      · intro j hj
        by_cases hjk : j = k
        · subst hjk
          rw [List.getD_eq_getElem _ _ (by rw [List.length_set]; exact hks), List.getElem_set_self]
          exact step s j h1 hks (h3 j (Nat.le_refl _) (by omega))
        · have hj' : j < s.length := by omega
          rw [List.getD_eq_getElem _ _ (by rw [List.length_set]; exact hj'), List.getElem_set_ne (by omega),
            ← List.getD_eq_getElem _ [] hj']
          exact h2 j (by omega)
      · intro j hj hjl
        have hj' : j < s.length := by omega
        rw [List.getD_eq_getElem _ _ (by rw [List.length_set]; exact hj'), List.getElem_set_ne (by omega),
          ← List.getD_eq_getElem _ [] hj']
        exact h3 j (by omega) hjl
  obtain ⟨h1, h2, _⟩ := key subs.length (Nat.le_refl _)
  refine ⟨h1, ?_⟩
  intro s hs
  obtain ⟨j, hj, hje⟩ := List.getElem_of_mem hs
  have := h2 j (by rw [← h1]; exact hj)
  rw [← hje, ← List.getD_eq_getElem _ [] hj]
  exact this

/-- All rounds: a subspace with `P i` has `P (i + 1)` after round `i`. -/
theorem rounds_inv (corr : Nat → Dbl) (alpha : Dbl) (dim k n : Nat) (P : Nat → List Nat → Prop) (h0 : P 0 (List.replicate n unset))
    (step : ∀ i < n, ∀ (s : List (List Nat)) (j : Nat), s.length = k → j < s.length → P i (s.getD j []) →
      P (i + 1) ((s.getD j []).set i (dsmChoice corr alpha dim s j))) :
    ((List.range n).foldl (fun s i => dsmRoundD corr alpha dim i s) (dsmInit k n)).length = k ∧
      ∀ s ∈ (List.range n).foldl (fun s i => dsmRoundD corr alpha dim i s) (dsmInit k n), P n s := by
  have key : ∀ i, i ≤ n → ((List.range i).foldl (fun s i => dsmRoundD corr alpha dim i s) (dsmInit k n)).length = k ∧
      ∀ s ∈ (List.range i).foldl (fun s i => dsmRoundD corr alpha dim i s) (dsmInit k n), P i s := by
    intro i
    induction i with
    | zero =>
      intro _
      refine ⟨by simp [dsmInit], ?_⟩
      intro s hs
      rw [List.range_zero, List.foldl_nil, dsmInit] at hs
      rw [List.eq_of_mem_replicate hs]
      exact h0
    | succ i ih =>
      intro hi
      obtain ⟨h1, h2⟩ := ih (by omega)
      rw [List.range_succ, List.foldl_append, List.foldl_cons, List.foldl_nil]
      obtain ⟨h3, h4⟩ := round_inv (dsmChoice corr alpha dim) i (P i) (P (i + 1)) _
        (fun s j hl hj h => step i (by omega) s j (hl.trans h1) hj h) h2
      exact ⟨h3.trans h1, h4⟩
  exact key n (Nat.le_refl _)

/-! ### the scores -/

/-- A number between 0 and 1. -/
def UnitD (a : Dbl) : Prop := ∃ q, a = .fin q ∧ 0 ≤ q ∧ q ≤ 1

theorem dbl0 : IsDbl 0 := by decide +kernel
theorem dbl1 : IsDbl 1 := by decide +kernel
theorem dbl2 : IsDbl 2 := by decide +kernel

theorem unit_rnd {q : ℚ} (h0 : 0 ≤ q) (h1 : q ≤ 1) : UnitD (rnd q) := by
  obtain ⟨x, e, hx0, hx1, -⟩ := rnd_between dbl0 dbl1 h0 h1
  exact ⟨x, e, hx0, hx1⟩

theorem unit_compl {a : Dbl} (h : UnitD a) : UnitD ((Dbl.fin 1).sub a) := by
  obtain ⟨q, rfl, h0, h1⟩ := h
  rw [sub_fin]
  exact unit_rnd (by linarith) (by linarith)

/-- The share of a part. -/
theorem unit_share {m n : Nat} (h : m ≤ n) : (Dbl.ofNat m).div (.ofNat n) = .nan ∨ UnitD ((Dbl.ofNat m).div (.ofNat n)) := by
  have hm := rnd_D0 (q := (m : ℚ)) (by positivity)
  have hn := rnd_D0 (q := (n : ℚ)) (by positivity)
  have hle : near (m : ℚ) ≤ near (n : ℚ) := near_mono (by exact_mod_cast h)
  unfold Dbl.ofNat
  rcases hm with ⟨p, e, -, hp⟩ | e <;> rcases hn with ⟨q, e', -, hq⟩ | e'
  · rw [e, e', Dbl.div]
    by_cases h0 : q = 0
    · rw [if_pos h0]
      have hpq : p ≤ q := by rw [(rnd_fin_inv e).1, (rnd_fin_inv e').1]; exact hle
      rw [if_pos (by linarith)]
      exact .inl rfl
    · rw [if_neg h0]
      have hpq : p ≤ q := by rw [(rnd_fin_inv e).1, (rnd_fin_inv e').1]; exact hle
      exact .inr (unit_rnd (by positivity) (div_le_one_of_le₀ hpq hq))
  · rw [e, e']; exact .inr ⟨0, rfl, le_refl _, by norm_num⟩
  · exfalso
    obtain ⟨h1, h2⟩ := rnd_fin_inv e'
    unfold rnd at e
    split at e
    · simp at e
    · split at e
      · rename_i h3
        rw [h1, abs_lt] at h2
        linarith [h2.2]
      · simp at e
  · rw [e, e']; exact .inl rfl

theorem unit_divMs (subs : List (List Nat)) (i : Nat) : UnitD (divMsD subs i) := by
  unfold divMsD
  apply unit_compl
  have key : ∀ (l : List (List Nat × Nat)) (mx : Dbl), UnitD mx → UnitD (l.foldl (fun mx p =>
      if p.2 = i then mx
      else
        let v := (Dbl.ofNat (setIntersection (subs.getD i []) p.1).length).div (.ofNat p.1.length)
        if mx.lt v then v else mx) mx) := by
    intro l
    induction l with
    | nil => exact fun mx h => h
    | cons p l ih =>
      intro mx h
      rw [List.foldl_cons]
      apply ih
      split
      · exact h
      · simp only
        split
        · rename_i hlt
          rcases unit_share (setIntersection_length (subs.getD i []) p.1) with h' | h'
          · rw [h'] at hlt
            cases mx <;> simp [Dbl.lt] at hlt
          · exact h'
        · exact h
  exact key _ _ ⟨0, rfl, le_refl _, by norm_num⟩

theorem unit_divMx (subs : List (List Nat)) (feat : Nat) (h : subs ≠ []) (hl : subs.length ≤ 2 ^ 53) : UnitD (divMxD subs feat) := by
  unfold divMxD
  apply unit_compl
  have key : ∀ (l : List (List Nat)) (m : Nat), m + l.length ≤ 2 ^ 53 → ∃ r, r ≤ m + l.length ∧
      l.foldl (fun c s => if feat ∈ s then c.add (.fin 1) else c) (Dbl.fin (m : ℚ)) = .fin (r : ℚ) := by
    intro l
    induction l with
    | nil => exact fun m _ => ⟨m, by simp, rfl⟩
    | cons s l ih =>
      intro m hm
      rw [List.length_cons] at hm
      rw [List.foldl_cons]
      split
      · have e : (Dbl.fin (m : ℚ)).add (.fin 1) = .fin ((m + 1 : ℕ) : ℚ) := by
          have := ofNat_eq (n := m + 1) (by omega)
          rw [← this, Dbl.add, Dbl.ofNat]
          push_cast
          rfl
        rw [e]
        obtain ⟨r, h1, h2⟩ := ih (m + 1) (by omega)
        exact ⟨r, by rw [List.length_cons]; omega, h2⟩
      · obtain ⟨r, h1, h2⟩ := ih m (by omega)
        exact ⟨r, by rw [List.length_cons]; omega, h2⟩
  obtain ⟨r, h1, h2⟩ := key subs 0 (by omega)
  have h0 : 0 < subs.length := List.length_pos_iff.2 h
  rw [Nat.cast_zero] at h2
  rw [h2, ofNat_eq hl, Dbl.div, if_neg (by exact_mod_cast (by omega : subs.length ≠ 0))]
  refine unit_rnd (by positivity) (div_le_one_of_le₀ ?_ (by positivity))
  exact_mod_cast (by omega : r ≤ subs.length)

theorem unit_divM (subs : List (List Nat)) (i feat : Nat) (h : subs ≠ []) (hl : subs.length ≤ 2 ^ 53) : UnitD (divMD subs i feat) := by
  obtain ⟨p, e, h0, h1⟩ := unit_divMx subs feat h hl
  obtain ⟨q, e', h2, h3⟩ := unit_divMs subs i
  unfold divMD
  rw [e, e', Dbl.add]
  obtain ⟨x, ex, hx0, hx1, -⟩ := rnd_between dbl0 dbl2 (by linarith : 0 ≤ p + q) (by linarith)
  rw [ex, Dbl.div, if_neg (by norm_num)]
  exact unit_rnd (by positivity) (by linarith)

/-- The score of a feature that is not yet used is a number above that of a used one. -/
theorem score_unused {corr : Nat → Dbl} {a q : ℚ} (ha : 0 ≤ a) (ha1 : a ≤ 1) (subs : List (List Nat)) (h : subs ≠ [])
    (hl : subs.length ≤ 2 ^ 53) (j c : Nat) (hc : corr c = .fin q) (hq : -(1025 / 1024) ≤ q) (hq4 : q ≤ 4) (hn : c ∉ subs.getD j []) :
    ∃ r, dsmScoreD corr (.fin a) subs j c = .fin r ∧ -(1025 / 1024) ≤ r := by
  unfold dsmScoreD
  rw [if_neg hn, hc]
  have hB : IsDbl (-(1025 / 1024)) := by decide +kernel
  have h4 : IsDbl 4 := by decide +kernel
  have h8 : IsDbl 8 := by decide +kernel
  obtain ⟨x, ex, hx0, hx1, -⟩ := rnd_between hB h4 (by nlinarith : -(1025 / 1024) ≤ a * q) (by nlinarith)
  obtain ⟨u, eu, hu0, hu1⟩ := unit_compl ⟨a, rfl, ha, ha1⟩
  obtain ⟨d, ed, hd0, hd1⟩ := unit_divM subs j c h hl
  have em : (Dbl.fin u).mul (.fin d) = rnd (u * d) := rfl
  obtain ⟨y, ey, hy0, hy1⟩ := unit_rnd (mul_nonneg hu0 hd0) (by nlinarith : u * d ≤ 1)
  rw [eu, ed, em, ey, Dbl.mul, ex, Dbl.add]
  obtain ⟨z, ez, hz0, -, -⟩ := rnd_between hB h8 (by linarith : -(1025 / 1024) ≤ x + y) (by linarith)
  exact ⟨z, ez, hz0⟩

theorem score_used (corr : Nat → Dbl) (alpha : Dbl) (subs : List (List Nat)) (j c : Nat) (h : c ∈ subs.getD j []) :
    dsmScoreD corr alpha subs j c = .fin (near (-101 / 100)) ∧ near (-101 / 100) < -(1025 / 1024) := by
  unfold dsmScoreD
  rw [if_pos h]
  exact ⟨by decide +kernel, by decide +kernel⟩

/-- If some feature is not used yet, an unused one is chosen. -/
theorem choose_unusedD {corr : Nat → Dbl} {a : ℚ} (ha : 0 ≤ a) (ha1 : a ≤ 1) {dim : Nat}
    (hc : ∀ c < dim, ∃ q, corr c = .fin q ∧ -(1025 / 1024) ≤ q ∧ q ≤ 4) (subs : List (List Nat)) (h : subs ≠ [])
    (hl : subs.length ≤ 2 ^ 53) (j : Nat) (hex : ∃ c < dim, c ∉ subs.getD j []) :
    dsmChoice corr (.fin a) dim subs j < dim ∧ dsmChoice corr (.fin a) dim subs j ∉ subs.getD j [] := by
  have hfin : ∀ c, ∃ r : ℚ, c < dim → dsmScoreD corr (.fin a) subs j c = .fin r ∧ (c ∉ subs.getD j [] → -(1025 / 1024) ≤ r) ∧
      (c ∈ subs.getD j [] → r < -(1025 / 1024)) := by
    intro c
    by_cases hcd : c < dim
    · by_cases hm : c ∈ subs.getD j []
      · obtain ⟨h1, h2⟩ := score_used corr (.fin a) subs j c hm
        exact ⟨_, fun _ => ⟨h1, fun h => absurd hm h, fun _ => h2⟩⟩
      · obtain ⟨q, h1, h2, h3⟩ := hc c hcd
        obtain ⟨r, h4, h5⟩ := score_unused ha ha1 subs h hl j c h1 h2 h3 hm
        exact ⟨r, fun _ => ⟨h4, fun _ => h5, fun h => absurd h hm⟩⟩
    · exact ⟨0, fun h => absurd h hcd⟩
  choose g hg using hfin
  obtain ⟨c, hcd, hcn⟩ := hex
  have e : dsmChoice corr (.fin a) dim subs j = firstMax g dim := choice_fin g _ dim (fun c hc => (hg c hc).1)
  obtain ⟨h1, h2, -⟩ := firstMax_spec g dim (by omega)
  rw [e]
  refine ⟨h1, fun hm => ?_⟩
  have h3 := (hg _ h1).2.2 hm
  have h4 := (hg c hcd).2.1 hcn
  have h5 := h2 c hcd
  linarith

end MLTK.Fp
