import Mathlib.Tactic.Linarith
import Mathlib.Logic.Equiv.Basic
import Mathlib.Data.Finset.Image
import Mathlib.Data.List.GetD
import Verif.Lemmas.Util
import Verif.Spec.Aos
/-!
# Lemmas about the search structures
-/
namespace MLTK.Aos
open MLTK.Data (Res_bind_ok Res_bind_error Res_pure)
open MLTK.Spec

/-! ### The array as a multiset -/

/-- Contents of positions `lo..n`. -/
def cont (a : Arr) (lo n : Nat) : Multiset (Option Nat) := (Finset.Icc lo n).val.map a

theorem cont_congr {a b : Arr} {lo n : Nat} (h : ∀ i, lo ≤ i → i ≤ n → a i = b i) : cont a lo n = cont b lo n := by
  unfold cont
  apply Multiset.map_congr rfl
  intro i hi
  have hi' : i ∈ Finset.Icc lo n := hi
  rw [Finset.mem_Icc] at hi'
  exact h i hi'.1 hi'.2

theorem cont_swap (a : Arr) (lo n i j : Nat) (hi : lo ≤ i ∧ i ≤ n) (hj : lo ≤ j ∧ j ≤ n) :
    cont (fun k => a (Equiv.swap i j k)) lo n = cont a lo n := by
  unfold cont
  have h1 : (Finset.Icc lo n).map (Equiv.swap i j).toEmbedding = Finset.Icc lo n := by
    apply Finset.eq_of_subset_of_card_le
    · intro k hk
      rw [Finset.mem_map] at hk
      obtain ⟨l, hl, rfl⟩ := hk
      rw [Finset.mem_Icc] at hl ⊢
      simp only [Equiv.coe_toEmbedding]
      rcases eq_or_ne l i with rfl | h1
      · rw [Equiv.swap_apply_left]; exact hj
      · rcases eq_or_ne l j with rfl | h2
        · rw [Equiv.swap_apply_right]; exact hi
        · rw [Equiv.swap_apply_of_ne_of_ne h1 h2]; exact hl
    · rw [Finset.card_map]
  conv_rhs => rw [← h1]
  rw [Finset.map_val, Multiset.map_map]
  rfl

theorem upd_same (a : Arr) (i : Nat) (p : Option Nat) : upd a i p i = p := by simp [upd]

theorem upd_ne (a : Arr) {i j : Nat} (p : Option Nat) (h : j ≠ i) : upd a i p j = a j := by simp [upd, h]

/-- Moving the hole from `i` to `j` keeps the contents. -/
theorem cont_move (a : Arr) (lo n i j : Nat) (hi : lo ≤ i ∧ i ≤ n) (hj : lo ≤ j ∧ j ≤ n) (hij : i ≠ j) (p : Option Nat) :
    cont (upd (upd a i (a j)) j p) lo n = cont (upd a i p) lo n := by
  rw [← cont_swap (upd a i p) lo n i j hi hj]
  apply cont_congr
  intro k _ _
  rcases eq_or_ne k i with rfl | h1
  · rw [Equiv.swap_apply_left, upd_ne _ _ hij, upd_same, upd_ne _ _ (Ne.symm hij)]
  · rcases eq_or_ne k j with rfl | h2
    · rw [Equiv.swap_apply_right, upd_same, upd_same]
    · rw [Equiv.swap_apply_of_ne_of_ne h1 h2, upd_ne _ _ h2, upd_ne _ _ h1, upd_ne _ _ h1]

theorem Icc_insert {lo n i : Nat} (h : lo ≤ i) (hi : i ≤ n) :
    (Finset.Icc lo n).val = i ::ₘ ((Finset.Icc lo n).erase i).val := by
  rw [Finset.erase_val, Multiset.cons_erase]
  exact Finset.mem_Icc.mpr ⟨h, hi⟩

theorem cont_erase (a : Arr) (lo n i : Nat) (h : lo ≤ i) (hi : i ≤ n) :
    cont a lo n = a i ::ₘ ((Finset.Icc lo n).erase i).val.map a := by
  unfold cont
  rw [Icc_insert h hi, Multiset.map_cons]

theorem cont_upd (a : Arr) (lo n i : Nat) (h : lo ≤ i) (hi : i ≤ n) (p : Option Nat) :
    cont (upd a i p) lo n = p ::ₘ ((Finset.Icc lo n).erase i).val.map a := by
  rw [cont_erase _ lo n i h hi, upd_same]
  congr 1
  apply Multiset.map_congr rfl
  intro k hk
  have hk' : k ∈ (Finset.Icc lo n).erase i := hk
  rw [upd_ne _ _ (Finset.ne_of_mem_erase hk')]

theorem cont_succ (a : Arr) (lo n : Nat) (h : lo ≤ n + 1) : cont a lo (n + 1) = a (n + 1) ::ₘ cont a lo n := by
  rw [cont_erase a lo (n + 1) (n + 1) h le_rfl]
  congr 1
  unfold cont
  congr 1
  congr 1
  ext k
  simp only [Finset.mem_erase, Finset.mem_Icc]
  omega

theorem cont_cons (a : Arr) (lo n : Nat) (h : lo ≤ n) : cont a lo n = a lo ::ₘ cont a (lo + 1) n := by
  rw [cont_erase a lo n lo le_rfl h]
  congr 1
  unfold cont
  congr 1
  congr 1
  ext k
  simp only [Finset.mem_erase, Finset.mem_Icc]
  omega

theorem cont_empty (a : Arr) (lo n : Nat) (h : n < lo) : cont a lo n = 0 := by
  unfold cont
  rw [Finset.Icc_eq_empty (by omega)]
  rfl

theorem cont_split (a : Arr) (n i : Nat) (h : i ≤ n) : cont a 1 n = cont a 1 i + cont a (i + 1) n := by
  induction n with
  | zero =>
    have : i = 0 := by omega
    subst this
    rw [cont_empty a 1 0 (by omega)]; rfl
  | succ n ih =>
    by_cases hi : i = n + 1
    · subst hi
      rw [cont_empty a (n + 1 + 1) (n + 1) (by omega), add_zero]
    · rw [cont_succ a 1 n (by omega), cont_succ a (i + 1) n (by omega), ih (by omega), Multiset.add_cons]

theorem mem_cont {a : Arr} {lo n : Nat} {p : Option Nat} : p ∈ cont a lo n ↔ ∃ i, lo ≤ i ∧ i ≤ n ∧ a i = p := by
  unfold cont
  rw [Multiset.mem_map]
  constructor
  · rintro ⟨i, hi, rfl⟩
    have hi' : i ∈ Finset.Icc lo n := hi
    rw [Finset.mem_Icc] at hi'
    exact ⟨i, hi'.1, hi'.2, rfl⟩
  · rintro ⟨i, h1, h2, rfl⟩
    exact ⟨i, by show i ∈ Finset.Icc lo n; exact Finset.mem_Icc.mpr ⟨h1, h2⟩, rfl⟩

section
variable {K : Type} [Field K] [LinearOrder K]

omit [LinearOrder K] in
/-- A live element of the array: pointer and value. -/
theorem deref_live {m : Nodes K} {p : Nat} (h : LiveNode m p) :
    ∃ nd, m[p]? = some (some nd) ∧ deref m (some p) = .ok nd ∧ nodeValue m p = nd.value := by
  obtain ⟨nd, h⟩ := h
  exact ⟨nd, h, by simp [deref, h], by simp [nodeValue, h]⟩

/-- The value at a position. -/
def va (m : Nodes K) (p : Option Nat) : K :=
  match p with
  | none => 0
  | some p => nodeValue m p

/-- Positions `lo..n` hold live pointers. -/
def Good (m : Nodes K) (a : Arr) (lo n : Nat) : Prop := ∀ i, lo ≤ i → i ≤ n → ∃ p, a i = some p ∧ LiveNode m p

omit [LinearOrder K] in
theorem deref_good {m : Nodes K} {q : Option Nat} (h : ∃ p, q = some p ∧ LiveNode m p) :
    ∃ nd, deref m q = .ok nd ∧ va m q = nd.value := by
  obtain ⟨p, rfl, hl⟩ := h
  obtain ⟨nd, _, h2, h3⟩ := deref_live hl
  exact ⟨nd, h2, h3⟩

omit [LinearOrder K] in
theorem valueOr0_ok {m : Nodes K} {q : Option Nat} (h : q = none ∨ ∃ p, q = some p ∧ LiveNode m p) :
    valueOr0 m q = .ok (va m q) := by
  rcases h with rfl | ⟨p, rfl, hl⟩
  · rfl
  · obtain ⟨nd, _, h2, h3⟩ := deref_live hl
    show (deref m (some p) >>= fun nd => pure nd.value) = _
    rw [h2, Res_bind_ok, Res_pure]
    congr 1
    exact h3.symm

/-- Heap order on the positions up to `n`. -/
def Ord (m : Nodes K) (a : Arr) (n : Nat) : Prop := ∀ j, 2 ≤ j → j ≤ n → va m (a j) ≤ va m (a (j / 2))

/-! ### Sifting up -/

theorem up_spec (m : Nodes K) (tok : Nat) (ht : LiveNode m tok) (n : Nat) :
    ∀ (fuel i : Nat) (a : Arr), 1 ≤ i → i ≤ n → i < fuel → a 0 = none →
      (∀ j, 1 ≤ j → j ≤ n → j ≠ i → ∃ p, a j = some p ∧ LiveNode m p) →
      (∀ j, 2 ≤ j → j ≤ n → j ≠ i → j / 2 ≠ i → va m (a j) ≤ va m (a (j / 2))) →
      (∀ j, j ≤ n → j / 2 = i → va m (a j) ≤ nodeValue m tok ∧ (2 ≤ i → va m (a j) ≤ va m (a (i / 2)))) →
      ∃ a', up m tok (nodeValue m tok) fuel a i = .ok a' ∧ a' 0 = none ∧ Good m a' 1 n ∧ Ord m a' n ∧
        cont a' 1 n = cont (upd a i (some tok)) 1 n ∧ ∀ j, n < j → a' j = a j := by
  intro fuel
  induction fuel with
  | zero => intro i a _ _ h; omega
  | succ fuel ih =>
    intro i a h1 h2 hf h0 hg ho hc
    have hpar : valueOr0 m (a (i / 2)) = .ok (va m (a (i / 2))) := by
      apply valueOr0_ok
      rcases Nat.eq_zero_or_pos (i / 2) with h | h
      · left; rw [h, h0]
      · right; exact hg _ h (by omega) (by omega)
    rw [up, hpar, Res_bind_ok]
    by_cases hcond : i > 1 ∧ va m (a (i / 2)) < nodeValue m tok
    · rw [if_pos hcond]
      have hk1 : 1 ≤ i / 2 := by omega
      have hki : i / 2 ≠ i := by omega
      obtain ⟨a', e, r1, r2, r3, r4, r5⟩ := ih (i / 2) (upd a i (a (i / 2))) hk1 (by omega) (by omega)
        (by rw [upd_ne _ _ (by omega)]; exact h0)
        (by
          intro j hj1 hj2 hj3
          by_cases hji : j = i
          · rw [hji, upd_same]; exact hg _ hk1 (by omega) hki
          · rw [upd_ne _ _ hji]; exact hg j hj1 hj2 hji)
        (by
          intro j hj1 hj2 hj3 hj4
          by_cases hji : j = i
          · exact absurd (by rw [hji]) hj4
          · rw [upd_ne _ _ hji]
            by_cases hjp : j / 2 = i
            · rw [hjp, upd_same]
              exact (hc j hj2 hjp).2 (by omega)
            · rw [upd_ne _ _ hjp]
              exact ho j hj1 hj2 hji hjp)
        (by
          intro j hj1 hj2
          by_cases hji : j = i
          · rw [hji, upd_same]
            refine ⟨hcond.2.le, ?_⟩
            intro hk2
            rw [upd_ne _ _ (by omega)]
            exact ho (i / 2) hk2 (by omega) hki (by omega)
          · rw [upd_ne _ _ hji]
            have hle : va m (a j) ≤ va m (a (i / 2)) := by
              have := ho j (by omega) hj1 hji (by rw [hj2]; exact hki)
              rwa [hj2] at this
            refine ⟨le_trans hle hcond.2.le, ?_⟩
            intro hk2
            rw [upd_ne _ _ (by omega)]
            exact le_trans hle (ho (i / 2) hk2 (by omega) hki (by omega)))
      refine ⟨a', e, r1, r2, r3, ?_, ?_⟩
      · rw [r4]
        exact cont_move a 1 n i (i / 2) ⟨h1, h2⟩ ⟨hk1, by omega⟩ (Ne.symm hki) (some tok)
      · intro j hj
        rw [r5 j hj, upd_ne _ _ (by omega)]
    · rw [if_neg hcond]
      refine ⟨_, rfl, by rw [upd_ne _ _ (by omega)]; exact h0, ?_, ?_, rfl, ?_⟩
      · intro j hj1 hj2
        by_cases hji : j = i
        · exact ⟨tok, by rw [hji, upd_same], ht⟩
        · rw [upd_ne _ _ hji]; exact hg j hj1 hj2 hji
      · intro j hj1 hj2
        by_cases hji : j = i
        · rw [hji, upd_same, upd_ne _ _ (by omega)]
          have : ¬ va m (a (i / 2)) < nodeValue m tok := fun hlt => hcond ⟨by omega, hlt⟩
          exact not_lt.mp this
        · rw [upd_ne _ _ hji]
          by_cases hjp : j / 2 = i
          · rw [hjp, upd_same]; exact (hc j hj2 hjp).1
          · rw [upd_ne _ _ hjp]; exact ho j hj1 hj2 hji hjp
      · intro j hj
        rw [upd_ne _ _ (by omega)]

/-! ### Sifting down -/

theorem largerChild_spec (m : Nodes K) (n : Nat) (a : Arr) (c : Nat) (h1 : 1 ≤ c) (h2 : c ≤ n)
    (hg : ∀ j, c ≤ j → j ≤ n → ∃ p, a j = some p ∧ LiveNode m p) :
    ∃ k, largerChild m n a c = .ok k ∧ (k = c ∨ k = c + 1) ∧ k ≤ n ∧
      va m (a c) ≤ va m (a k) ∧ (c + 1 ≤ n → va m (a (c + 1)) ≤ va m (a k)) := by
  unfold largerChild
  by_cases hcn : c ≠ n
  · rw [if_pos hcn]
    obtain ⟨nr, hr1, hr2⟩ := deref_good (hg (c + 1) (by omega) (by omega))
    obtain ⟨nl, hl1, hl2⟩ := deref_good (hg c (by omega) (by omega))
    rw [hr1, Res_bind_ok, hl1, Res_bind_ok]
    by_cases hlt : nr.value > nl.value
    · rw [if_pos hlt]
      exact ⟨c + 1, rfl, Or.inr rfl, by omega, by rw [hr2, hl2]; exact hlt.le, fun _ => le_rfl⟩
    · rw [if_neg hlt]
      exact ⟨c, rfl, Or.inl rfl, h2, le_rfl, fun _ => by rw [hr2, hl2]; exact not_lt.mp hlt⟩
  · rw [if_neg hcn]
    exact ⟨c, rfl, Or.inl rfl, h2, le_rfl, fun h => by omega⟩

/-- `percolate` from a hole at `i ≤ n`: the last element goes in, nothing is lost, positions before the
hole are untouched. -/
theorem percolate_cont (m : Nodes K) (n : Nat) :
    ∀ (fuel i : Nat) (a : Arr), 1 ≤ i → i ≤ n → n + 1 < fuel + i →
      (∀ j, i < j → j ≤ n + 1 → ∃ p, a j = some p ∧ LiveNode m p) →
      ∃ a', percolate m n fuel a i = .ok a' ∧ cont a' 1 n = cont (upd a i (a (n + 1))) 1 n ∧
        (∀ j, j < i → a' j = a j) ∧ (∀ j, n < j → a' j = a j) ∧
        (∀ j, i ≤ j → j ≤ n → ∃ p, a' j = some p ∧ LiveNode m p) ∧
        cont a' i n = cont (upd a i (a (n + 1))) i n := by
  intro fuel
  induction fuel with
  | zero => intro i a _ h1 h2; omega
  | succ fuel ih =>
    intro i a h1 h2 hf hg
    rw [percolate]
    by_cases hc : i * 2 > n
    · rw [if_pos hc]
      refine ⟨_, rfl, rfl, fun j hj => upd_ne _ _ (by omega), fun j hj => upd_ne _ _ (by omega), ?_, rfl⟩
      intro j hj1 hj2
      by_cases hji : j = i
      · rw [hji, upd_same]; exact hg (n + 1) (by omega) le_rfl
      · rw [upd_ne _ _ hji]; exact hg j (by omega) (by omega)
    · rw [if_neg hc]
      obtain ⟨k, hk, hkc, hkn, _, _⟩ := largerChild_spec m n a (i * 2) (by omega) (by omega)
        (fun j hj1 hj2 => hg j (by omega) (by omega))
      obtain ⟨nl, hl1, hl2⟩ := deref_good (hg (n + 1) (by omega) le_rfl)
      obtain ⟨nc, hc1, hc2⟩ := deref_good (hg k (by omega) (by omega))
      rw [hk, Res_bind_ok, hl1, Res_bind_ok, hc1, Res_bind_ok]
      by_cases hlt : nl.value < nc.value
      · rw [if_pos hlt]
        obtain ⟨a', e, r1, r2, r3, r4, r5⟩ := ih k (upd a i (a k)) (by omega) hkn (by omega)
          (by
            intro j hj1 hj2
            rw [upd_ne _ _ (by omega)]
            exact hg j (by omega) hj2)
        rw [upd_ne _ _ (by omega : n + 1 ≠ i)] at r1 r5
        refine ⟨a', e, ?_, ?_, ?_, ?_, ?_⟩
        · rw [r1]
          exact cont_move a 1 n i k ⟨h1, h2⟩ ⟨by omega, hkn⟩ (by omega) _
        · intro j hj
          rw [r2 j (by omega), upd_ne _ _ (by omega)]
        · intro j hj
          rw [r3 j hj, upd_ne _ _ (by omega)]
        · intro j hj1 hj2
          by_cases hjk : k ≤ j
          · exact r4 j hjk hj2
          · rw [r2 j (by omega)]
            by_cases hji : j = i
            · rw [hji, upd_same]; exact hg k (by omega) (by omega)
            · rw [upd_ne _ _ hji]; exact hg j (by omega) (by omega)
        · rw [← cont_move a i n i k ⟨le_rfl, h2⟩ ⟨by omega, hkn⟩ (by omega) (a (n + 1))]
          -- both sides agree before `k` and as multisets from `k` on
          have hsplit : ∀ (b : Arr), cont b 1 n = cont b 1 (i - 1) + cont b i n := by
            intro b
            have := cont_split b n (i - 1) (by omega)
            rwa [show i - 1 + 1 = i by omega] at this
          have h3 := hsplit a'
          have h4 := hsplit (upd (upd a i (a k)) k (a (n + 1)))
          rw [r1] at h3
          rw [h3] at h4
          have h5 : cont a' 1 (i - 1) = cont (upd (upd a i (a k)) k (a (n + 1))) 1 (i - 1) := by
            apply cont_congr
            intro j hj1 hj2
            rw [r2 j (by omega), upd_ne _ _ (by omega), upd_ne _ _ (by omega), upd_ne _ _ (by omega)]
          rw [h5] at h4
          exact add_left_cancel h4
      · rw [if_neg hlt]
        refine ⟨_, rfl, rfl, fun j hj => upd_ne _ _ (by omega), fun j hj => upd_ne _ _ (by omega), ?_, rfl⟩
        intro j hj1 hj2
        by_cases hji : j = i
        · rw [hji, upd_same]; exact hg (n + 1) (by omega) le_rfl
        · rw [upd_ne _ _ hji]; exact hg j (by omega) (by omega)

/-- `percolate` restores the heap order when the last element is not above the parent of the hole. -/
theorem percolate_ord (m : Nodes K) (n : Nat) :
    ∀ (fuel i : Nat) (a : Arr), 1 ≤ i → i ≤ n → n + 1 < fuel + i →
      (∀ j, i < j → j ≤ n + 1 → ∃ p, a j = some p ∧ LiveNode m p) →
      (∀ j, 2 ≤ j → j ≤ n → j ≠ i → j / 2 ≠ i → va m (a j) ≤ va m (a (j / 2))) →
      (∀ j, j ≤ n → j / 2 = i → 2 ≤ i → va m (a j) ≤ va m (a (i / 2))) →
      (2 ≤ i → va m (a (n + 1)) ≤ va m (a (i / 2))) →
      ∃ a', percolate m n fuel a i = .ok a' ∧ Ord m a' n := by
  intro fuel
  induction fuel with
  | zero => intro i a _ h1 h2; omega
  | succ fuel ih =>
    intro i a h1 h2 hf hg ho hch hl
    rw [percolate]
    by_cases hc : i * 2 > n
    · rw [if_pos hc]
      refine ⟨_, rfl, ?_⟩
      intro j hj1 hj2
      have hjp : j / 2 ≠ i := by omega
      by_cases hji : j = i
      · rw [hji, upd_same, upd_ne _ _ (by omega)]; exact hl (by omega)
      · rw [upd_ne _ _ hji, upd_ne _ _ hjp]; exact ho j hj1 hj2 hji hjp
    · rw [if_neg hc]
      obtain ⟨k, hk, hkc, hkn, hm1, hm2⟩ := largerChild_spec m n a (i * 2) (by omega) (by omega)
        (fun j hj1 hj2 => hg j (by omega) (by omega))
      obtain ⟨nl, hl1, hl2⟩ := deref_good (hg (n + 1) (by omega) le_rfl)
      obtain ⟨nc, hc1, hc2⟩ := deref_good (hg k (by omega) (by omega))
      rw [hk, Res_bind_ok, hl1, Res_bind_ok, hc1, Res_bind_ok]
      have hki : k / 2 = i := by omega
      have hmax : ∀ j, j ≤ n → j / 2 = i → va m (a j) ≤ va m (a k) := by
        intro j hj1 hj2
        have : j = i * 2 ∨ j = i * 2 + 1 := by omega
        rcases this with rfl | rfl
        · exact hm1
        · exact hm2 (by omega)
      by_cases hlt : nl.value < nc.value
      · rw [if_pos hlt]
        apply ih k (upd a i (a k)) (by omega) hkn (by omega)
        · intro j hj1 hj2
          rw [upd_ne _ _ (by omega)]
          exact hg j (by omega) hj2
        · intro j hj1 hj2 hj3 hj4
          by_cases hji : j = i
          · rw [hji, upd_same, upd_ne _ _ (by omega)]
            exact hch k hkn hki (by omega)
          · rw [upd_ne _ _ hji]
            by_cases hjp : j / 2 = i
            · rw [hjp, upd_same]
              exact hmax j hj2 hjp
            · rw [upd_ne _ _ hjp]
              exact ho j hj1 hj2 hji hjp
        · intro j hj1 hj2 _
          rw [upd_ne _ _ (by omega), hki, upd_same]
          have := ho j (by omega) hj1 (by omega) (by omega)
          rwa [hj2] at this
        · intro _
          rw [upd_ne _ _ (by omega), hki, upd_same, hl2, hc2]
          exact hlt.le
      · rw [if_neg hlt]
        refine ⟨_, rfl, ?_⟩
        intro j hj1 hj2
        by_cases hji : j = i
        · rw [hji, upd_same, upd_ne _ _ (by omega)]; exact hl (by omega)
        · rw [upd_ne _ _ hji]
          by_cases hjp : j / 2 = i
          · rw [hjp, upd_same]
            refine le_trans (hmax j hj2 hjp) ?_
            rw [hc2, hl2]
            exact not_lt.mp hlt
          · rw [upd_ne _ _ hjp]; exact ho j hj1 hj2 hji hjp

/-- The root is a maximum. -/
theorem ord_root (m : Nodes K) (a : Arr) (n : Nat) (ho : Ord m a n) :
    ∀ j, 1 ≤ j → j ≤ n → va m (a j) ≤ va m (a 1) := by
  intro j
  induction j using Nat.strong_induction_on with
  | _ j ih =>
    intro h1 h2
    rcases Nat.lt_or_ge j 2 with h | h
    · have : j = 1 := by omega
      rw [this]
    · exact le_trans (ho j h h2) (ih (j / 2) (by omega) (by omega) (by omega))

/-! ### Operations -/

/-- A queue in order whose pointers are live. -/
structure Inv (m : Nodes K) (h : Heap) : Prop where
  null : h.elements 0 = none
  good : Good m h.elements 1 h.size
  ord : Ord m h.elements h.size

theorem inv_new (m : Nodes K) : Inv m Heap.new := by
  refine ⟨rfl, ?_, ?_⟩
  · intro i h1 h2; simp only [Heap.new] at h2; omega
  · intro j h1 h2; simp only [Heap.new] at h2; omega

theorem insert_spec (cap : Nat) (m : Nodes K) (h : Heap) (hI : Inv m h) (tok : Nat) (ht : LiveNode m tok)
    (hs : h.size ≠ cap) :
    ∃ h', insert cap m h tok = .ok (h', true) ∧ h'.size = h.size + 1 ∧ Inv m h' ∧
      queueContents h' = some tok ::ₘ queueContents h := by
  obtain ⟨nd, _, hd, hv⟩ := deref_live ht
  obtain ⟨a', e, r1, r2, r3, r4, _⟩ := up_spec m tok ht (h.size + 1) (h.size + 2) (h.size + 1) h.elements
    (by omega) le_rfl (by omega) hI.null
    (fun j h1 h2 h3 => hI.good j h1 (by omega))
    (fun j h1 h2 h3 h4 => hI.ord j h1 (by omega))
    (fun j h1 h2 => by omega)
  refine ⟨{ elements := a', size := h.size + 1 }, ?_, rfl, ⟨r1, r2, r3⟩, ?_⟩
  · unfold insert
    rw [hd, Res_bind_ok, if_neg hs, ← hv, e, Res_bind_ok]
  · show cont a' 1 (h.size + 1) = some tok ::ₘ cont h.elements 1 h.size
    rw [r4, cont_succ _ _ _ (by omega), upd_same]
    congr 1
    exact cont_congr (fun i h1 h2 => upd_ne _ _ (by omega))

/-- At capacity: the last element is replaced by a larger one, or nothing happens. -/
theorem insert_full (cap : Nat) (m : Nodes K) (h : Heap) (hI : Inv m h) (tok : Nat) (ht : LiveNode m tok)
    (hs : h.size = cap) (hc : 0 < cap) :
    ∃ h' b, insert cap m h tok = .ok (h', b) ∧ h'.size = cap ∧ Inv m h' ∧
      (b = true ↔ va m (h.elements cap) < nodeValue m tok) ∧
      (b = false → h' = h) ∧
      (b = true → queueContents h' + {h.elements cap} = some tok ::ₘ queueContents h) := by
  obtain ⟨nd, _, hd, hv⟩ := deref_live ht
  obtain ⟨nl, hl1, hl2⟩ := deref_good (hI.good cap hc (by omega))
  unfold insert
  rw [hd, Res_bind_ok, if_pos hs, hl1, Res_bind_ok]
  by_cases hlt : nd.value > nl.value
  · rw [if_pos hlt]
    obtain ⟨a', e, r1, r2, r3, r4, _⟩ := up_spec m tok ht cap (cap + 1) cap h.elements hc le_rfl (by omega) hI.null
      (fun j h1 h2 h3 => hI.good j h1 (by omega))
      (fun j h1 h2 h3 h4 => hI.ord j h1 (by omega))
      (fun j h1 h2 => by omega)
    rw [← hv, e, Res_bind_ok]
    refine ⟨_, true, rfl, hs, ⟨r1, by rw [hs]; exact r2, by rw [hs]; exact r3⟩, ?_, by simp, ?_⟩
    · rw [hl2, hv]; simpa using hlt
    · intro _
      show cont a' 1 h.size + {h.elements cap} = some tok ::ₘ cont h.elements 1 h.size
      rw [hs, r4, cont_upd _ 1 cap cap hc le_rfl, cont_erase h.elements 1 cap cap hc le_rfl]
      rw [Multiset.cons_add, ← Multiset.singleton_add (h.elements cap), add_comm]
  · rw [if_neg hlt]
    refine ⟨h, false, rfl, hs, hI, ?_, fun _ => rfl, by simp⟩
    rw [hl2, hv]
    simpa using hlt

theorem pop_spec (m : Nodes K) (h : Heap) (hI : Inv m h) (hs : h.size ≠ 0) :
    ∃ h' p, pop m h = .ok (h', some p) ∧ h'.size = h.size - 1 ∧ Inv m h' ∧
      queueContents h = some p ::ₘ queueContents h' ∧
      ∀ q, some q ∈ queueContents h → nodeValue m q ≤ nodeValue m p := by
  obtain ⟨n, hn⟩ : ∃ n, h.size = n + 1 := ⟨h.size - 1, by omega⟩
  obtain ⟨p, hp, _⟩ := hI.good 1 le_rfl (by omega)
  have hmax : ∀ q, some q ∈ queueContents h → nodeValue m q ≤ nodeValue m p := by
    intro q hq
    obtain ⟨i, h1, h2, h3⟩ := mem_cont.mp hq
    have := ord_root m h.elements h.size hI.ord i h1 h2
    rw [h3, hp] at this
    exact this
  unfold pop
  rw [if_neg hs, hn, Nat.add_sub_cancel]
  rcases Nat.eq_zero_or_pos n with h0 | h0
  · subst h0
    have e : percolate m 0 (0 + 1 + 1) h.elements 1 = .ok (upd h.elements 1 (h.elements (0 + 1))) := by
      rw [percolate]; rfl
    rw [e, Res_bind_ok, hp]
    refine ⟨_, p, rfl, rfl, ⟨?_, ?_, ?_⟩, ?_, hmax⟩
    · show upd h.elements 1 (h.elements (0 + 1)) 0 = none
      rw [upd_ne _ _ (by omega)]; exact hI.null
    · intro i h1 h2; simp only at h2; omega
    · intro i h1 h2; simp only at h2; omega
    · show cont h.elements 1 h.size = _
      rw [hn, cont_succ _ _ _ (by omega), hp]
      congr 1
  · have hg : ∀ j, 1 < j → j ≤ n + 1 → ∃ p, h.elements j = some p ∧ LiveNode m p :=
      fun j h1 h2 => hI.good j (by omega) (by omega)
    obtain ⟨a', e, r1, r2, r3, r4, _⟩ := percolate_cont m n (n + 1 + 1) 1 h.elements le_rfl h0 (by omega) hg
    obtain ⟨a'', e', ho⟩ := percolate_ord m n (n + 1 + 1) 1 h.elements le_rfl h0 (by omega) hg
      (fun j h1 h2 h3 h4 => hI.ord j h1 (by omega)) (fun j _ _ h => by omega) (fun h => by omega)
    rw [e] at e'
    cases e'
    rw [e, Res_bind_ok, hp]
    refine ⟨_, p, rfl, rfl, ⟨by rw [← hI.null]; exact r2 0 (by omega), fun i h1 h2 => r4 i h1 h2, ho⟩, ?_, hmax⟩
    show cont h.elements 1 h.size = some p ::ₘ cont a' 1 n
    rw [r1, hn, cont_upd _ 1 n 1 le_rfl h0, cont_succ _ _ _ (by omega), cont_erase _ 1 n 1 le_rfl h0, hp,
      Multiset.cons_swap]

/-! ### Pruning -/

/-- Whether the node behind a pointer is pruned. -/
def prunedAt (levelat cut : Nat) (thr : K) (m : Nodes K) (p : Option Nat) : Prop :=
  ∃ q nd, p = some q ∧ m[q]? = some (some nd) ∧ pruned levelat cut thr nd = true

omit [Field K] [LinearOrder K] in
theorem free_ok {m : Nodes K} {p : Nat} (h : LiveNode m p) : free m (some p) = .ok (m.set p none) := by
  obtain ⟨nd, h⟩ := h
  simp [free, h]

open Classical in
theorem cutLoop_spec (levelat cut : Nat) (thr : K) :
    ∀ (i : Nat) (m : Nodes K) (h : Heap), i ≤ h.size → Good m h.elements 1 h.size →
      (cont h.elements 1 h.size).Nodup →
      ∃ m' h', cutLoop levelat cut thr i m h = .ok (m', h') ∧
        Good m' h'.elements 1 h'.size ∧ h'.elements 0 = h.elements 0 ∧
        cont h'.elements 1 h'.size =
          (cont h.elements 1 i).filter (fun p => ¬ prunedAt levelat cut thr m p) + cont h.elements (i + 1) h.size ∧
        m'.length = m.length ∧
        ∀ p, m'[p]? = if some p ∈ cont h.elements 1 i ∧ prunedAt levelat cut thr m (some p) then some none else m[p]? := by
  intro i
  induction i with
  | zero =>
    intro m h _ hg _
    refine ⟨m, h, rfl, hg, rfl, ?_, rfl, ?_⟩
    · rw [cont_empty _ 1 0 (by omega)]; simp
    · intro p; rw [cont_empty _ 1 0 (by omega)]; simp
  | succ i ih =>
    intro m h hi hg hn
    obtain ⟨p, hp, hlive⟩ := hg (i + 1) (by omega) hi
    obtain ⟨nd, hnd, hd, _⟩ := deref_live hlive
    rw [cutLoop, hp, hd, Res_bind_ok]
    have hsplit1 : cont h.elements 1 (i + 1) = some p ::ₘ cont h.elements 1 i := by
      rw [cont_succ _ _ _ (by omega), hp]
    by_cases hpr : pruned levelat cut thr nd = true
    · have hpa : prunedAt levelat cut thr m (some p) := ⟨p, nd, rfl, hnd, hpr⟩
      rw [if_pos hpr, free_ok hlive, Res_bind_ok]
      -- `p` occurs once
      have hall : cont h.elements 1 h.size =
          some p ::ₘ (cont h.elements 1 i + cont h.elements (i + 1 + 1) h.size) := by
        rw [cont_split h.elements h.size (i + 1) hi, hsplit1, Multiset.cons_add]
      have hnot : some p ∉ cont h.elements 1 i + cont h.elements (i + 1 + 1) h.size := by
        have := hn
        rw [hall] at this
        exact (Multiset.nodup_cons.mp this).1
      have hnd2 : (cont h.elements 1 i + cont h.elements (i + 1 + 1) h.size).Nodup := by
        have := hn
        rw [hall] at this
        exact (Multiset.nodup_cons.mp this).2
      have hset : ∀ q, q ≠ p → (m.set p none)[q]? = m[q]? := by
        intro q hq
        rw [List.getElem?_set_ne (Ne.symm hq)]
      have hplen : p < m.length := by
        by_contra hcon
        rw [List.getElem?_eq_none (by omega)] at hnd
        cases hnd
      have hsetp : (m.set p none)[p]? = some none := by
        rw [List.getElem?_set_self hplen]
      have hlive' : ∀ j, 1 ≤ j → j ≤ h.size → j ≠ i + 1 → ∃ q, h.elements j = some q ∧ LiveNode (m.set p none) q := by
        intro j h1 h2 h3
        obtain ⟨q, hq, nq, hq2⟩ := hg j h1 h2
        refine ⟨q, hq, nq, ?_⟩
        rw [hset q ?_]
        · exact hq2
        · rintro rfl
          apply hnot
          rw [Multiset.mem_add]
          rcases Nat.lt_or_ge j (i + 1) with hlt | hge
          · left; exact mem_cont.mpr ⟨j, h1, by omega, hq⟩
          · right; exact mem_cont.mpr ⟨j, by omega, h2, hq⟩
      -- the array after `percolate`
      obtain ⟨n, hsz⟩ : ∃ n, h.size = n + 1 := ⟨h.size - 1, by omega⟩
      have hperc : ∃ a', percolate (m.set p none) (h.size - 1) (h.size + 1) h.elements (i + 1) = .ok a' ∧
          (∀ j, j < i + 1 → a' j = h.elements j) ∧ Good (m.set p none) a' 1 n ∧
          cont a' (i + 1) n = cont h.elements (i + 1 + 1) (n + 1) := by
        rw [hsz, Nat.add_sub_cancel]
        rcases Nat.lt_or_ge n (i + 1) with hlt | hge
        · have hin : i = n := by omega
          subst hin
          refine ⟨upd h.elements (i + 1) (h.elements (i + 1)), ?_, ?_, ?_, ?_⟩
          · rw [percolate, if_pos (by omega)]
          · intro j hj; exact upd_ne _ _ (by omega)
          · intro j h1 h2
            rw [upd_ne _ _ (by omega)]
            exact hlive' j h1 (by omega) (by omega)
          · rw [cont_empty _ _ _ (by omega), cont_empty _ _ _ (by omega)]
        · obtain ⟨a', e, _, r2, _, r4, r5⟩ := percolate_cont (m.set p none) n (n + 1 + 1) (i + 1) h.elements (by omega) hge
            (by omega) (fun j h1 h2 => hlive' j (by omega) (by omega) (by omega))
          refine ⟨a', e, r2, ?_, ?_⟩
          · intro j h1 h2
            rcases Nat.lt_or_ge j (i + 1) with hlt | hge'
            · rw [r2 j hlt]; exact hlive' j h1 (by omega) (by omega)
            · exact r4 j hge' h2
          · rw [r5, cont_cons _ _ _ hge, upd_same, cont_succ _ _ _ (by omega)]
            congr 1
            exact cont_congr (fun j h1 h2 => upd_ne _ _ (by omega))
      obtain ⟨a', e, q1, q2, q3⟩ := hperc
      rw [e, Res_bind_ok]
      have hpre : cont a' 1 i = cont h.elements 1 i := cont_congr (fun j h1 h2 => q1 j (by omega))
      have hcont' : cont a' 1 n = cont h.elements 1 i + cont h.elements (i + 1 + 1) h.size := by
        rw [cont_split a' n i (by omega), hpre, q3, hsz]
      obtain ⟨m', h', e', g1, g0, g2, g3, g4⟩ := ih (m.set p none) { elements := a', size := h.size - 1 }
        (by simp only; omega)
        (by simp only; rw [hsz, Nat.add_sub_cancel]; exact q2)
        (by simp only; rw [hsz, Nat.add_sub_cancel, hcont']; exact hnd2)
      have hpaiff : ∀ q, some q ∈ cont h.elements 1 i →
          (prunedAt levelat cut thr (m.set p none) (some q) ↔ prunedAt levelat cut thr m (some q)) := by
        intro q hq
        have hqp : q ≠ p := by
          rintro rfl
          exact hnot (Multiset.mem_add.mpr (Or.inl hq))
        unfold prunedAt
        constructor
        · rintro ⟨r, nr, hr, h1, h2⟩
          cases hr
          exact ⟨q, nr, rfl, by rw [hset q hqp] at h1; exact h1, h2⟩
        · rintro ⟨r, nr, hr, h1, h2⟩
          cases hr
          exact ⟨q, nr, rfl, by rw [hset q hqp]; exact h1, h2⟩
      refine ⟨m', h', e', g1, by rw [g0]; exact q1 0 (by omega), ?_, by rw [g3, List.length_set], ?_⟩
      · rw [g2]
        simp only
        rw [hpre, hsz, Nat.add_sub_cancel, q3, hsplit1, Multiset.filter_cons_of_neg _ (by simpa using hpa)]
        congr 1
        apply Multiset.filter_congr
        intro q hq
        obtain ⟨j, h1, h2, h3⟩ := mem_cont.mp hq
        obtain ⟨r, hr, _⟩ := hg j h1 (by omega)
        rw [h3] at hr
        subst hr
        rw [hpaiff r hq]
      · intro q
        rw [g4 q]
        simp only
        rw [hpre, hsplit1]
        by_cases hqp : q = p
        · subst hqp
          rw [if_neg (by
            rintro ⟨h1, _⟩
            exact hnot (Multiset.mem_add.mpr (Or.inl h1)))]
          rw [if_pos ⟨Multiset.mem_cons_self _ _, hpa⟩]
          exact hsetp
        · rw [hset q hqp]
          by_cases hq : some q ∈ cont h.elements 1 i
          · simp only [hq, hpaiff q hq, Multiset.mem_cons, or_true, true_and]
          · have : some q ∉ some p ::ₘ cont h.elements 1 i := by
              rw [Multiset.mem_cons]
              rintro (h1 | h1)
              · exact hqp (Option.some.inj h1)
              · exact hq h1
            simp only [hq, this, false_and]
    · have hpa : ¬ prunedAt levelat cut thr m (some p) := by
        rintro ⟨q, nq, h1, h2, h3⟩
        cases h1
        rw [hnd] at h2
        cases h2
        exact hpr h3
      rw [if_neg hpr]
      obtain ⟨m', h', e', g1, g0, g2, g3, g4⟩ := ih m h (by omega) hg hn
      refine ⟨m', h', e', g1, g0, ?_, g3, ?_⟩
      · rw [g2, hsplit1, Multiset.filter_cons_of_pos (p := fun p => ¬ prunedAt levelat cut thr m p) _ hpa, cont_cons _ (i + 1) _ hi, hp,
          Multiset.cons_add, Multiset.add_cons]
      · intro q
        rw [g4 q, hsplit1]
        by_cases hqp : q = p
        · subst hqp
          simp only [hpa, and_false]
        · have : some q ∈ some p ::ₘ cont h.elements 1 i ↔ some q ∈ cont h.elements 1 i := by
            rw [Multiset.mem_cons]
            constructor
            · rintro (h1 | h1)
              · exact absurd (Option.some.inj h1) hqp
              · exact h1
            · exact Or.inr
          simp only [this]

/-! ### The table of visited states -/

/-- What identifies a state. -/
abbrev Key := Nat × List Int

omit [Field K] [LinearOrder K] in
/-- The key of a node. -/
def key (nd : Node K) : Key := (nd.level, nd.fnames)

omit [Field K] [LinearOrder K] in
/-- The key behind a pointer. -/
def keyOf (m : Nodes K) (p : Nat) : Option (Option Key) := m[p]?.map (Option.map key)

/-- The hash of a key. -/
def hkey (k : Key) : Nat := (List.range k.1).foldl (fun s i => s + (k.2.getD i 0 * k.2.getD i 0).toNat) 0

omit [Field K] [LinearOrder K] in
theorem hashIndex_ok (nd : Node K) (L : Nat) (hL : 0 < L) (hw : nd.fnames.length = nd.level) :
    hashIndex nd L = .ok (hkey (key nd) % L) := by
  unfold hashIndex
  rw [foldlM_ok _ (fun s i => s + (nd.fnames.getD i 0 * nd.fnames.getD i 0).toNat), Res_bind_ok, if_neg (by omega)]
  · rfl
  · intro i hi b
    rw [List.mem_range] at hi
    have hil : i < nd.fnames.length := by omega
    simp only [vget, List.getElem?_eq_getElem hil, Res_bind_ok, Res_pure, List.getD_eq_getElem _ _ hil]

theorem eqCount_ok (a b : List Int) : ∀ (n i : Nat), i + n = a.length → a.length = b.length →
    ∃ k, eqCount a b n i = .ok k ∧ k ≤ n ∧ (k = n ↔ a.drop i = b.drop i) := by
  intro n
  induction n with
  | zero =>
    intro i h1 h2
    refine ⟨0, rfl, le_rfl, ?_⟩
    rw [List.drop_eq_nil_of_le (by omega), List.drop_eq_nil_of_le (by omega)]
    simp
  | succ n ih =>
    intro i h1 h2
    have hia : i < a.length := by omega
    have hib : i < b.length := by omega
    rw [eqCount]
    simp only [vget, List.getElem?_eq_getElem hia, List.getElem?_eq_getElem hib, Res_bind_ok]
    rw [List.drop_eq_getElem_cons hia, List.drop_eq_getElem_cons hib]
    by_cases hx : a[i] = b[i]
    · rw [if_pos hx]
      obtain ⟨k, e, hk, hiff⟩ := ih (i + 1) (by omega) h2
      rw [e, Res_bind_ok, Res_pure]
      refine ⟨k + 1, rfl, by omega, ?_⟩
      rw [hx, List.cons.injEq]
      simp only [true_and, ← hiff]
      omega
    · rw [if_neg hx]
      refine ⟨0, rfl, by omega, ?_⟩
      rw [List.cons.injEq]
      constructor
      · intro h; omega
      · rintro ⟨h, _⟩; exact absurd h hx

omit [Field K] [LinearOrder K] in
theorem nodeEqual_ok (a b : Node K) (ha : a.fnames.length = a.level) (hb : b.fnames.length = b.level) :
    ∃ r, nodeEqual a b = .ok r ∧ (r = true ↔ key a = key b) := by
  unfold nodeEqual
  by_cases hl : a.level = b.level
  · rw [if_neg (by simpa using hl)]
    obtain ⟨k, e, _, hiff⟩ := eqCount_ok a.fnames b.fnames a.level 0 (by omega) (by omega)
    rw [e, Res_bind_ok]
    refine ⟨_, rfl, ?_⟩
    rw [decide_eq_true_iff, hiff]
    simp [key, hl]
  · rw [if_pos hl]
    refine ⟨false, rfl, ?_⟩
    simp [key, hl]

/-- Every slot of a bucket points to a live node with that hash. -/
def HInv (m : Nodes K) (h : Hash) : Prop :=
  ∀ (idx : Nat) (b : List Nat), h.buckets[idx]? = some b → ∀ q ∈ b, ∃ k, keyOf m q = some (some k) ∧ k.2.length = k.1 ∧
    hkey k % h.buckets.length = idx

/-- A state is in the table. -/
def InTable (m : Nodes K) (h : Hash) (k : Key) : Prop :=
  ∃ (idx : Nat) (b : List Nat) (q : Nat), h.buckets[idx]? = some b ∧ q ∈ b ∧ keyOf m q = some (some k)

omit [Field K] [LinearOrder K] in
theorem keyOf_some {m : Nodes K} {q : Nat} {k : Key} (h : keyOf m q = some (some k)) :
    ∃ nd, m[q]? = some (some nd) ∧ key nd = k := by
  unfold keyOf at h
  match hm : m[q]? with
  | none => rw [hm] at h; simp at h
  | some none => rw [hm] at h; simp at h
  | some (some nd) => rw [hm] at h; simp at h; exact ⟨nd, rfl, h⟩

omit [Field K] [LinearOrder K] in
theorem scan_ok (m : Nodes K) (nd : Node K) (hw : nd.fnames.length = nd.level) (b : List Nat)
    (hb : ∀ q ∈ b, ∃ k, keyOf m q = some (some k) ∧ k.2.length = k.1) :
    (∃ q ∈ b, keyOf m q = some (some (key nd)) ∧ scan m nd b = .ok (some q)) ∨
    ((∀ q ∈ b, keyOf m q ≠ some (some (key nd))) ∧ scan m nd b = .ok none) := by
  induction b with
  | nil => right; exact ⟨by simp, rfl⟩
  | cons q b ih =>
    obtain ⟨k, hk, hkl⟩ := hb q (by simp)
    obtain ⟨oth, ho, hok⟩ := keyOf_some hk
    have hd : deref m (some q) = .ok oth := by simp [deref, ho]
    obtain ⟨r, hr, hriff⟩ := nodeEqual_ok nd oth hw (by rw [← hok] at hkl; exact hkl)
    rw [scan, hd, Res_bind_ok, hr, Res_bind_ok]
    by_cases hrt : r = true
    · left
      rw [if_pos hrt]
      refine ⟨q, by simp, ?_, rfl⟩
      rw [hk, ← hok, hriff.mp hrt]
    · rw [if_neg hrt]
      rcases ih (fun q hq => hb q (by simp [hq])) with ⟨q', h1, h2, h3⟩ | ⟨h1, h2⟩
      · left; exact ⟨q', by simp [h1], h2, h3⟩
      · right
        refine ⟨?_, h2⟩
        intro q' hq'
        rcases List.mem_cons.mp hq' with rfl | hq'
        · rw [hk, ← hok]
          intro hcon
          simp only [Option.some.injEq] at hcon
          exact hrt (hriff.mpr hcon.symm)
        · exact h1 q' hq'

omit [Field K] [LinearOrder K] in
theorem keyOf_set_ne (m : Nodes K) (p q : Nat) (x : Option (Node K)) (h : q ≠ p) : keyOf (m.set p x) q = keyOf m q := by
  unfold keyOf
  rw [List.getElem?_set_ne (Ne.symm h)]

theorem refound_ok (m : Nodes K) (p q : Nat) (nd : Node K) (hp : m[p]? = some (some nd)) (hpq : p ≠ q)
    (hq : LiveNode m q) :
    ∃ m', refound m p q nd = .ok m' ∧ ∀ r, r ≠ p → keyOf m' r = keyOf m r := by
  obtain ⟨oth, ho, hd, _⟩ := deref_live hq
  unfold refound
  rw [hd, Res_bind_ok]
  by_cases hc : oth.rgamma < 0 ∧ oth.value < nd.value
  · simp only [if_pos hc]
    have hl : LiveNode (store m q { oth with pgamma := nd.pgamma, value := nd.value }) p := by
      refine ⟨nd, ?_⟩
      unfold store
      rw [List.getElem?_set_ne (Ne.symm hpq)]
      exact hp
    rw [free_ok hl]
    refine ⟨_, rfl, ?_⟩
    intro r hr
    rw [keyOf_set_ne _ _ _ _ hr]
    unfold store
    by_cases hrq : r = q
    · subst hrq
      have hlen : r < m.length := by
        by_contra hcon
        rw [List.getElem?_eq_none (by omega)] at ho
        cases ho
      unfold keyOf
      rw [List.getElem?_set_self hlen, ho]
      rfl
    · rw [keyOf_set_ne _ _ _ _ hrq]
  · simp only [if_neg hc]
    rw [free_ok ⟨nd, hp⟩]
    exact ⟨_, rfl, fun r hr => keyOf_set_ne _ _ _ _ hr⟩

/-- One call of `add`. -/
theorem add_ok (m : Nodes K) (h : Hash) (hI : HInv m h) (hL : 0 < h.buckets.length) (p : Nat) (nd : Node K)
    (hp : m[p]? = some (some nd)) (hw : nd.fnames.length = nd.level)
    (hnew : ∀ b ∈ h.buckets, p ∉ b) :
    (∃ m', InTable m h (key nd) ∧ add m h p = .ok (m', h, false) ∧ (∀ r, r ≠ p → keyOf m' r = keyOf m r)) ∨
    (∃ (h' : Hash) (idx : Nat) (b : List Nat), ¬ InTable m h (key nd) ∧ add m h p = .ok (m, h', true) ∧ h.buckets[idx]? = some b ∧
      b.length < h.width ∧ idx = hkey (key nd) % h.buckets.length ∧
      h' = { h with buckets := h.buckets.set idx (b ++ [p]) }) ∨
    (∃ (idx : Nat) (b : List Nat), h.buckets[idx]? = some b ∧ h.width ≤ b.length ∧ add m h p = .error .exit1) := by
  have hd : deref m (some p) = .ok nd := by simp [deref, hp]
  have hidx : hkey (key nd) % h.buckets.length < h.buckets.length := Nat.mod_lt _ hL
  have hb := List.getElem?_eq_getElem hidx
  unfold add
  rw [hd, Res_bind_ok, hashIndex_ok nd _ hL hw, Res_bind_ok]
  simp only [vget, hb, Res_bind_ok]
  rcases scan_ok m nd hw _ (fun q hq => by
      obtain ⟨k, h1, h2, _⟩ := hI _ _ hb q hq
      exact ⟨k, h1, h2⟩) with ⟨q, h1, h2, h3⟩ | ⟨h1, h2⟩
  · left
    have hpq : p ≠ q := by
      rintro rfl
      exact hnew _ (List.getElem_mem hidx) h1
    obtain ⟨nq, hq, _⟩ := keyOf_some h2
    obtain ⟨m', e, hk⟩ := refound_ok m p q nd hp hpq ⟨nq, hq⟩
    rw [h3, Res_bind_ok]
    dsimp only
    rw [e, Res_bind_ok]
    exact ⟨m', ⟨_, _, q, hb, h1, h2⟩, rfl, hk⟩
  · right
    rw [h2, Res_bind_ok]
    dsimp only
    by_cases hfull : h.buckets[hkey (key nd) % h.buckets.length].length ≥ h.width
    · right
      rw [if_pos hfull]
      exact ⟨_, _, hb, hfull, rfl⟩
    · left
      rw [if_neg hfull, vset, if_pos hidx, Res_bind_ok]
      refine ⟨_, _, _, ?_, rfl, hb, by omega, rfl, rfl⟩
      rintro ⟨idx', b', q, hb', hq, hk⟩
      obtain ⟨k, hk', _, hki⟩ := hI idx' b' hb' q hq
      rw [hk] at hk'
      simp only [Option.some.injEq] at hk'
      rw [← hk'] at hki
      subst hki
      rw [hb] at hb'
      cases hb'
      exact h1 q hq hk

/-- The invariant after a state is found again. -/
theorem hinv_found {m m' : Nodes K} {h : Hash} (hI : HInv m h) {p : Nat} (hnew : ∀ b ∈ h.buckets, p ∉ b)
    (hk : ∀ r, r ≠ p → keyOf m' r = keyOf m r) :
    HInv m' h ∧ ∀ k, InTable m' h k ↔ InTable m h k := by
  have hne : ∀ (idx : Nat) b, h.buckets[idx]? = some b → ∀ q ∈ b, q ≠ p := by
    rintro idx b hb q hq rfl
    exact hnew b (List.mem_of_getElem? hb) hq
  constructor
  · intro idx b hb q hq
    rw [hk q (hne idx b hb q hq)]
    exact hI idx b hb q hq
  · intro k
    constructor
    · rintro ⟨idx, b, q, hb, hq, h1⟩
      exact ⟨idx, b, q, hb, hq, by rw [← hk q (hne idx b hb q hq)]; exact h1⟩
    · rintro ⟨idx, b, q, hb, hq, h1⟩
      exact ⟨idx, b, q, hb, hq, by rw [hk q (hne idx b hb q hq)]; exact h1⟩

/-- The invariant after a state is added. -/
theorem hinv_added {m : Nodes K} {h : Hash} (hI : HInv m h) {p : Nat} {k : Key} (hp : keyOf m p = some (some k))
    (hw : k.2.length = k.1) {idx : Nat} {b : List Nat} (hb : h.buckets[idx]? = some b)
    (hidx : idx = hkey k % h.buckets.length) :
    HInv m { h with buckets := h.buckets.set idx (b ++ [p]) } ∧
      ∀ k', InTable m { h with buckets := h.buckets.set idx (b ++ [p]) } k' ↔ (InTable m h k' ∨ k' = k) := by
  have hlt : idx < h.buckets.length := by
    by_contra hcon
    rw [List.getElem?_eq_none (by omega)] at hb
    cases hb
  constructor
  · intro i b' hb' q hq
    simp only [List.length_set] at hb' ⊢
    by_cases hi : i = idx
    · subst hi
      rw [List.getElem?_set_self hlt] at hb'
      cases hb'
      rw [List.mem_append, List.mem_singleton] at hq
      rcases hq with hq | rfl
      · exact hI i b hb q hq
      · exact ⟨k, hp, hw, hidx.symm⟩
    · rw [List.getElem?_set_ne (Ne.symm hi)] at hb'
      exact hI i b' hb' q hq
  · intro k'
    constructor
    · rintro ⟨i, b', q, hb', hq, h1⟩
      simp only at hb'
      by_cases hi : i = idx
      · subst hi
        rw [List.getElem?_set_self hlt] at hb'
        cases hb'
        rw [List.mem_append, List.mem_singleton] at hq
        rcases hq with hq | rfl
        · exact Or.inl ⟨i, b, q, hb, hq, h1⟩
        · right
          rw [hp] at h1
          simp only [Option.some.injEq] at h1
          exact h1.symm
      · rw [List.getElem?_set_ne (Ne.symm hi)] at hb'
        exact Or.inl ⟨i, b', q, hb', hq, h1⟩
    · rintro (⟨i, b', q, hb', hq, h1⟩ | rfl)
      · by_cases hi : i = idx
        · subst hi
          rw [hb] at hb'
          cases hb'
          exact ⟨i, b ++ [p], q, List.getElem?_set_self hlt, by simp [hq], h1⟩
        · exact ⟨i, b', q, by simp only; rw [List.getElem?_set_ne (Ne.symm hi)]; exact hb', hq, h1⟩
      · exact ⟨idx, b ++ [p], p, List.getElem?_set_self hlt, by simp, hp⟩

/-- A whole history of additions: `seen` describes the states already in the table. -/
theorem addStates_ok :
    ∀ (ps : List Nat) (m : Nodes K) (h : Hash) (keys : List Key) (seen : Key → Prop) (n : Nat),
      HInv m h → 0 < h.buckets.length → (∀ k, InTable m h k ↔ seen k) →
      ps.Nodup → (∀ p ∈ ps, ∀ b ∈ h.buckets, p ∉ b) →
      (∀ b ∈ h.buckets, b.length ≤ n) →
      ps.map (keyOf m) = keys.map (fun k => some (some k)) → (∀ k ∈ keys, k.2.length = k.1) →
      (∃ m' h' bs, addStates m h ps = .ok (m', h', bs) ∧ bs.length = keys.length ∧
        ∀ (i : Nat) (k : Key), keys[i]? = some k →
          (bs[i]? = some true ↔ (¬ seen k ∧ ∀ (j : Nat), j < i → keys[j]? ≠ some k))) ∨
      (addStates m h ps = .error .exit1 ∧ h.width < n + ps.length) := by
  intro ps
  induction ps with
  | nil =>
    intro m h keys seen n _ _ _ _ _ _ hk _
    left
    have : keys = [] := by
      cases keys with
      | nil => rfl
      | cons a l => simp at hk
    subst this
    exact ⟨m, h, [], rfl, rfl, by intro i k hi; simp at hi⟩
  | cons p ps ih =>
    intro m h keys seen n hI hL hseen hnd hnew hlen hk hw
    obtain ⟨k, keys, rfl⟩ : ∃ k ks, keys = k :: ks := by
      cases keys with
      | nil => simp at hk
      | cons a l => exact ⟨a, l, rfl⟩
    rw [List.map_cons, List.map_cons, List.cons.injEq] at hk
    obtain ⟨hkp, hks⟩ := hk
    obtain ⟨nd, hp, hnk⟩ := keyOf_some hkp
    have hwk := hw k (by simp)
    have hwn : nd.fnames.length = nd.level := by rw [← hnk] at hwk; exact hwk
    have hnewp := hnew p (by simp)
    have hpps : p ∉ ps := (List.nodup_cons.mp hnd).1
    have hps := (List.nodup_cons.mp hnd).2
    rcases add_ok m h hI hL p nd hp hwn hnewp with ⟨m', h1, h2, h3⟩ | ⟨h', idx, b, h1, h2, h3, h4, h5, h6⟩ | ⟨idx, b, h1, h2, h3⟩
    · obtain ⟨hI', hT'⟩ := hinv_found hI hnewp h3
      rw [hnk] at h1
      rcases ih m' h keys seen n hI' hL (fun k => (hT' k).trans (hseen k)) hps
        (fun q hq => hnew q (by simp [hq])) hlen
        (by
          rw [← hks]
          apply List.map_congr_left
          intro q hq
          exact h3 q (by rintro rfl; exact hpps hq))
        (fun k hk => hw k (by simp [hk])) with ⟨m'', h'', bs, e, hl, hb⟩ | ⟨e, hl⟩
      · left
        refine ⟨m'', h'', false :: bs, ?_, by simp [hl], ?_⟩
        · rw [addStates, h2]
          simp only [e]
        · intro i k' hi
          cases i with
          | zero =>
            simp only [List.getElem?_cons_zero, Option.some.injEq] at hi ⊢
            subst hi
            constructor
            · intro h; cases h
            · rintro ⟨h, _⟩; exact absurd ((hseen _).mp h1) h
          | succ i =>
            rw [List.getElem?_cons_succ] at hi ⊢
            rw [hb i k' hi]
            constructor
            · rintro ⟨a1, a2⟩
              refine ⟨a1, ?_⟩
              intro j hj
              cases j with
              | zero =>
                rw [List.getElem?_cons_zero]
                intro hcon
                cases hcon
                exact a1 ((hseen _).mp h1)
              | succ j => rw [List.getElem?_cons_succ]; exact a2 j (by omega)
            · rintro ⟨a1, a2⟩
              refine ⟨a1, ?_⟩
              intro j hj
              have := a2 (j + 1) (by omega)
              rwa [List.getElem?_cons_succ] at this
      · right
        refine ⟨?_, by simp only [List.length_cons]; omega⟩
        rw [addStates, h2]
        simp only [e]
    · rw [hnk] at h1 h5
      obtain ⟨hI', hT'⟩ := hinv_added hI hkp hwk h3 h5
      have hmem : b ∈ h.buckets := List.mem_of_getElem? h3
      have hbk : ∀ b' ∈ h'.buckets, b' ∈ h.buckets ∨ b' = b ++ [p] := by
        intro b' hb'
        rw [h6] at hb'
        exact List.mem_or_eq_of_mem_set hb'
      rcases ih m h' keys (fun k' => seen k' ∨ k' = k) (n + 1) (by rw [h6]; exact hI')
        (by rw [h6]; simpa using hL)
        (fun k' => by rw [h6, hT' k', hseen k']) hps
        (by
          intro q hq b' hb'
          rcases hbk b' hb' with h | rfl
          · exact hnew q (by simp [hq]) b' h
          · rw [List.mem_append, List.mem_singleton]
            rintro (h | rfl)
            · exact hnew q (by simp [hq]) b hmem h
            · exact hpps hq)
        (by
          intro b' hb'
          rcases hbk b' hb' with h | rfl
          · have := hlen b' h; omega
          · have := hlen b hmem
            rw [List.length_append, List.length_singleton]; omega)
        hks (fun k hk => hw k (by simp [hk])) with ⟨m'', h'', bs, e, hl, hb⟩ | ⟨e, hl⟩
      · left
        refine ⟨m'', h'', true :: bs, ?_, by simp [hl], ?_⟩
        · rw [addStates, h2]
          simp only [e]
        · intro i k' hi
          cases i with
          | zero =>
            simp only [List.getElem?_cons_zero, Option.some.injEq] at hi ⊢
            subst hi
            constructor
            · intro _
              exact ⟨fun h => h1 ((hseen _).mpr h), fun j hj => by omega⟩
            · intro _; trivial
          | succ i =>
            rw [List.getElem?_cons_succ] at hi ⊢
            rw [hb i k' hi]
            constructor
            · rintro ⟨a1, a2⟩
              refine ⟨fun h => a1 (Or.inl h), ?_⟩
              intro j hj
              cases j with
              | zero =>
                rw [List.getElem?_cons_zero]
                intro hcon
                cases hcon
                exact a1 (Or.inr rfl)
              | succ j => rw [List.getElem?_cons_succ]; exact a2 j (by omega)
            · rintro ⟨a1, a2⟩
              refine ⟨?_, ?_⟩
              · rintro (h | rfl)
                · exact a1 h
                · exact a2 0 (by omega) rfl
              · intro j hj
                have := a2 (j + 1) (by omega)
                rwa [List.getElem?_cons_succ] at this
      · right
        refine ⟨?_, by rw [h6] at hl; simp only [List.length_cons] at hl ⊢; omega⟩
        rw [addStates, h2]
        simp only [e]
    · right
      refine ⟨?_, ?_⟩
      · rw [addStates, h3]
      · have := hlen b (List.mem_of_getElem? h1)
        simp only [List.length_cons]
        omega

end
end MLTK.Aos
