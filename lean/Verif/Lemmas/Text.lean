import Mathlib.Tactic.Ring
import Mathlib.Tactic.Linarith
import Mathlib.Tactic.FieldSimp
import Mathlib.Tactic.NormNum
import Mathlib.Data.Nat.Bitwise
import Verif.Model.Text
import Verif.Spec.Text
import Verif.Lemmas.Util
/-!
# Lemmas about text conversion
-/
namespace MLTK.Text
open MLTK.Data (Res_bind_ok Res_bind_error Res_pure)
open MLTK.Spec

/-! ### tokenize -/

theorem findIdx?_split {α : Type} (p : α → Bool) : ∀ (l : List α),
    (l.findIdx? p = none ∧ ∀ x ∈ l, p x = false) ∨
    (∃ a c b, l = a ++ c :: b ∧ (∀ x ∈ a, p x = false) ∧ p c = true ∧ l.findIdx? p = some a.length)
  | [] => Or.inl ⟨rfl, by simp⟩
  | x :: l => by
    by_cases hx : p x = true
    · exact Or.inr ⟨[], x, l, rfl, by simp, hx, by simp [List.findIdx?_cons, hx]⟩
    · rcases findIdx?_split p l with ⟨h1, h2⟩ | ⟨a, c, b, h1, h2, h3, h4⟩
      · exact Or.inl ⟨by simp [List.findIdx?_cons, hx, h1], by simpa [hx] using h2⟩
      · refine Or.inr ⟨x :: a, c, b, by simp [h1], by simpa [hx] using h2, h3, ?_⟩
        simp [List.findIdx?_cons, hx, h4]

theorem tokenizeLoop_pieces (d : Char) (s : List Char) : ∀ (n e : Nat), (s.drop e).length < n →
    Pieces d (s.drop e) (tokenizeLoop d s n (some e)) := by
  intro n
  induction n with
  | zero => intro e h; omega
  | succ n ih =>
    intro e hn
    simp only [tokenizeLoop, findFirstNot]
    rcases findIdx?_split (fun c => decide (c ≠ d)) (s.drop e) with ⟨h1, h2⟩ | ⟨a, c, b, h1, h2, h3, h4⟩
    · simp only [h1, Option.map_none]
      exact Pieces.nil _ (fun c hc => by simpa using h2 c hc)
    · simp only [h4, Option.map_some, findFrom]
      have hdrop : s.drop (a.length + e) = c :: b := by
        rw [Nat.add_comm, ← List.drop_drop, h1, List.drop_left]
      rw [hdrop]
      have hlead : ∀ x ∈ a, x = d := fun x hx => by simpa using h2 x hx
      have hc : c ≠ d := by simpa using h3
      rcases findIdx?_split (fun c => decide (c = d)) (c :: b) with ⟨k1, k2⟩ | ⟨a', c', b', k1, k2, k3, k4⟩
      · simp only [k1, Option.map_none]
        have : tokenizeLoop d s n none = [] := by cases n <;> rfl
        rw [this]
        have hp := Pieces.cons (d := d) a (c :: b) [] [] hlead (by simp)
          (fun hd => by simpa using k2 d hd) (Or.inl rfl) (Pieces.nil _ (by simp))
        rw [List.append_nil] at hp
        rw [h1]; exact hp
      · simp only [k4, Option.map_some]
        have hd' : c' = d := by simpa using k3
        have hne : a' ≠ [] := by
          rintro rfl
          simp only [List.nil_append, List.cons.injEq] at k1
          exact hc (k1.1.trans hd')
        have hrest : s.drop (a'.length + (a.length + e)) = c' :: b' := by
          rw [Nat.add_comm, ← List.drop_drop, hdrop, k1, List.drop_left]
        have hlen : (s.drop (a'.length + (a.length + e))).length < n := by
          have l1 : 0 < a'.length := List.length_pos_iff.2 hne
          have l2 : (s.drop e).length = a.length + (a'.length + (c' :: b').length) := by
            rw [h1, k1]; simp
          rw [hrest]; omega
        have hp := ih _ hlen
        have htok : (c :: b).take (a'.length + (a.length + e) - (a.length + e)) = a' := by
          rw [Nat.add_sub_cancel, k1, List.take_left]
        rw [htok]
        rw [hrest] at hp
        have := Pieces.cons (d := d) a a' (c' :: b') _ hlead hne
          (fun hd => by simpa using k2 d hd) (Or.inr (by simp [hd'])) hp
        rw [h1, k1, ← List.append_assoc]
        exact this

theorem tokenize_pieces (s : List Char) (d : Char) : Pieces d s (tokenize s d) := by
  have := tokenizeLoop_pieces d s (s.length + 1) 0 (by simp)
  simpa [tokenize] using this

theorem pieces_flatten {d : Char} {s : List Char} {ts : List (List Char)} (h : Pieces d s ts) :
    ts.flatten = s.filter (· ≠ d) := by
  induction h with
  | nil s h => simp; exact fun c hc => h c hc
  | cons lead tok rest ts h1 h2 h3 h4 h5 ih =>
    rw [List.flatten_cons, ih, List.filter_append, List.filter_append]
    have e1 : lead.filter (· ≠ d) = [] := by simp; exact fun c hc => h1 c hc
    have e2 : tok.filter (· ≠ d) = tok := by
      rw [List.filter_eq_self]; intro c hc
      simp; rintro rfl; exact h3 hc
    rw [e1, e2]; simp

theorem pieces_mem {d : Char} {s : List Char} {ts : List (List Char)} (h : Pieces d s ts) :
    ∀ t ∈ ts, t ≠ [] ∧ d ∉ t := by
  induction h with
  | nil s h => simp
  | cons lead tok rest ts h1 h2 h3 h4 h5 ih =>
    intro t ht
    rcases List.mem_cons.1 ht with rfl | ht
    · exact ⟨h2, h3⟩
    · exact ih t ht

theorem takeWhile_append_stop {α : Type} (p : α → Bool) (a b : List α) (ha : ∀ x ∈ a, p x = true)
    (hb : ∀ x, b.head? = some x → p x = false) : (a ++ b).takeWhile p = a := by
  induction a with
  | nil =>
    cases b with
    | nil => rfl
    | cons x b => simp [hb x rfl]
  | cons x a ih => simp [ha x (by simp), ih (fun y hy => ha y (by simp [hy]))]

theorem dropWhile_append_stop {α : Type} (p : α → Bool) (a b : List α) (ha : ∀ x ∈ a, p x = true)
    (hb : ∀ x, b.head? = some x → p x = false) : (a ++ b).dropWhile p = b := by
  induction a with
  | nil =>
    cases b with
    | nil => rfl
    | cons x b => simp [hb x rfl]
  | cons x a ih => simp [ha x (by simp), ih (fun y hy => ha y (by simp [hy]))]

theorem pieces_inj {d : Char} {s : List Char} {ts : List (List Char)} (h : Pieces d s ts) :
    ∀ ts', Pieces d s ts' → ts = ts' := by
  induction h with
  | nil s h =>
    intro ts' h'
    cases h' with
    | nil _ _ => rfl
    | cons lead tok rest ts h1 h2 h3 h4 h5 =>
      exfalso
      cases tok with
      | nil => exact h2 rfl
      | cons c tok => exact h3 (by simp [h c (by simp)])
  | cons lead tok rest ts h1 h2 h3 h4 h5 ih =>
    intro ts' h'
    generalize hs : lead ++ tok ++ rest = s at h'
    have hdw : s.dropWhile (fun c => decide (c = d)) = tok ++ rest := by
      rw [← hs, List.append_assoc]
      refine dropWhile_append_stop _ _ _ (by simpa using h1) ?_
      intro x hx
      cases tok with
      | nil => exact absurd rfl h2
      | cons c tok =>
        simp only [List.cons_append, List.head?_cons, Option.some.injEq] at hx
        subst hx
        simp only [decide_eq_false_iff_not]
        rintro rfl; exact h3 (by simp)
    cases h' with
    | nil _ h =>
      exfalso
      cases tok with
      | nil => exact h2 rfl
      | cons c tok => exact h3 (by simp [h c (by simp [← hs])])
    | cons lead' tok' rest' ts' g1 g2 g3 g4 g5 =>
      have hdw' : (lead' ++ tok' ++ rest').dropWhile (fun c => decide (c = d)) = tok' ++ rest' := by
        rw [List.append_assoc]
        refine dropWhile_append_stop _ _ _ (by simpa using g1) ?_
        intro x hx
        cases tok' with
        | nil => exact absurd rfl g2
        | cons c tok =>
          simp only [List.cons_append, List.head?_cons, Option.some.injEq] at hx
          subst hx
          simp only [decide_eq_false_iff_not]
          rintro rfl; exact g3 (by simp)
      have heq : tok ++ rest = tok' ++ rest' := hdw.symm.trans hdw'
      have key : ∀ (t r : List Char), d ∉ t → (r = [] ∨ r.head? = some d) →
          (t ++ r).takeWhile (fun c => decide (c ≠ d)) = t ∧ (t ++ r).dropWhile (fun c => decide (c ≠ d)) = r := by
        intro t r ht hr
        have a1 : ∀ x ∈ t, decide (x ≠ d) = true := fun x hx => by
          simp; rintro rfl; exact ht hx
        have a2 : ∀ x, r.head? = some x → decide (x ≠ d) = false := fun x hx => by
          rcases hr with rfl | hr
          · simp at hx
          · rw [hr] at hx; simp at hx; simp [hx]
        exact ⟨takeWhile_append_stop _ _ _ a1 a2, dropWhile_append_stop _ _ _ a1 a2⟩
      obtain ⟨e1, e2⟩ := key tok rest h3 h4
      obtain ⟨f1, f2⟩ := key tok' rest' g3 g4
      rw [heq] at e1 e2
      have ht : tok = tok' := e1.symm.trans f1
      have hr : rest = rest' := e2.symm.trans f2
      subst ht; subst hr
      rw [ih ts' g5]

/-! ### digits -/

theorem digitChar_toNat {k : Nat} (h : k < 10) : (digitChar k).toNat = 48 + k := by
  have : ∀ k, k < 10 → (digitChar k).toNat = 48 + k := by decide
  exact this k h

theorem isDigit_digitChar {k : Nat} (h : k < 10) : isDigit (digitChar k) = true := by
  simp only [isDigit, digitChar_toNat h]; simp; omega

theorem digitVal_digitChar {k : Nat} (h : k < 10) : digitVal (digitChar k) = k := by
  simp only [digitVal, digitChar_toNat h]; push_cast; ring

theorem digitsValue_append (a b : List Nat) :
    digitsValue (a ++ b) = digitsValue a * 10 ^ b.length + digitsValue b := by
  induction a with
  | nil => simp [digitsValue]
  | cons k a ih => simp only [List.cons_append, digitsValue, ih, List.length_append, pow_add]; ring

theorem digitsValue_lt (ks : List Nat) (h : ∀ k ∈ ks, k < 10) : digitsValue ks < 10 ^ ks.length := by
  induction ks with
  | nil => simp [digitsValue]
  | cons k ks ih =>
    have h1 := ih (fun x hx => h x (by simp [hx]))
    have h2 : k < 10 := h k (by simp)
    simp only [digitsValue, List.length_cons, pow_succ]
    have : k * 10 ^ ks.length ≤ 9 * 10 ^ ks.length := Nat.mul_le_mul_right _ (by omega)
    omega

theorem digitsValue_ge (k : Nat) (ks : List Nat) (h : k ≠ 0) : 10 ^ ks.length ≤ digitsValue (k :: ks) := by
  simp only [digitsValue]
  have : 1 * 10 ^ ks.length ≤ k * 10 ^ ks.length := Nat.mul_le_mul_right _ (by omega)
  omega

/-- Digit lists of the same value and length are equal. -/
theorem digitsValue_inj : ∀ (a b : List Nat), a.length = b.length → (∀ k ∈ a, k < 10) → (∀ k ∈ b, k < 10) →
    digitsValue a = digitsValue b → a = b
  | [], [], _, _, _, _ => rfl
  | [], _ :: _, h, _, _, _ => by simp at h
  | _ :: _, [], h, _, _, _ => by simp at h
  | x :: a, y :: b, hl, ha, hb, hv => by
    have hl' : a.length = b.length := by simpa using hl
    have h1 := digitsValue_lt a (fun k hk => ha k (by simp [hk]))
    have h2 := digitsValue_lt b (fun k hk => hb k (by simp [hk]))
    simp only [digitsValue, hl'] at hv
    rw [hl'] at h1
    have hxy : x = y := by
      rcases Nat.lt_trichotomy x y with h | h | h
      · have : (x + 1) * 10 ^ b.length ≤ y * 10 ^ b.length := Nat.mul_le_mul_right _ h
        rw [Nat.add_mul] at this; omega
      · exact h
      · have : (y + 1) * 10 ^ b.length ≤ x * 10 ^ b.length := Nat.mul_le_mul_right _ h
        rw [Nat.add_mul] at this; omega
    subst hxy
    rw [digitsValue_inj a b hl' (fun k hk => ha k (by simp [hk])) (fun k hk => hb k (by simp [hk])) (by omega)]

theorem numeral_digits_unique (a b : List Nat) (ha0 : a ≠ []) (hb0 : b ≠ []) (ha : ∀ k ∈ a, k < 10)
    (hb : ∀ k ∈ b, k < 10) (hza : a.head? = some 0 → a = [0]) (hzb : b.head? = some 0 → b = [0])
    (hv : digitsValue a = digitsValue b) : a = b := by
  have key : ∀ (a b : List Nat), a ≠ [] → (∀ k ∈ a, k < 10) → (∀ k ∈ b, k < 10) → b ≠ [] →
      (b.head? = some 0 → b = [0]) → digitsValue a = digitsValue b → ¬ a.length < b.length := by
    intro a b ha0 ha hb hb0 hzb hv hl
    cases b with
    | nil => exact hb0 rfl
    | cons y b =>
      by_cases hy : y = 0
      · have := hzb (by simp [hy])
        rw [this] at hl
        simp at hl
        exact ha0 hl
      · have h1 := digitsValue_ge y b hy
        have h2 := digitsValue_lt a ha
        have h3 : 10 ^ a.length ≤ 10 ^ b.length := Nat.pow_le_pow_right (by norm_num) (by simpa [Nat.lt_succ_iff] using hl)
        omega
  have h1 := key a b ha0 ha hb hb0 hzb hv
  have h2 := key b a hb0 hb ha ha0 hza hv.symm
  exact digitsValue_inj a b (by omega) ha hb hv

theorem digitChar_inj {a b : Nat} (ha : a < 10) (hb : b < 10) (h : digitChar a = digitChar b) : a = b := by
  have := congrArg Char.toNat h
  rw [digitChar_toNat ha, digitChar_toNat hb] at this
  omega

theorem isNumeral_unique {n : Int} {s t : List Char} (hs : IsNumeral n s) (ht : IsNumeral n t) : s = t := by
  obtain ⟨a, a1, a2, a3, a4, rfl⟩ := hs
  obtain ⟨b, b1, b2, b3, b4, rfl⟩ := ht
  rw [numeral_digits_unique a b a1 b1 a2 b2 a3 b3 (a4.trans b4.symm)]

theorem map_digitChar_inj : ∀ (a b : List Nat), (∀ k ∈ a, k < 10) → (∀ k ∈ b, k < 10) →
    a.map digitChar = b.map digitChar → a = b
  | [], [], _, _, _ => rfl
  | [], _ :: _, _, _, h => by simp at h
  | _ :: _, [], _, _, h => by simp at h
  | x :: a, y :: b, ha, hb, h => by
    simp only [List.map_cons, List.cons.injEq] at h
    rw [digitChar_inj (ha x (by simp)) (hb y (by simp)) h.1,
      map_digitChar_inj a b (fun k hk => ha k (by simp [hk])) (fun k hk => hb k (by simp [hk])) h.2]

theorem digitChar_ne {k : Nat} (h : k < 10) (c : Char) (hc : c.toNat < 48 ∨ 57 < c.toNat) : digitChar k ≠ c := by
  rintro rfl
  rw [digitChar_toNat h] at hc
  omega

/-- Different integers have different numerals. -/
theorem isNumeral_inj {n m : Int} {s : List Char} (hs : IsNumeral n s) (ht : IsNumeral m s) : n = m := by
  obtain ⟨a, a1, a2, a3, a4, ha⟩ := hs
  obtain ⟨b, b1, b2, b3, b4, hb⟩ := ht
  have hne : ∀ (l : List Nat), (∀ k ∈ l, k < 10) → (l.map digitChar).head? ≠ some '-' := by
    intro l hl
    cases l with
    | nil => simp
    | cons k l =>
      simp only [List.map_cons, List.head?_cons, ne_eq, Option.some.injEq]
      exact digitChar_ne (hl k (by simp)) _ (Or.inl (by decide))
  rw [ha] at hb
  by_cases h1 : n < 0 <;> by_cases h2 : m < 0
  · simp only [h1, h2, if_true, List.cons_append, List.nil_append, List.cons.injEq, true_and] at hb
    have := map_digitChar_inj a b a2 b2 hb
    subst this; omega
  · exfalso
    simp only [h1, h2, if_true, if_false, List.cons_append, List.nil_append] at hb
    exact hne b b2 (by rw [← hb]; rfl)
  · exfalso
    simp only [h1, h2, if_true, if_false, List.cons_append, List.nil_append] at hb
    exact hne a a2 (by rw [hb]; rfl)
  · simp only [h1, h2, if_false, List.nil_append] at hb
    have := map_digitChar_inj a b a2 b2 hb
    subst this; omega

theorem digitsLoop_spec : ∀ (f n : Nat), n < 10 ^ f → ∃ ks : List Nat,
    digitsLoop f n = ks.reverse.map (48 + ·) ∧ (∀ k ∈ ks, k < 10) ∧ digitsValue ks = n ∧
    ks.head? ≠ some 0 ∧ (n = 0 ↔ ks = []) := by
  intro f
  induction f with
  | zero =>
    intro n h
    have : n = 0 := by simpa using h
    exact ⟨[], by simp [digitsLoop], by simp, by simp [digitsValue, this], by simp, by simp [this]⟩
  | succ f ih =>
    intro n h
    by_cases h0 : n = 0
    · exact ⟨[], by simp [digitsLoop, h0], by simp, by simp [digitsValue, h0], by simp, by simp [h0]⟩
    · obtain ⟨ks, k1, k2, k3, k4, k5⟩ := ih (n / 10) (by rw [pow_succ] at h; omega)
      refine ⟨ks ++ [n % 10], ?_, ?_, ?_, ?_, ?_⟩
      · simp [digitsLoop, h0, k1]; omega
      · intro k hk
        rcases List.mem_append.1 hk with h | h
        · exact k2 k h
        · simp at h; omega
      · rw [digitsValue_append, k3]; simp [digitsValue]; omega
      · cases ks with
        | nil =>
          have : n / 10 = 0 := k5.2 rfl
          simp; omega
        | cons k ks => simpa using k4
      · simp [h0]

/-! ### the in-place reversal of `itos` -/

theorem xorSwap_eq (b : List Nat) (t u : Nat) (htu : t ≠ u) (ht : t < b.length) (hu : u < b.length) :
    xorSwap b t u = (b.set t (b.getD u 0)).set u (b.getD t 0) := by
  simp only [xorSwap]
  apply List.ext_getElem?
  intro i
  simp only [List.getElem?_set, List.length_set, List.getD_eq_getElem?_getD]
  by_cases h1 : t = i <;> by_cases h2 : u = i
  · omega
  · subst h1
    simp [htu, Ne.symm htu, ht, hu]
    rw [Nat.xor_comm (b[u]), ← Nat.xor_assoc]
    simp
  · subst h2
    simp [htu, Ne.symm htu, ht, hu]
    rw [Nat.xor_comm (b[t]), ← Nat.xor_assoc]
    simp
  · simp [h1, h2]

theorem reverse_loop (b : List Nat) : ∀ k, 2 * k ≤ b.length →
    let r := (List.range k).foldl (fun c t => xorSwap c t (c.length - t - 1)) b
    r.length = b.length ∧
    ∀ i, i < b.length → r[i]? = if i < k ∨ b.length - k ≤ i then b[b.length - 1 - i]? else b[i]? := by
  intro k
  induction k with
  | zero => intro _; exact ⟨rfl, fun i hi => by simp; intro h; omega⟩
  | succ k ih =>
    intro hk
    obtain ⟨h1, h2⟩ := ih (by omega)
    simp only [List.range_succ, List.foldl_append, List.foldl_cons, List.foldl_nil]
    generalize (List.range k).foldl (fun c t => xorSwap c t (c.length - t - 1)) b = r at h1 h2
    rw [xorSwap_eq r k (r.length - k - 1) (by omega) (by omega) (by omega)]
    refine ⟨by simp [h1], fun i hi => ?_⟩
    have hk1 := h2 k (by omega)
    have hk2 := h2 (b.length - k - 1) (by omega)
    rw [if_neg (by omega)] at hk1 hk2
    simp only [List.getElem?_set, List.length_set, h1]
    by_cases e1 : b.length - k - 1 = i
    · rw [if_pos e1, if_pos (by omega), if_pos (by omega)]
      rw [List.getD_eq_getElem?_getD, hk1]
      have : b.length - 1 - i = k := by omega
      rw [this, List.getElem?_eq_getElem (by omega)]; rfl
    · rw [if_neg e1]
      by_cases e2 : k = i
      · rw [if_pos e2, if_pos (by omega), if_pos (by omega)]
        rw [List.getD_eq_getElem?_getD, hk2]
        have : b.length - 1 - i = b.length - k - 1 := by omega
        rw [this, List.getElem?_eq_getElem (by omega)]; rfl
      · rw [if_neg e2, h2 i hi]
        by_cases e3 : i < k ∨ b.length - k ≤ i
        · rw [if_pos e3, if_pos (by omega)]
        · rw [if_neg e3, if_neg (by omega)]

theorem reverse_loop_eq (b : List Nat) :
    (List.range (b.length / 2)).foldl (fun c t => xorSwap c t (c.length - t - 1)) b = b.reverse := by
  obtain ⟨h1, h2⟩ := reverse_loop b (b.length / 2) (by omega)
  apply List.ext_getElem?
  intro i
  by_cases hi : i < b.length
  · rw [h2 i hi, List.getElem?_reverse hi]
    by_cases h : i < b.length / 2 ∨ b.length - b.length / 2 ≤ i
    · rw [if_pos h]
    · rw [if_neg h]; congr 1; omega
  · rw [List.getElem?_eq_none (by omega), List.getElem?_eq_none (by simpa using hi)]

theorem int32_ok {x : Int} (h1 : -2 ^ 31 ≤ x) (h2 : x < 2 ^ 31) : int32 x = .ok x := if_pos ⟨h1, h2⟩

theorem itos_numeral (n : Int) (h1 : -2 ^ 31 < n) (h2 : n < 2 ^ 31) : ∃ s, itos n = .ok s ∧ IsNumeral n s := by
  have hi : itos n = .ok (List.map Char.ofNat (if n = 0 then ['0'.toNat] else
      (fun b => (List.range (b.length / 2)).foldl (fun b t => xorSwap b t (b.length - t - 1)) b)
      (if n < 0 then digitsLoop 10 n.natAbs ++ ['-'.toNat] else digitsLoop 10 n.natAbs))) := by
    by_cases h : n < 0
    · simp only [itos, int32_ok (le_of_lt h1) h2, Res_bind_ok, h, if_true, Res_pure]
      rw [int32_ok (by omega) (by omega), Res_bind_ok, show (-n).toNat = n.natAbs by omega]
    · simp only [itos, int32_ok (le_of_lt h1) h2, Res_bind_ok, h, if_false, Res_pure, Bool.false_eq_true]
      rw [show n.toNat = n.natAbs by omega]
  rw [hi]
  simp only [reverse_loop_eq]
  obtain ⟨ks, k1, k2, k3, k4, k5⟩ := digitsLoop_spec 10 n.natAbs (by omega)
  rw [k1]
  refine ⟨_, rfl, ?_⟩
  by_cases h0 : n = 0
  · subst h0
    exact ⟨[0], by simp, by simp, by simp, by simp [digitsValue], by rw [if_pos rfl]; decide⟩
  · refine ⟨ks, ?_, k2, fun h => absurd h k4, k3, ?_⟩
    · intro h; rw [← k5] at h; omega
    · rw [if_neg h0]
      have : (ks.map (48 + ·)).map Char.ofNat = ks.map digitChar := by
        rw [List.map_map]; rfl
      by_cases h : n < 0
      · simp only [h, if_true, List.reverse_append, List.map_append, ← List.map_reverse,
          List.reverse_reverse]
        rw [this]; rfl
      · simp only [h, if_false, ← List.map_reverse, List.reverse_reverse, List.nil_append]
        exact this

theorem pow_loop : ∀ (L : Nat) (m : Int) (l : List Nat), l.length = L → 0 < m → m * 10 ^ L < 2 ^ 31 →
    l.foldlM (fun (m : Int) (_ : Nat) => int32 (m * 10)) m = .ok (m * 10 ^ L) := by
  intro L
  induction L with
  | zero => intro m l hl _ _; rw [List.length_eq_zero_iff.1 hl]; simp
  | succ L ih =>
    intro m l hl hm h
    cases l with
    | nil => simp at hl
    | cons a l =>
      have hp : (0:Int) < 10 ^ L := by positivity
      have h10 : m * 10 ^ (L+1) = m * 10 * 10 ^ L := by rw [pow_succ]; ring
      have hle : m * 10 ≤ m * 10 * 10 ^ L := le_mul_of_one_le_right (by omega) (by omega)
      rw [List.foldlM_cons, int32_ok (by omega) (by omega), Res_bind_ok,
        ih (m * 10) l (by simpa using hl) (by omega) (by omega), h10]

theorem num_loop : ∀ (ks : List Nat) (a m : Int), 0 ≤ a → (∀ k ∈ ks, k < 10) →
    (ks ≠ [] → m = 10 ^ (ks.length - 1)) → a + digitsValue ks < 2 ^ 31 → ∃ m',
    (ks.map digitChar).foldlM (fun (st : Int × Int) c => do
      let t ← int32 (digitVal c * st.2)
      let num ← int32 (st.1 + t)
      pure (num, st.2 / 10)) (a, m) = Except.ok (a + digitsValue ks, m') := by
  intro ks
  induction ks with
  | nil => intro a m _ _ _ _; exact ⟨m, by simp [digitsValue]⟩
  | cons k ks ih =>
    intro a m ha hk hm hv
    have hm' : m = 10 ^ ks.length := by simpa using hm (by simp)
    have hd : digitVal (digitChar k) * m = ((k * 10 ^ ks.length : Nat) : Int) := by
      rw [digitVal_digitChar (hk k (by simp)), hm']; push_cast; rfl
    simp only [digitsValue, Nat.cast_add] at hv ⊢
    generalize hq : ((k * 10 ^ ks.length : Nat) : Int) = q at hv hd ⊢
    have hq0 : 0 ≤ q := by rw [← hq]; positivity
    rw [List.map_cons, List.foldlM_cons]
    simp only
    rw [hd, int32_ok (by omega) (by omega), Res_bind_ok, int32_ok (by omega) (by omega), Res_bind_ok, Res_pure,
      Res_bind_ok]
    obtain ⟨m', h⟩ := ih (a + q) (m / 10) (by omega) (fun x hx => hk x (by simp [hx])) (by
      intro hne
      have hl : ks.length = (ks.length - 1) + 1 := by
        have := List.length_pos_iff.2 hne; omega
      rw [hm', hl, pow_succ, Int.mul_ediv_cancel _ (by norm_num)]; simp) (by omega)
    exact ⟨m', by rw [h, add_assoc]⟩

theorem stoin_numeral (n : Int) (h1 : -2 ^ 31 < n) (h2 : n < 2 ^ 31) (s : List Char) (hs : IsNumeral n s) :
    stoin s = .ok n := by
  obtain ⟨ks, k1, k2, k3, k4, rfl⟩ := hs
  cases ks with
  | nil => exact absurd rfl k1
  | cons k ks =>
    have hk : k < 10 := k2 k (by simp)
    by_cases hz : k = 0
    · have := k3 (by simp [hz])
      simp only [List.cons.injEq] at this
      rw [this.1, this.2] at k4
      simp only [digitsValue, List.length_nil] at k4
      have hn : n = 0 := by omega
      subst hn; subst hz
      rw [this.2]; rfl
    · have hge := digitsValue_ge k ks hz
      have hpow : (10 : Int) ^ ks.length < 2 ^ 31 := by
        have h : 10 ^ ks.length < 2 ^ 31 := by omega
        exact_mod_cast h
      have hval : ((digitsValue (k :: ks) : Nat) : Int) < 2 ^ 31 := by omega
      have hc0 : digitChar k ≠ '0' := by
        intro h
        have := congrArg Char.toNat h
        rw [digitChar_toNat hk] at this
        have h0 : '0'.toNat = 48 := rfl
        omega
      have hcm : digitChar k ≠ '-' := digitChar_ne hk _ (Or.inl (by decide))
      have hpl := pow_loop ks.length 1 (List.range ks.length) (by simp) (by norm_num) (by simpa using hpow)
      obtain ⟨m', hnl⟩ := num_loop (k :: ks) 0 (10 ^ ks.length) le_rfl k2 (by simp) (by simpa using hval)
      by_cases h : n < 0
      · simp only [stoin, h, if_true, List.cons_append, List.nil_append, List.getD_cons_zero]
        rw [if_neg (by decide)]
        simp only [List.length_cons, List.length_map, List.drop_one, List.tail_cons]
        rw [show ks.length + 1 + 1 - (1 + 1) = ks.length by omega, hpl, Res_bind_ok, one_mul, hnl, Res_bind_ok]
        simp only
        rw [int32_ok (by omega) (by omega)]
        congr 1; omega
      · simp only [stoin, h, if_false, List.nil_append, List.map_cons, List.getD_cons_zero, hc0, hcm]
        simp only [List.length_cons, List.length_map, List.drop_zero]
        rw [show ks.length + 1 - (1 + 0) = ks.length by omega, hpl, Res_bind_ok, one_mul]
        rw [List.map_cons] at hnl
        rw [hnl, Res_bind_ok]
        simp only [zero_ne_one, if_false, Res_pure]
        congr 1; omega

/-! ### decimals -/

theorem isSpace_iff (c : Char) : isSpace c = true ↔ IsBlank c := by
  have key : ∀ n, n < 128 → (isSpace (Char.ofNat n) = true ↔ IsBlank (Char.ofNat n)) := by
    unfold IsBlank; decide
  by_cases h : c.toNat < 128
  · have := key c.toNat h
    rwa [Char.ofNat_toNat] at this
  · constructor
    · intro hc; simp [isSpace] at hc; omega
    · rintro (rfl | rfl | rfl | rfl | rfl | rfl) <;> exact absurd (by decide) h

theorem readDigits_spec (ks : List Nat) (h : ∀ k ∈ ks, k < 10) (rest : List Char)
    (hr : ∀ c, rest.head? = some c → isDigit c = false) (v : ℚ) (n : Nat) :
    readDigits (ks.map digitChar ++ rest) v n = (v * 10 ^ ks.length + digitsValue ks, n + ks.length, rest) := by
  induction ks generalizing v n with
  | nil =>
    simp only [List.map_nil, List.nil_append, List.length_nil, pow_zero, mul_one, digitsValue, Nat.cast_zero, add_zero]
    cases rest with
    | nil => rfl
    | cons c rest => simp [readDigits, hr c rfl]
  | cons k ks ih =>
    have hk := h k (by simp)
    simp only [List.map_cons, List.cons_append, readDigits, isDigit_digitChar hk, if_true]
    rw [ih (fun x hx => h x (by simp [hx])), digitVal_digitChar hk]
    simp only [digitsValue, List.length_cons, Prod.mk.injEq, and_true]
    refine ⟨?_, by omega⟩
    push_cast; ring

/-- What may follow a decimal so that parsing stops at its end. -/
def Stops (s rest : List Char) : Prop :=
  ∀ c, rest.head? = some c → isDigit c = false ∧ (c = '.' → '.' ∈ s)

theorem head?_append_digits (ks : List Nat) (h : ∀ k ∈ ks, k < 10) (rest : List Char) (c : Char)
    (hc : (ks.map digitChar ++ rest).head? = some c) : isDigit c = true ∨ rest.head? = some c := by
  cases ks with
  | nil => exact Or.inr hc
  | cons k ks =>
    simp only [List.map_cons, List.cons_append, List.head?_cons, Option.some.injEq] at hc
    subst hc
    exact Or.inl (isDigit_digitChar (h k (by simp)))

theorem isDigit_props (c : Char) (h : isDigit c = true) : c ≠ '-' ∧ c ≠ '+' ∧ c ≠ '.' ∧ isSpace c = false ∧ c ≠ ',' ∧ c ≠ 'e' := by
  refine ⟨?_, ?_, ?_, ?_, ?_, ?_⟩
  · rintro rfl; exact absurd h (by decide)
  · rintro rfl; exact absurd h (by decide)
  · rintro rfl; exact absurd h (by decide)
  · simp [isDigit] at h; simp [isSpace]; omega
  · rintro rfl; exact absurd h (by decide)
  · rintro rfl; exact absurd h (by decide)

theorem atod_unsigned (is fs : List Nat) (point rest : List Char) (sv : ℚ) (h1 : ∀ k ∈ is, k < 10)
    (h2 : ∀ k ∈ fs, k < 10) (hp : point = ['.'] ∨ (point = [] ∧ fs = []))
    (hr : ∀ c, rest.head? = some c → isDigit c = false ∧ (c = '.' → point = ['.'])) :
    (let t := is.map digitChar ++ (point ++ (fs.map digitChar ++ rest))
     let (v, _, s) := readDigits t 0 0
     let s := if s.head? = some '.' then s.tail else s
     let (v, k, _) := readDigits s v 0
     sv * v / 10 ^ k) = sv * (digitsValue is + digitsValue fs / 10 ^ fs.length) := by
  have hp1 : ∀ c, (point ++ (fs.map digitChar ++ rest)).head? = some c → isDigit c = false := by
    intro c hc
    rcases hp with rfl | ⟨rfl, rfl⟩
    · simp at hc; subst hc; decide
    · exact (hr c (by simpa using hc)).1
  simp only [readDigits_spec is h1 _ hp1]
  have hs : (if (point ++ (fs.map digitChar ++ rest)).head? = some '.' then
      (point ++ (fs.map digitChar ++ rest)).tail else (point ++ (fs.map digitChar ++ rest))) =
      fs.map digitChar ++ rest := by
    rcases hp with rfl | ⟨rfl, rfl⟩
    · simp
    · simp only [List.map_nil, List.nil_append]
      rw [if_neg]
      intro h
      exact absurd ((hr '.' h).2 rfl) (by simp)
  rw [hs, readDigits_spec fs h2 rest (fun c hc => (hr c hc).1)]
  simp only [zero_add, zero_mul]
  have : (10 : ℚ) ^ fs.length ≠ 0 := by positivity
  field_simp

theorem atod_decimal (ws s rest : List Char) (v : ℚ) (hws : ∀ c ∈ ws, IsBlank c) (hs : Decimal s v)
    (hr : Stops s rest) : atod (ws ++ s ++ rest) = v := by
  obtain ⟨sg, sv, is, fs, point, h0, h1, h2, h3, h4, rfl, rfl⟩ := hs
  have hdot : ∀ c, rest.head? = some c → isDigit c = false ∧ (c = '.' → point = ['.']) := by
    intro c hc
    refine ⟨(hr c hc).1, fun he => ?_⟩
    rcases h4 with h | ⟨rfl, rfl⟩
    · exact h
    · exfalso
      have := (hr c hc).2 he
      simp only [List.append_nil, List.map_nil, List.mem_append, List.mem_map] at this
      rcases this with h | ⟨k, hk, he⟩
      · cases h0 <;> simp at h
      · exact digitChar_ne (h1 k hk) _ (Or.inl (by decide)) he
  have hu := fun sv => atod_unsigned is fs point rest sv h1 h2 h4 hdot
  simp only at hu
  -- the first character after white space and sign
  have hnb : ∀ c, (is.map digitChar ++ (point ++ (fs.map digitChar ++ rest))).head? = some c →
      isDigit c = true ∨ c = '.' := by
    intro c hc
    rcases head?_append_digits is h1 _ c hc with h | h
    · exact Or.inl h
    · rcases h4 with rfl | ⟨rfl, rfl⟩
      · simp at h; exact Or.inr h.symm
      · cases is with
        | nil => simp at h3
        | cons k is =>
          simp only [List.map_cons, List.cons_append, List.head?_cons, Option.some.injEq] at hc
          subst hc
          exact Or.inl (isDigit_digitChar (h1 k (by simp)))
  have hskip : (ws ++ (sg ++ is.map digitChar ++ point ++ fs.map digitChar) ++ rest).dropWhile isSpace =
      sg ++ (is.map digitChar ++ (point ++ (fs.map digitChar ++ rest))) := by
    rw [show ws ++ (sg ++ is.map digitChar ++ point ++ fs.map digitChar) ++ rest =
      ws ++ (sg ++ (is.map digitChar ++ (point ++ (fs.map digitChar ++ rest)))) by simp]
    refine dropWhile_append_stop _ _ _ (fun c hc => (isSpace_iff c).2 (hws c hc)) ?_
    intro c hc
    cases h0 with
    | none =>
      rcases hnb c hc with h | rfl
      · exact (isDigit_props c h).2.2.2.1
      · decide
    | plus => simp at hc; subst hc; decide
    | minus => simp at hc; subst hc; decide
  simp only [atod, hskip]
  cases h0 with
  | none =>
    have hm : ∀ c, c = '-' ∨ c = '+' →
        ¬ ([] ++ (is.map digitChar ++ (point ++ (fs.map digitChar ++ rest)))).head? = some c := by
      intro c hc h
      rcases hnb c h with h' | rfl
      · rcases hc with rfl | rfl
        · exact (isDigit_props _ h').1 rfl
        · exact (isDigit_props _ h').2.1 rfl
      · simp at hc
    rw [if_neg (hm '-' (Or.inl rfl)), if_neg (not_or.2 ⟨hm '+' (Or.inr rfl), hm '-' (Or.inl rfl)⟩)]
    exact hu 1
  | plus =>
    simp only [List.cons_append, List.nil_append, List.head?_cons, Option.some.injEq, true_or, if_true, List.tail_cons]
    rw [if_neg (by decide)]
    exact hu 1
  | minus =>
    simp only [List.cons_append, List.nil_append, List.head?_cons, or_true, if_true, List.tail_cons]
    exact hu (-1)

/-! ### numerals as class names and fields -/

theorem numeral_decimal {n : Int} {s : List Char} (h : IsNumeral n s) : Decimal s n := by
  obtain ⟨ks, k1, k2, k3, k4, rfl⟩ := h
  by_cases hn : n < 0
  · refine ⟨['-'], -1, ks, [], [], SignText.minus, k2, by simp, by simpa using k1, Or.inr ⟨rfl, rfl⟩, by simp [hn], ?_⟩
    simp only [k4, digitsValue, Nat.cast_zero, zero_div, add_zero]
    rw [Nat.cast_natAbs, abs_of_neg hn]; push_cast; ring
  · refine ⟨[], 1, ks, [], [], SignText.none, k2, by simp, by simpa using k1, Or.inr ⟨rfl, rfl⟩, by simp [hn], ?_⟩
    simp only [k4, digitsValue, Nat.cast_zero, zero_div, add_zero]
    rw [Nat.cast_natAbs, abs_of_nonneg (not_lt.1 hn)]; ring

theorem atod_numeral {n : Int} {s : List Char} (h : IsNumeral n s) : atod s = n := by
  have := atod_decimal [] s [] n (by simp) (numeral_decimal h) (by intro c hc; simp at hc)
  simpa using this

theorem numeral_chars {n : Int} {s : List Char} (h : IsNumeral n s) :
    s ≠ [] ∧ ∀ c ∈ s, c = '-' ∨ isDigit c = true := by
  obtain ⟨ks, k1, k2, k3, k4, rfl⟩ := h
  refine ⟨by simp [k1], ?_⟩
  intro c hc
  rcases List.mem_append.1 hc with h | h
  · split at h
    · simp at h; exact Or.inl h
    · simp at h
  · obtain ⟨k, hk, rfl⟩ := List.mem_map.1 h
    exact Or.inr (isDigit_digitChar (k2 k hk))

theorem numeral_isNumber {n : Int} {s : List Char} (h : IsNumeral n s) : isNumber s = true := by
  obtain ⟨h1, h2⟩ := numeral_chars h
  simp only [isNumber, Bool.and_eq_true, decide_eq_true_eq, List.all_eq_true, Bool.or_eq_true]
  refine ⟨h1, fun c hc => ?_⟩
  rcases h2 c hc with h | h
  · exact Or.inl (Or.inl (Or.inr h))
  · exact Or.inl (Or.inl (Or.inl (Or.inl h)))

theorem numeral_noSpace {n : Int} {s : List Char} (h : IsNumeral n s) : ∀ c ∈ s, isSpace c = false := by
  intro c hc
  rcases (numeral_chars h).2 c hc with rfl | h
  · decide
  · exact (isDigit_props c h).2.2.2.1

theorem digits_foldl (ks : List Nat) (h : ∀ k ∈ ks, k < 10) (v : Int) :
    (ks.map digitChar).foldl (fun v c => 10 * v + digitVal c) v = v * 10 ^ ks.length + digitsValue ks := by
  induction ks generalizing v with
  | nil => simp [digitsValue]
  | cons k ks ih =>
    rw [List.map_cons, List.foldl_cons, ih (fun x hx => h x (by simp [hx])), digitVal_digitChar (h k (by simp))]
    simp only [digitsValue, List.length_cons]
    push_cast; ring

theorem stoi_numeral {n : Int} {s : List Char} (h : IsNumeral n s) (h1 : -2 ^ 31 ≤ n) (h2 : n < 2 ^ 31) :
    stoi s = .ok n := by
  have hsp := numeral_noSpace h
  obtain ⟨ks, k1, k2, k3, k4, rfl⟩ := h
  have hdw : ∀ s : List Char, (∀ c ∈ s, isSpace c = false) → s.dropWhile isSpace = s := by
    intro s hs
    have := dropWhile_append_stop isSpace [] s (by simp) (by
      intro x hx
      cases s with
      | nil => simp at hx
      | cons c s => simp at hx; subst hx; exact hs c (by simp))
    simpa using this
  have htw : (ks.map digitChar).takeWhile isDigit = ks.map digitChar := by
    have := takeWhile_append_stop isDigit (ks.map digitChar) [] ?_ (by simp)
    · simpa using this
    intro c hc
    obtain ⟨k, hk, rfl⟩ := List.mem_map.1 hc
    exact isDigit_digitChar (k2 k hk)
  simp only [stoi, hdw _ hsp]
  by_cases hn : n < 0
  · simp only [hn, if_true, List.cons_append, List.nil_append, List.head?_cons, or_true, List.tail_cons, htw]
    rw [if_neg (by simpa using k1), digits_foldl ks k2, k4]
    rw [show (-1 : Int) * (0 * 10 ^ ks.length + (n.natAbs : Int)) = n by omega, if_pos ⟨h1, h2⟩]
  · have hm : ∀ c, c = '-' ∨ c = '+' → ¬ (ks.map digitChar).head? = some c := by
      intro c hc h
      rcases head?_append_digits ks k2 [] c (by simpa using h) with h' | h'
      · rcases hc with rfl | rfl
        · exact (isDigit_props _ h').1 rfl
        · exact (isDigit_props _ h').2.1 rfl
      · simp at h'
    simp only [hn, if_false, List.nil_append, hm '-' (Or.inl rfl), hm '+' (Or.inr rfl), or_self, htw]
    rw [if_neg (by simpa using k1), digits_foldl ks k2, k4]
    rw [show (1 : Int) * (0 * 10 ^ ks.length + (n.natAbs : Int)) = n by omega, if_pos ⟨h1, h2⟩]

/-! ### class names -/

theorem numeral_mone : IsNumeral (-1) ['-', '1'] :=
  ⟨[1], by simp, by simp, by simp, by simp [digitsValue], by decide⟩

theorem filter_noSpace {s : List Char} (h : ∀ c ∈ s, isSpace c = false) : s.filter (fun c => !isSpace c) = s := by
  rw [List.filter_eq_self]; intro c hc; simp [h c hc]

theorem findIdx_eq_mem {α : Type} [DecidableEq α] (l : List α) (a : α) :
    l.findIdx (fun x => decide (x = a)) = l.length ↔ a ∉ l := by
  rw [List.findIdx_eq_length]
  constructor
  · intro h ha; simpa using h a ha
  · intro h x hx; simp; rintro rfl; exact h hx

/-- The bookkeeping of labels and their counts. -/
def record (st : Classes) (names : List (List Char)) (c : Int) : Classes :=
  let labels := if c ∈ st.labels then st.labels else st.labels ++ [c]
  let dist := if c ∈ st.labels then st.dist else st.dist ++ [0]
  let i := labels.findIdx (· = c)
  ⟨names, labels, dist.set i (dist.getD i 0 + 1)⟩

theorem processClass_blank (st : Classes) (raw : List Char) (h : raw.filter (fun c => !isSpace c) = []) :
    processClass st raw = .ok (st, 0) := by
  simp only [processClass]; rw [if_pos h]; rfl

theorem processClass_inv {st st' : Classes} {raw : List Char} {c : Int}
    (h : processClass st raw = .ok (st', c)) :
    (raw.filter (fun c => !isSpace c) = [] ∧ st' = st ∧ c = 0) ∨
    (raw.filter (fun c => !isSpace c) ≠ [] ∧ ∃ names, st' = record st names c) := by
  by_cases hb : raw.filter (fun c => !isSpace c) = []
  · rw [processClass_blank st raw hb] at h
    cases h
    exact Or.inl ⟨hb, rfl, rfl⟩
  · refine Or.inr ⟨hb, ?_⟩
    simp only [processClass] at h
    rw [if_neg hb] at h
    by_cases hp : st.names.findIdx (fun x => decide (x = raw)) = st.names.length
    · simp only [hp, if_true] at h
      by_cases hm : ¬ ['-', '1'] ∈ st.names ++ [raw.filter (fun c => !isSpace c)]
      · simp only [hm, not_false_eq_true, if_true] at h
        by_cases hn : isNumber (raw.filter (fun c => !isSpace c)) = true
        · simp only [hn, if_true] at h
          cases hs : stoi (raw.filter (fun c => !isSpace c)) with
          | error e => rw [hs] at h; simp at h
          | ok v =>
            rw [hs] at h
            simp only [Res_bind_ok, Res_pure, Except.ok.injEq, Prod.mk.injEq] at h
            obtain ⟨rfl, rfl⟩ := h
            exact ⟨_, rfl⟩
        · simp only [hn, if_false, Res_bind_ok, Res_pure, Except.ok.injEq, Prod.mk.injEq, Bool.false_eq_true] at h
          obtain ⟨rfl, rfl⟩ := h
          exact ⟨_, rfl⟩
      · simp only [hm, if_false, Res_bind_ok, Res_pure, Except.ok.injEq, Prod.mk.injEq] at h
        obtain ⟨rfl, rfl⟩ := h
        exact ⟨_, rfl⟩
    · simp only [hp, if_false] at h
      by_cases hn : isNumber (raw.filter (fun c => !isSpace c)) = true
      · simp only [hn, if_true] at h
        cases hs : stoi (raw.filter (fun c => !isSpace c)) with
        | error e => rw [hs] at h; simp at h
        | ok v =>
          rw [hs] at h
          simp only [Res_bind_ok, Res_pure, Except.ok.injEq, Prod.mk.injEq] at h
          obtain ⟨rfl, rfl⟩ := h
          exact ⟨_, rfl⟩
      · simp only [hn, if_false, Res_bind_ok, Res_pure, Except.ok.injEq, Prod.mk.injEq, Bool.false_eq_true] at h
        obtain ⟨rfl, rfl⟩ := h
        exact ⟨_, rfl⟩

/-- An integer class name. -/
theorem processClass_numeral (st : Classes) (s : List Char) (k : Int) (hs : IsNumeral k s) (h1 : -2 ^ 31 ≤ k)
    (h2 : k < 2 ^ 31) :
    processClass st s =
      (let c := if s ∈ st.names then k else if k = -1 then -1 else if ['-', '1'] ∈ st.names then 1 else k
       .ok (record st (if s ∈ st.names then st.names else st.names ++ [s]) c, c)) := by
  have hm : s = ['-', '1'] ↔ k = -1 := by
    constructor
    · rintro rfl; exact isNumeral_inj hs numeral_mone
    · rintro rfl; exact isNumeral_unique hs numeral_mone
  simp only [processClass, filter_noSpace (numeral_noSpace hs)]
  rw [if_neg (numeral_chars hs).1]
  by_cases hin : s ∈ st.names
  · have : st.names.findIdx (fun x => decide (x = s)) ≠ st.names.length := by
      rw [ne_eq, findIdx_eq_mem]; simpa using hin
    simp only [this, if_false, numeral_isNumber hs, if_true, stoi_numeral hs h1 h2, Res_bind_ok, Res_pure, hin]
    rfl
  · have : st.names.findIdx (fun x => decide (x = s)) = st.names.length := by
      rw [findIdx_eq_mem]; exact hin
    simp only [this, if_true, hin, if_false, numeral_isNumber hs, stoi_numeral hs h1 h2, Res_bind_ok, Res_pure]
    by_cases hk : k = -1
    · have hsm := hm.2 hk
      have : ['-', '1'] ∈ st.names ++ [s] := by simp [hsm]
      simp only [this, not_true_eq_false, if_false, hsm, hk, if_true, ite_self]
      rfl
    · have hsm : s ≠ ['-', '1'] := fun h => hk (hm.1 h)
      by_cases hmn : ['-', '1'] ∈ st.names
      · have : ['-', '1'] ∈ st.names ++ [s] := by simp [hmn]
        simp only [this, not_true_eq_false, if_false, hsm, hk, hmn, if_true]
        rfl
      · have : ¬ ['-', '1'] ∈ st.names ++ [s] := by simp [hmn]; exact fun h => hsm h.symm
        simp only [this, not_false_eq_true, if_true, hsm, hk, hmn, if_false]
        rfl

/-- A textual class name. -/
theorem processClass_text (st : Classes) (raw : List Char) (hne : raw.filter (fun c => !isSpace c) ≠ [])
    (hnum : isNumber (raw.filter (fun c => !isSpace c)) = false)
    (hnames : ∀ t ∈ st.names, isNumber t = false ∧ ∀ c ∈ t, isSpace c = false) :
    let item := raw.filter (fun c => !isSpace c)
    let names := if raw ∈ st.names then st.names else st.names ++ [item]
    let c : Int := (names.findIdx (fun x => decide (x = item)) : Int) + 1
    processClass st raw = .ok (record st names c, c) := by
  simp only [processClass]
  rw [if_neg hne]
  by_cases hin : raw ∈ st.names
  · have : st.names.findIdx (fun x => decide (x = raw)) ≠ st.names.length := by
      rw [ne_eq, findIdx_eq_mem]; simpa using hin
    have hit : raw.filter (fun c => !isSpace c) = raw := filter_noSpace (hnames raw hin).2
    rw [hit] at hnum
    simp only [this, if_false, hit, hnum, Bool.false_eq_true, Res_bind_ok, Res_pure, hin, if_true]
    rfl
  · have : st.names.findIdx (fun x => decide (x = raw)) = st.names.length := by
      rw [findIdx_eq_mem]; exact hin
    have hm1 : isNumber ['-', '1'] = true := by decide
    have hmn : ¬ ['-', '1'] ∈ st.names ++ [raw.filter (fun c => !isSpace c)] := by
      intro h
      rcases List.mem_append.1 h with h | h
      · rw [(hnames _ h).1] at hm1; simp at hm1
      · simp only [List.mem_singleton] at h
        rw [h, hnum] at hm1; simp at hm1
    have hsm : raw.filter (fun c => !isSpace c) ≠ ['-', '1'] := by
      intro h; rw [h, hm1] at hnum; simp at hnum
    simp only [this, if_true, hmn, not_false_eq_true, hnum, Bool.false_eq_true, if_false, hsm, Res_bind_ok, Res_pure, hin]
    rfl

end MLTK.Text
