import Mathlib.Data.Int.CardIntervalMod
import Mathlib.Tactic.Ring
import Std.Data.String.ToInt
import Verif.Lemmas.DataCopy
import Verif.Model.Split
namespace MLTK.Data
open MLTK.Spec
variable {T : Type}

/-! ## Label strings -/

theorem toString_int (a : Int) : (toString a : String) = Int.repr a := rfl

theorem labelKey_inj {a b : Int} (h : labelKey a = labelKey b) : a = b := by
  unfold labelKey at h
  have h1 := congrArg String.toList h
  simp only [String.toList_append] at h1
  have h2 := List.append_cancel_right h1
  have h3 : (toString a : String) = toString b := String.ext (by exact h2)
  exact Int.repr_injective h3

theorem digits_no_dot (n : Nat) : '.' ∉ (Nat.repr n).toList := by
  rw [Nat.toList_repr]
  intro h
  have := Nat.isDigit_of_mem_toDigits (by decide) (by decide) h
  exact absurd this (by decide)

theorem toString_no_dot (a : Int) : '.' ∉ (toString a : String).toList := by
  rw [toString_int]
  cases a with
  | ofNat n => exact digits_no_dot n
  | negSucc n =>
    show '.' ∉ ("-" ++ Nat.repr (n + 1)).toList
    rw [String.toList_append]
    intro h
    rcases List.mem_append.1 h with h | h
    · exact absurd h (by decide)
    · exact digits_no_dot _ h

theorem toString_ne_labelKey (a b : Int) : (toString a : String) ≠ labelKey b := by
  intro h
  have := toString_no_dot a
  rw [h] at this
  apply this
  unfold labelKey
  rw [String.toList_append]
  apply List.mem_append_right
  decide

/-- The label map is never hit: every label is looked up as counter 0. -/
theorem mapGet_labelMap (cs : List Int) (y : Int) : mapGet (labelMap cs) (labelKey y) = 0 := by
  unfold mapGet labelMap
  have : List.find? (fun e => e.1 == labelKey y) ((cs.map (toString : Int → String)).zipIdx) = none := by
    rw [List.find?_eq_none]
    intro e he
    have h1 := List.fst_mem_of_mem_zipIdx he
    obtain ⟨c, _, hc⟩ := List.mem_map.1 h1
    simp only [beq_iff_eq, ← hc]
    exact toString_ne_labelKey c y
  rw [this]; rfl

/-! ## Dealing a list round robin -/

/-- Elements of `l` that land in hand `j` of `k` when dealing starts at hand `t % k`. -/
def deal {α : Type} (k j : Nat) : Nat → List α → List α
  | _, [] => []
  | t, a :: l => if t % k = j then a :: deal k j (t + 1) l else deal k j (t + 1) l

theorem deal_append {α : Type} (k j : Nat) (a b : List α) (t : Nat) :
    deal k j t (a ++ b) = deal k j t a ++ deal k j (t + a.length) b := by
  induction a generalizing t with
  | nil => simp [deal]
  | cons x a ih =>
    simp only [List.cons_append, deal, ih, List.length_cons]
    have : t + 1 + a.length = t + (a.length + 1) := by omega
    rw [this]
    split <;> simp

theorem deal_sublist {α : Type} (k j : Nat) (l : List α) (t : Nat) : (deal k j t l).Sublist l := by
  induction l generalizing t with
  | nil => simp [deal]
  | cons x l ih =>
    simp only [deal]
    split
    · exact (ih _).cons₂ _
    · exact (ih _).cons _

theorem deal_map {α β : Type} (f : α → β) (k j : Nat) (l : List α) (t : Nat) :
    deal k j t (l.map f) = (deal k j t l).map f := by
  induction l generalizing t with
  | nil => rfl
  | cons a l ih => simp only [List.map_cons, deal, ih]; split <;> rfl

theorem count_step (k j t n : Nat) (hk : 0 < k) (hj : j < k) :
    Nat.count (fun x => x ≡ j [MOD k]) (t + (n + 1)) =
      Nat.count (fun x => x ≡ j [MOD k]) (t + 1 + n) := by
  congr 1; omega

theorem deal_length {α : Type} (k j : Nat) (hj : j < k) (l : List α) (t : Nat) :
    (deal k j t l).length + Nat.count (fun x => x ≡ j [MOD k]) t
      = Nat.count (fun x => x ≡ j [MOD k]) (t + l.length) := by
  induction l generalizing t with
  | nil => simp [deal]
  | cons a l ih =>
    have h1 := ih (t + 1)
    rw [Nat.count_succ] at h1
    have h2 : t + (l.length + 1) = t + 1 + l.length := by omega
    have hiff : (t % k = j) ↔ t ≡ j [MOD k] := by
      unfold Nat.ModEq
      rw [Nat.mod_eq_of_lt hj]
    simp only [deal, List.length_cons, h2]
    by_cases h : t % k = j
    · rw [if_pos h, List.length_cons]
      rw [if_pos (hiff.1 h)] at h1
      omega
    · rw [if_neg h]
      rw [if_neg (fun h' => h (hiff.2 h'))] at h1
      omega

theorem deal_balanced {α : Type} (k i j : Nat) (hi : i < k) (hj : j < k) (l : List α) (t : Nat) :
    (deal k i t l).length ≤ (deal k j t l).length + 1 := by
  have hk : 0 < k := by omega
  have h1 := deal_length k i hi l t
  have h2 := deal_length k j hj l t
  rw [Nat.count_modEq_card _ hk, Nat.count_modEq_card _ hk, Nat.mod_eq_of_lt hi] at h1
  rw [Nat.count_modEq_card _ hk, Nat.count_modEq_card _ hk, Nat.mod_eq_of_lt hj] at h2
  generalize (t + l.length) / k = A at *
  generalize (t + l.length) % k = B at *
  generalize t / k = C at *
  generalize t % k = D at *
  by_cases a1 : i < B <;> by_cases a2 : i < D <;> by_cases a3 : j < B <;> by_cases a4 : j < D <;>
    simp only [a1, a2, a3, a4, if_true, if_false] at h1 h2 <;> omega

theorem flatMap_insert {α : Type} (js : List Nat) (hn : js.Nodup) (j0 : Nat) (hj : j0 ∈ js) (a : α)
    (X : Nat → List α) :
    (js.flatMap (fun j => if j0 = j then a :: X j else X j)).Perm (a :: js.flatMap X) := by
  induction js with
  | nil => simp at hj
  | cons b js ih =>
    obtain ⟨hb, hn2⟩ := List.nodup_cons.1 hn
    rw [List.flatMap_cons, List.flatMap_cons]
    by_cases h : j0 = b
    · subst h
      rw [if_pos rfl]
      have : js.flatMap (fun j => if j0 = j then a :: X j else X j) = js.flatMap X := by
        apply List.flatMap_congr
        intro j hj'
        rw [if_neg (fun he => hb (by rw [he]; exact hj'))]
      rw [this]
      exact List.Perm.refl _
    · rw [if_neg h]
      have hm : j0 ∈ js := by
        rcases List.mem_cons.1 hj with h' | h'
        · exact absurd h' h
        · exact h'
      exact ((ih hn2 hm).append_left (X b)).trans List.perm_middle

theorem deal_partition {α : Type} (k : Nat) (hk : 0 < k) (l : List α) (t : Nat) :
    ((List.range k).flatMap (fun j => deal k j t l)).Perm l := by
  induction l generalizing t with
  | nil => simp [deal]
  | cons a l ih =>
    have h := flatMap_insert (List.range k) List.nodup_range (t % k)
      (List.mem_range.2 (Nat.mod_lt _ hk)) a (fun j => deal k j (t + 1) l)
    exact h.trans ((ih (t + 1)).cons a)

/-! ## A sorted list groups equal keys -/

theorem sorted_group {α β : Type} [LinearOrder β] (key : α → β) (l : List α)
    (hs : l.Pairwise (fun a b => key a ≤ key b)) (c : β) :
    l = l.filter (fun a => key a < c) ++ (l.filter (fun a => key a = c) ++ l.filter (fun a => c < key a)) := by
  induction l with
  | nil => rfl
  | cons a l ih =>
    obtain ⟨h1, h2⟩ := List.pairwise_cons.1 hs
    rcases lt_trichotomy (key a) c with h | h | h
    · simp only [List.filter_cons, h, decide_true, if_true, ne_of_lt h, not_lt.2 (le_of_lt h),
        decide_false, Bool.false_eq_true, if_false, List.cons_append]
      rw [← ih h2]
    · have e1 : l.filter (fun x => key x < c) = [] := by
        rw [List.filter_eq_nil_iff]; intro x hx
        have := h1 x hx; rw [h] at this
        simpa using this
      have := ih h2
      rw [e1, List.nil_append] at this
      simp only [List.filter_cons, h, lt_irrefl, decide_true, if_true,
        decide_false, Bool.false_eq_true, if_false, e1, List.nil_append, List.cons_append]
      rw [← this]
    · have e1 : l.filter (fun x => key x < c) = [] := by
        rw [List.filter_eq_nil_iff]; intro x hx
        have := h1 x hx
        simp; exact le_of_lt (lt_of_lt_of_le h this)
      have e2 : l.filter (fun x => key x = c) = [] := by
        rw [List.filter_eq_nil_iff]; intro x hx
        have := h1 x hx
        simp; exact ne_of_gt (lt_of_lt_of_le h this)
      have := ih h2
      rw [e1, e2, List.nil_append, List.nil_append] at this
      simp only [List.filter_cons, h, ne_of_gt h, not_lt.2 (le_of_lt h), decide_true, if_true,
        decide_false, Bool.false_eq_true, if_false, e1, e2, List.nil_append]
      rw [← this]

theorem filter_deal_none {α : Type} (f : α → Bool) (k j : Nat) (l : List α) (t : Nat)
    (h : ∀ a ∈ l, f a = false) : (deal k j t l).filter f = [] := by
  rw [List.filter_eq_nil_iff]
  intro a ha
  simp [h a ((deal_sublist k j l t).subset ha)]

theorem filter_deal_all {α : Type} (f : α → Bool) (k j : Nat) (l : List α) (t : Nat)
    (h : ∀ a ∈ l, f a = true) : (deal k j t l).filter f = deal k j t l := by
  rw [List.filter_eq_self]
  intro a ha
  exact h a ((deal_sublist k j l t).subset ha)

/-- Round-robin dealing of a key-sorted list is balanced for every key. -/
theorem deal_key_balanced {α β : Type} [LinearOrder β] (key : α → β) (l : List α)
    (hs : l.Pairwise (fun a b => key a ≤ key b)) (c : β) (k i j : Nat) (hi : i < k) (hj : j < k)
    (t : Nat) :
    ((deal k i t l).filter (fun a => key a = c)).length
      ≤ ((deal k j t l).filter (fun a => key a = c)).length + 1 := by
  have key1 : ∀ j, ∃ t' B, ((deal k j t l).filter (fun a => key a = c)) = deal k j t' B ∧
      t' = t + (l.filter (fun a => key a < c)).length ∧ B = l.filter (fun a => key a = c) := by
    intro j
    refine ⟨_, _, ?_, rfl, rfl⟩
    conv => lhs; rw [sorted_group key l hs c]
    rw [deal_append, deal_append, List.filter_append, List.filter_append,
      filter_deal_none _ _ _ (l.filter (fun a => key a < c)),
      filter_deal_none _ _ _ (l.filter (fun a => c < key a)),
      filter_deal_all, List.nil_append, List.append_nil]
    · intro a ha; simpa using (List.mem_filter.1 ha).2
    · intro a ha
      have := (List.mem_filter.1 ha).2
      simp only [decide_eq_true_eq] at this
      simp [ne_of_gt this]
    · intro a ha
      have := (List.mem_filter.1 ha).2
      simp only [decide_eq_true_eq] at this
      simp [ne_of_lt this]
  obtain ⟨t1, B1, e1, h1, h2⟩ := key1 i
  obtain ⟨t2, B2, e2, h3, h4⟩ := key1 j
  rw [e1, e2, h1, h2, h3, h4]
  exact deal_balanced k i j hi hj _ _

end MLTK.Data
