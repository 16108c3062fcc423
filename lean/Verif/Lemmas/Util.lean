import Mathlib.Tactic.Ring
import Mathlib.Algebra.BigOperators.Group.List.Basic
import Verif.Lemmas.Data
/-!
# Generic lemmas about monadic loops
-/
namespace MLTK
open MLTK.Data (Res_bind_ok Res_bind_error Res_pure)

/-- A loop all of whose steps succeed is a pure loop. -/
theorem foldlM_ok {α β : Type} (f : β → α → Res β) (g : β → α → β) (l : List α) (b : β)
    (h : ∀ a ∈ l, ∀ b, f b a = .ok (g b a)) : l.foldlM f b = .ok (l.foldl g b) := by
  induction l generalizing b with
  | nil => rfl
  | cons a l ih =>
    rw [List.foldlM_cons, h a (by simp), Res_bind_ok, ih _ (fun x hx => h x (by simp [hx]))]
    rfl

/-- An invariant of a pure loop. -/
theorem foldl_inv {α β : Type} (P : β → Prop) (f : β → α → β) (l : List α) (b : β) (h0 : P b)
    (h : ∀ a ∈ l, ∀ b, P b → P (f b a)) : P (l.foldl f b) := by
  induction l generalizing b with
  | nil => exact h0
  | cons a l ih => exact ih _ (h a (by simp) b h0) (fun x hx => h x (by simp [hx]))

theorem foldl_add_sum {α K : Type} [AddCommMonoid K] (g : α → K) (l : List α) (s : K) :
    l.foldl (fun s a => s + g a) s = s + (l.map g).sum := by
  induction l generalizing s with
  | nil => simp
  | cons a l ih => rw [List.foldl_cons, ih]; simp [add_assoc]

/-- A loop all of whose steps succeed, with an invariant. -/
theorem foldlM_inv {α β : Type} (P : β → Prop) (f : β → α → Res β) (l : List α) (b : β) (h0 : P b)
    (h : ∀ a ∈ l, ∀ b, P b → ∃ b', f b a = .ok b' ∧ P b') :
    ∃ b', l.foldlM f b = .ok b' ∧ P b' := by
  induction l generalizing b with
  | nil => exact ⟨b, rfl, h0⟩
  | cons a l ih =>
    obtain ⟨b', h1, h2⟩ := h a (by simp) b h0
    obtain ⟨b'', h3, h4⟩ := ih b' h2 (fun x hx => h x (by simp [hx]))
    exact ⟨b'', by rw [List.foldlM_cons, h1, Res_bind_ok, h3], h4⟩

/-- An invariant holding after a successful loop. -/
theorem foldlM_inv' {α β : Type} (P : β → Prop) (f : β → α → Res β) (l : List α) (b b' : β) (h0 : P b)
    (h : ∀ a ∈ l, ∀ b b', P b → f b a = .ok b' → P b') (hr : l.foldlM f b = .ok b') : P b' := by
  induction l generalizing b with
  | nil => cases hr; exact h0
  | cons a l ih =>
    rw [List.foldlM_cons] at hr
    cases hf : f b a with
    | error e => rw [hf] at hr; simp at hr
    | ok c =>
      rw [hf, Res_bind_ok] at hr
      exact ih c (h a (by simp) b c h0 hf) (fun x hx => h x (by simp [hx])) hr

end MLTK
