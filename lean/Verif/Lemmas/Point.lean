import Mathlib.Tactic.Ring
import Mathlib.Tactic.FieldSimp
import Mathlib.Tactic.LinearCombination
import Verif.Spec.Point
import Verif.Lemmas.Data
namespace MLTK.PointM
open MLTK.Spec
open MLTK.Data (Res_bind_ok Res_bind_error Res_pure)
variable {K : Type}

theorem combineSize_err {a b : Nat} {f : Fault} (h : Expr.combineSize a b = .error f) :
    f = .assertFail := by
  unfold Expr.combineSize at h; split at h <;> simp_all

theorem bin_err {ra rb : Res Nat} {f : Fault} (ha : ∀ f, ra = .error f → f = .assertFail)
    (hb : ∀ f, rb = .error f → f = .assertFail)
    (h : (do let m ← ra; let n ← rb; Expr.combineSize m n) = .error f) : f = .assertFail := by
  cases hra : ra with
  | error e => rw [hra] at h; simp at h; exact h ▸ ha e hra
  | ok m =>
    cases hrb : rb with
    | error e => rw [hra, hrb] at h; simp at h; exact h ▸ hb e hrb
    | ok n => rw [hra, hrb] at h; simp at h; exact combineSize_err h

theorem size_err (e : Expr K) : ∀ f, e.size = .error f → f = .assertFail := by
  induction e with
  | pt x => intro f h; simp [Expr.size] at h
  | sc c => intro f h; simp [Expr.size] at h
  | add a b iha ihb => intro f h; exact bin_err iha ihb h
  | sub a b iha ihb => intro f h; exact bin_err iha ihb h
  | mul a b iha ihb => intro f h; exact bin_err iha ihb h
  | div a b iha ihb => intro f h; exact bin_err iha ihb h
  | un g a ih => intro f h; exact ih f h
  | subscript x ix => intro f h; simp [Expr.size] at h

/-- Size of a well-dimensioned expression. -/
def SizeOK (n : Nat) (ds : List Nat) (r : Res Nat) : Prop :=
  (∀ m ∈ ds, m = n) → r = .ok (if ds = [] then 0 else n)

theorem bin_size {n : Nat} {da db : List Nat} {ra rb : Res Nat} (ha : SizeOK n da ra) (hb : SizeOK n db rb) :
    SizeOK n (da ++ db) (do let m ← ra; let k ← rb; Expr.combineSize m k) := by
  intro h
  rw [ha (fun m hm => h m (by simp [hm])), hb (fun m hm => h m (by simp [hm]))]
  by_cases h1 : da = [] <;> by_cases h2 : db = [] <;> simp [h1, h2, Expr.combineSize] <;>
    exact fun h => h.symm

theorem size_ok (n : Nat) (e : Expr K) : SizeOK n (dims e) e.size := by
  induction e with
  | pt x => intro h; simp [dims] at h; simp [dims, Expr.size, h]
  | sc c => intro h; rfl
  | add a b iha ihb => exact bin_size iha ihb
  | sub a b iha ihb => exact bin_size iha ihb
  | mul a b iha ihb => exact bin_size iha ihb
  | div a b iha ihb => exact bin_size iha ihb
  | un g a ih => exact ih
  | subscript x ix => intro h; simp [dims] at h; simp [dims, Expr.size, h]

/-- A successful size computation over non-empty points means all dimensions agree. -/
def SizeAgree (ds : List Nat) (r : Res Nat) : Prop :=
  (∀ m ∈ ds, m ≠ 0) → ∀ s, r = .ok s → (∀ m ∈ ds, m = s) ∧ (ds = [] → s = 0)

theorem bin_agree {da db : List Nat} {ra rb : Res Nat} (ha : SizeAgree da ra) (hb : SizeAgree db rb) :
    SizeAgree (da ++ db) (do let m ← ra; let k ← rb; Expr.combineSize m k) := by
  intro h0 s hs
  cases hra : ra with
  | error e => rw [hra] at hs; simp at hs
  | ok m =>
    cases hrb : rb with
    | error e => rw [hra, hrb] at hs; simp at hs
    | ok k =>
      rw [hra, hrb] at hs
      simp only [Res_bind_ok] at hs
      obtain ⟨a1, a2⟩ := ha (fun x hx => h0 x (by simp [hx])) m hra
      obtain ⟨b1, b2⟩ := hb (fun x hx => h0 x (by simp [hx])) k hrb
      unfold Expr.combineSize at hs
      split at hs
      · next hc =>
        simp at hs
        have hda : m = 0 → da = [] := by
          intro hm
          cases da with
          | nil => rfl
          | cons x xs => exact absurd ((a1 x (by simp)).trans hm) (h0 x (by simp))
        have hdb : k = 0 → db = [] := by
          intro hm
          cases db with
          | nil => rfl
          | cons x xs => exact absurd ((b1 x (by simp)).trans hm) (h0 x (by simp))
        constructor
        · intro x hx
          rcases List.mem_append.1 hx with hx | hx
          · have hne : m ≠ 0 := by rw [← a1 x hx]; exact h0 x (by simp [hx])
            rw [if_neg hne] at hs
            rw [a1 x hx, hs]
          · have hxk := b1 x hx
            have hne : k ≠ 0 := by rw [← hxk]; exact h0 x (by simp [hx])
            split at hs
            · omega
            · rcases hc with hc | hc | hc
              · exact absurd hc (by assumption)
              · exact absurd hc hne
              · omega
        · intro hnil
          have h1 := List.append_eq_nil_iff.1 hnil
          have := a2 h1.1; have := b2 h1.2
          subst m; subst k; simp at hs; exact hs.symm
      · simp at hs

theorem size_agree (e : Expr K) : SizeAgree (dims e) e.size := by
  induction e with
  | pt x => intro _ s hs; simp [Expr.size] at hs; simp [dims, hs]
  | sc c => intro _ s hs; simp [Expr.size] at hs; simp [dims, hs]
  | add a b iha ihb => exact bin_agree iha ihb
  | sub a b iha ihb => exact bin_agree iha ihb
  | mul a b iha ihb => exact bin_agree iha ihb
  | div a b iha ihb => exact bin_agree iha ihb
  | un g a ih => exact ih
  | subscript x ix => intro _ s hs; simp [Expr.size] at hs; simp [dims, hs]

variable [Field K]

theorem vget_getD {α : Type} {l : List α} {i : Nat} (h : i < l.length) (z : α) :
    vget l i = .ok (l.getD i z) := by
  rw [vget_eq_ok, List.getD_eq_getElem?_getD, List.getElem?_eq_getElem h]; rfl

theorem at_ok (n : Nat) (e : Expr K) (hd : ∀ m ∈ dims e, m = n) (hs : subscriptsOK e) (i : Nat)
    (hi : i < n) : e.at? i = .ok (valueAt e i) := by
  induction e with
  | pt x =>
    simp [dims] at hd
    exact vget_getD (by omega) 0
  | sc c => rfl
  | add a b iha ihb =>
    simp only [dims, List.mem_append] at hd
    simp [Expr.at?, valueAt, iha (fun m hm => hd m (Or.inl hm)) hs.1, ihb (fun m hm => hd m (Or.inr hm)) hs.2]
  | sub a b iha ihb =>
    simp only [dims, List.mem_append] at hd
    simp [Expr.at?, valueAt, iha (fun m hm => hd m (Or.inl hm)) hs.1, ihb (fun m hm => hd m (Or.inr hm)) hs.2]
  | mul a b iha ihb =>
    simp only [dims, List.mem_append] at hd
    simp [Expr.at?, valueAt, iha (fun m hm => hd m (Or.inl hm)) hs.1, ihb (fun m hm => hd m (Or.inr hm)) hs.2]
  | div a b iha ihb =>
    simp only [dims, List.mem_append] at hd
    simp [Expr.at?, valueAt, iha (fun m hm => hd m (Or.inl hm)) hs.1, ihb (fun m hm => hd m (Or.inr hm)) hs.2]
  | un g a ih => simp [Expr.at?, valueAt, ih hd hs]
  | subscript x ix =>
    simp [dims] at hd
    have h1 : i < ix.length := by omega
    have h2 : ix.getD i 0 < x.length := by
      rw [List.getD_eq_getElem?_getD, List.getElem?_eq_getElem h1]
      exact hs _ (List.getElem_mem h1)
    simp only [Expr.at?, valueAt, vget_getD h1 0, Res_bind_ok]
    exact vget_getD h2 0

theorem copyLoop_ok (e : Expr K) (n : Nat) : ∀ (k i : Nat), (∀ j, i ≤ j → j < i + k → e.at? j = .ok (valueAt e j)) →
    e.copyLoop k i = .ok ((List.range' i k).map (valueAt e)) := by
  intro k
  induction k with
  | zero => intro i _; rfl
  | succ k ih =>
    intro i h
    simp only [Expr.copyLoop, h i (Nat.le_refl _) (by omega), Res_bind_ok,
      ih (i + 1) (fun j h1 h2 => h j (by omega) (by omega)), Res_pure]
    rw [List.range'_succ]; rfl

theorem construct_ok (n : Nat) (e : Expr K) (hd : ∀ m ∈ dims e, m = n) (hne : dims e ≠ [])
    (hs : subscriptsOK e) : e.construct = .ok ((List.range n).map (valueAt e)) := by
  have := size_ok n e hd
  rw [if_neg hne] at this
  rw [Expr.construct, this, Res_bind_ok, copyLoop_ok e n n 0 (fun j _ hj => at_ok n e hd hs j (by omega)),
    List.range_eq_range']

/-! ## Reductions -/

theorem dotLoop_eq (p q : List K) (r : K) : dotLoop p q r = r + (List.zipWith (· * ·) p q).sum := by
  induction p generalizing q r with
  | nil => cases q <;> simp [dotLoop]
  | cons a as ih =>
    cases q with
    | nil => simp [dotLoop]
    | cons b bs => simp [dotLoop, ih]; ring

theorem psum_eq (f : K → K) (p : List K) : psum f p = (p.map f).sum := by
  unfold psum
  suffices h : ∀ s, p.foldl (fun s v => s + f v) s = s + (p.map f).sum by rw [h 0, zero_add]
  induction p with
  | nil => intro s; simp
  | cons a as ih => intro s; rw [List.foldl_cons, ih]; simp; ring

theorem linLoop_length (h : K) (n : Nat) (v : K) : (linLoop h n v).length = n := by
  induction n generalizing v with
  | zero => rfl
  | succ n ih => simp [linLoop, ih]

theorem linLoop_get (h : K) : ∀ (n : Nat) (v : K) (i : Nat), i < n →
    (linLoop h n v)[i]? = some (v + (i : K) * h) := by
  intro n
  induction n with
  | zero => intro v i hi; omega
  | succ n ih =>
    intro v i hi
    cases i with
    | zero => simp [linLoop]
    | succ i =>
      rw [linLoop, List.getElem?_cons_succ, ih _ i (by omega)]
      congr 1; push_cast; ring

section
variable {K : Type} [LinearOrder K]

theorem pmax_ge (lo : K) (p : List K) : lo ≤ pmax lo p := by
  unfold pmax
  induction p generalizing lo with
  | nil => simp
  | cons a as ih =>
    rw [List.foldl_cons]
    refine le_trans ?_ (ih _)
    split
    · next h => exact le_of_lt h
    · exact le_refl _

theorem pmax_ub (lo : K) (p : List K) : ∀ v ∈ p, v ≤ pmax lo p := by
  unfold pmax
  induction p generalizing lo with
  | nil => simp
  | cons a as ih =>
    intro v hv
    rw [List.foldl_cons]
    rcases List.mem_cons.1 hv with h | h
    · subst h
      refine le_trans ?_ (pmax_ge _ as)
      split
      · exact le_refl _
      · next h => exact not_lt.1 h
    · exact ih _ v h

theorem pmax_mem (lo : K) (p : List K) : pmax lo p = lo ∨ pmax lo p ∈ p := by
  unfold pmax
  induction p generalizing lo with
  | nil => left; rfl
  | cons a as ih =>
    rw [List.foldl_cons]
    rcases ih (if a > lo then a else lo) with h | h
    · rw [h]
      split
      · right; simp
      · left; rfl
    · right; simp [h]

theorem pmin_le (hi : K) (p : List K) : pmin hi p ≤ hi := by
  unfold pmin
  induction p generalizing hi with
  | nil => simp
  | cons a as ih =>
    rw [List.foldl_cons]
    refine le_trans (ih _) ?_
    split
    · next h => exact le_of_lt h
    · exact le_refl _

theorem pmin_lb (hi : K) (p : List K) : ∀ v ∈ p, pmin hi p ≤ v := by
  unfold pmin
  induction p generalizing hi with
  | nil => simp
  | cons a as ih =>
    intro v hv
    rw [List.foldl_cons]
    rcases List.mem_cons.1 hv with h | h
    · subst h
      refine le_trans (pmin_le _ as) ?_
      split
      · exact le_refl _
      · next h => exact not_lt.1 h
    · exact ih _ v h

theorem pmin_mem (hi : K) (p : List K) : pmin hi p = hi ∨ pmin hi p ∈ p := by
  unfold pmin
  induction p generalizing hi with
  | nil => left; rfl
  | cons a as ih =>
    rw [List.foldl_cons]
    rcases ih (if a < hi then a else hi) with h | h
    · rw [h]
      split
      · right; simp
      · left; rfl
    · right; simp [h]
end

theorem selLoop_ok {K : Type} (x : List K) (fs : List Nat) (h : ∀ f ∈ fs, f < x.length) :
    ∃ ys, selLoop x fs = .ok ys ∧ ys.length = fs.length ∧ ∀ i : Nat, ∀ f, fs[i]? = some f → ys[i]? = x[f]? := by
  induction fs with
  | nil => exact ⟨[], rfl, rfl, by simp⟩
  | cons f fs ih =>
    obtain ⟨ys, e, hl, hg⟩ := ih (fun g hg => h g (by simp [hg]))
    have hf := h f (by simp)
    refine ⟨x[f] :: ys, ?_, by simp [hl], ?_⟩
    · simp only [selLoop, List.getElem?_eq_getElem hf, e, Res_bind_ok, Res_pure]
    · intro i g hi
      cases i with
      | zero => simp at hi; subst hi; simp [List.getElem?_eq_getElem hf]
      | succ i => simp at hi ⊢; exact hg i g hi

end MLTK.PointM
