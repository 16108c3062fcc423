import Mathlib.Algebra.Order.BigOperators.Group.List
import Mathlib.Tactic.FieldSimp
import Mathlib.Tactic.Linarith
import Mathlib.Tactic.Positivity
import Verif.Model.Stats
import Verif.Spec.Stats
import Verif.Lemmas.Point
import Verif.Lemmas.Util
namespace MLTK.Stats
open MLTK.PointM MLTK.Spec
open MLTK.Data (Res_bind_ok Res_bind_error Res_pure)

variable {K : Type} [Field K]

theorem range_map_getD {α β : Type} (f : α → β) (z : α) (p : List α) :
    (List.range p.length).map (fun i => f (p.getD i z)) = p.map f := by
  apply List.ext_getElem
  · simp
  · intro i h1 h2
    simp at h1 h2
    simp [List.getD_eq_getElem?_getD, List.getElem?_eq_getElem h1]

theorem range_zip_getD {α β γ : Type} (f : α → β → γ) (z : α) (w : β) (p : List α) (q : List β)
    (h : p.length = q.length) :
    (List.range p.length).map (fun i => f (p.getD i z) (q.getD i w)) = List.zipWith f p q := by
  apply List.ext_getElem
  · simp [h]
  · intro i h1 h2
    simp at h1 h2
    simp [List.getD_eq_getElem?_getD, List.getElem?_eq_getElem h1, List.getElem?_eq_getElem h2.2]

theorem mean_ok (p : List K) (h : p ≠ []) : mean p = .ok (avg p) := by
  rw [mean, if_pos (List.length_pos_of_ne_nil h), psum_eq]; simp [avg]

theorem var_ok (p : List K) (h : p ≠ []) : var p = .ok (sqDev p / p.length) := by
  rw [var, if_pos (List.length_pos_of_ne_nil h), mean_ok p h, Res_bind_ok,
    construct_ok p.length _ (by simp [dims]) (by simp [dims]) (by simp [subscriptsOK]), Res_bind_ok, psum_eq]
  simp only [valueAt, List.map_id, Res_pure]
  rw [range_map_getD (fun x => (x - avg p) ^ 2) 0 p]; rfl

theorem covar_ok (p q : List K) (h : p ≠ []) (hl : p.length = q.length) :
    covar p q = .ok (coDev p q / ((p.length : K) - 1)) := by
  have hq : q ≠ [] := by rintro rfl; simp at hl; exact h hl
  rw [covar, if_pos hl, mean_ok p h, Res_bind_ok, mean_ok q hq, Res_bind_ok,
    construct_ok p.length _ (by simp [dims, hl]) (by simp [dims]) (by simp [subscriptsOK]), Res_bind_ok, psum_eq]
  simp only [valueAt, List.map_id, Res_pure]
  rw [range_zip_getD (fun x y => (x - avg p) * (y - avg q)) 0 0 p q hl, hl]; rfl

theorem colSum_ok (rows : List (List K)) (j : Nat) (h : ∀ r ∈ rows, j < r.length) :
    colSum rows j = .ok (column rows j).sum := by
  rw [colSum, foldlM_ok _ (fun s r => s + r.getD j 0) rows 0 ?_, foldl_add_sum, zero_add]
  · rfl
  · intro r hr s
    rw [vget_getD (h r hr) 0]; rfl

theorem sqDev_self (p : List K) : coDev p p = sqDev p := by
  unfold coDev sqDev
  generalize avg p = m
  induction p with
  | nil => simp
  | cons a p ih => simp [ih, sq]

theorem foldlM_append {α β : Type} (f : α → Res β) (g : α → β) (l : List α) (h : ∀ a ∈ l, f a = .ok (g a)) (acc : List β) :
    l.foldlM (fun acc a => do let x ← f a; return acc ++ [x]) acc = .ok (acc ++ l.map g) := by
  induction l generalizing acc with
  | nil => simp
  | cons a l ih =>
    rw [List.foldlM_cons, h a (by simp), Res_bind_ok, Res_pure, Res_bind_ok, ih (fun x hx => h x (by simp [hx]))]
    simp

theorem avgs_ok (dim : Nat) (names : List Int) (rows : List (List K)) (skip : Int → Bool)
    (hn : names.length = dim) (hr : ∀ r ∈ rows, r.length = dim) :
    avgs dim names rows skip = .ok ((List.range dim).map (fun j => if skip (names.getD j 0) then 0 else avg (column rows j))) := by
  rw [avgs, foldlM_ok _ (fun acc j => acc ++ [if skip (names.getD j 0) then 0 else avg (column rows j)])]
  · congr 1
    have : ∀ (l : List Nat) (acc : List K), l.foldl (fun acc j => acc ++ [if skip (names.getD j 0) then 0 else avg (column rows j)]) acc
        = acc ++ l.map (fun j => if skip (names.getD j 0) then 0 else avg (column rows j)) := by
      intro l
      induction l with
      | nil => simp
      | cons a l ih => intro acc; rw [List.foldl_cons, ih]; simp
    rw [this]; simp
  · intro j hj acc
    have hj : j < dim := by simpa using hj
    rw [vget_getD (by omega) 0, Res_bind_ok]
    by_cases hk : skip (names.getD j 0) = true
    · simp only [hk, if_true, Res_pure]
    · rw [if_neg hk, if_neg hk, colSum_ok rows j (fun r h => by rw [hr r h]; exact hj)]
      simp [avg, column]

theorem sqToAvg_ok (dim : Nat) (names : List Int) (rows : List (List K)) (row : List K) (skip : Int → Bool)
    (hn : names.length = dim) (hr : row.length = dim) :
    sqToAvg dim names ((List.range dim).map (fun j => if skip (names.getD j 0) then 0 else avg (column rows j))) row skip =
      .ok ((List.range dim).map (fun j => if skip (names.getD j 0) then 0 else
        (avg (column rows j) - row.getD j 0) ^ 2)).sum := by
  rw [sqToAvg, foldlM_ok _ (fun s j => s + if skip (names.getD j 0) then 0 else
        (avg (column rows j) - row.getD j 0) ^ 2), foldl_add_sum, zero_add]
  intro j hj s
  have hj : j < dim := by simpa using hj
  rw [vget_getD (by omega) 0, Res_bind_ok]
  by_cases hk : skip (names.getD j 0) = true
  · simp only [hk, if_true, add_zero, Res_pure]
  · rw [if_neg hk, if_neg hk, vget_getD (l := row) (by omega) 0]
    have : vget ((List.range dim).map (fun j => if skip (names.getD j 0) then 0 else avg (column rows j))) j =
        .ok (avg (column rows j)) := by
      rw [vget_eq_ok, List.getElem?_map, List.getElem?_range hj, Option.map_some, if_neg hk]
    rw [this]; rfl

theorem classAvg_ok (dim : Nat) (rows : List (List K × Int)) (pos : Bool) (hr : ∀ r ∈ rows, r.1.length = dim) :
    classAvg dim rows pos = .ok ((List.range dim).map (fun j =>
      avg (column ((rows.filter (fun r => (r.2 = 1) = pos)).map Prod.fst) j))) := by
  rw [classAvg, foldlM_ok _ (fun acc j => acc ++ [avg (column ((rows.filter (fun r => (r.2 = 1) = pos)).map Prod.fst) j)])]
  · congr 1
    have : ∀ (l : List Nat) (acc : List K), l.foldl (fun acc j => acc ++ [avg (column ((rows.filter (fun r => (r.2 = 1) = pos)).map Prod.fst) j)]) acc
        = acc ++ l.map (fun j => avg (column ((rows.filter (fun r => (r.2 = 1) = pos)).map Prod.fst) j)) := by
      intro l
      induction l with
      | nil => simp
      | cons a l ih => intro acc; rw [List.foldl_cons, ih]; simp
    rw [this]; simp
  · intro j hj acc
    have hj : j < dim := by simpa using hj
    rw [colSum_ok _ j ?_, Res_bind_ok, Res_pure]
    · congr 3
      rw [avg, column, List.length_map, List.length_map, List.countP_eq_length_filter]
    · intro r h
      obtain ⟨x, hx, rfl⟩ := List.mem_map.1 h
      rw [hr x (List.mem_filter.1 hx).1]; exact hj

theorem sum_swap {α β M : Type} [AddCommMonoid M] (l : List α) (k : List β) (g : α → β → M) :
    (l.map (fun a => (k.map (g a)).sum)).sum = (k.map (fun b => (l.map (fun a => g a b)).sum)).sum := by
  induction l with
  | nil => simp
  | cons a l ih => simp only [List.map_cons, List.sum_cons, ih, List.sum_map_add]

theorem sum_filter_map {α M : Type} [AddCommMonoid M] (l : List α) (p : α → Bool) (g : α → M) :
    (l.map (fun a => if p a then g a else 0)).sum = ((l.filter p).map g).sum := by
  induction l with
  | nil => simp
  | cons a l ih =>
    by_cases h : p a = true
    · simp [h, ih]
    · simp [h, ih]

theorem sum_div {α : Type} (l : List α) (g : α → K) (n : K) :
    (l.map g).sum / n = (l.map (fun a => g a / n)).sum := by
  induction l with
  | nil => simp
  | cons a l ih => simp [add_div, ih]

theorem sum_neg' (l : List K) : (l.map (fun x => -x)).sum = - l.sum := by
  induction l with
  | nil => simp
  | cons a l ih => simp [ih]; ring

theorem foldl_max {α : Type} {L : Type} [LinearOrder L] (D : α → L) (l : List α) (b : L) :
    (b ≤ l.foldl (fun mx r => if mx < D r then D r else mx) b ∧
      ∀ r ∈ l, D r ≤ l.foldl (fun mx r => if mx < D r then D r else mx) b) ∧
    (l.foldl (fun mx r => if mx < D r then D r else mx) b = b ∨
      ∃ r ∈ l, l.foldl (fun mx r => if mx < D r then D r else mx) b = D r) := by
  induction l generalizing b with
  | nil => simp
  | cons a l ih =>
    rw [List.foldl_cons]
    obtain ⟨⟨h1, h2⟩, h3⟩ := ih (if b < D a then D a else b)
    refine ⟨⟨?_, ?_⟩, ?_⟩
    · refine le_trans ?_ h1; split
      · next h => exact h.le
      · exact le_refl _
    · intro r hr
      rcases List.mem_cons.1 hr with rfl | hr
      · refine le_trans ?_ h1; split
        · exact le_refl _
        · next h => exact not_lt.1 h
      · exact h2 r hr
    · rcases h3 with h3 | ⟨r, hr, h3⟩
      · rw [h3]
        split
        · right; exact ⟨a, by simp, rfl⟩
        · left; rfl
      · right; exact ⟨r, by simp [hr], h3⟩

end MLTK.Stats
