import Mathlib.Tactic.Linarith
import Mathlib.Tactic.Positivity
import Verif.Lemmas.Voting
/-!
Lemmas on the boosting rounds (Model/Voting.lean, AdaBoostClassifier.hpp:30-60).
-/
namespace MLTK.Vote
open MLTK.Spec
open MLTK.Data (Res_bind_ok Res_bind_error Res_pure)

theorem sum_pos_of {ws : List ℝ} (h : ∀ w ∈ ws, 0 < w) (hne : ws ≠ []) : 0 < ws.sum := by
  induction ws with
  | nil => exact absurd rfl hne
  | cons a l ih =>
    rw [List.sum_cons]
    have ha := h a (by simp)
    by_cases hl : l = []
    · subst hl; simpa using ha
    · have := ih (fun w hw => h w (by simp [hw])) hl
      linarith

theorem sum_nonneg_of {ws : List ℝ} (h : ∀ w ∈ ws, 0 < w) : 0 ≤ ws.sum := by
  by_cases hl : ws = []
  · subst hl; simp
  · exact (sum_pos_of h hl).le

theorem lt_one_of {ws : List ℝ} (h : Distribution ws) (hl : 2 ≤ ws.length) : ∀ w ∈ ws, w < 1 := by
  intro w hw
  obtain ⟨a, b, rfl⟩ := List.append_of_mem hw
  have hs := h.2
  rw [List.sum_append, List.sum_cons] at hs
  have hp := h.1
  have ha : ∀ x ∈ a, 0 < x := fun x hx => hp x (by simp [hx])
  have hb : ∀ x ∈ b, 0 < x := fun x hx => hp x (by simp [hx])
  have ha0 := sum_nonneg_of ha
  have hb0 := sum_nonneg_of hb
  by_cases hae : a = []
  · have hbe : b ≠ [] := by
      rintro rfl
      subst hae
      simp at hl
    have := sum_pos_of hb hbe
    linarith
  · have := sum_pos_of ha hae
    linarith

/-- The quantity computed as the estimator's error: the sum of the squared weights of the errors. -/
theorem err_sum (ws : List ℝ) (miss : List Bool) :
    (List.zipWith (· * ·) ws (errorsOf ws miss)).sum =
      (List.zipWith (fun w b => if b then w * w else 0) ws miss).sum := by
  unfold errorsOf
  induction ws generalizing miss with
  | nil => simp
  | cons a l ih =>
    cases miss with
    | nil => simp
    | cons b r =>
      simp only [List.zipWith_cons_cons, List.sum_cons, ih r]
      cases b <;> simp

theorem sq_nonneg_sum (ws : List ℝ) (miss : List Bool) :
    0 ≤ (List.zipWith (fun w b => if b then w * w else 0) ws miss).sum := by
  apply List.sum_nonneg
  intro x hx
  rw [List.mem_iff_getElem] at hx
  obtain ⟨i, hi, rfl⟩ := hx
  rw [List.getElem_zipWith]
  by_cases hb : miss[i]'(by simp at hi; omega) = true
  · rw [if_pos hb]; exact mul_self_nonneg _
  · rw [if_neg hb]

theorem sq_le_sum (ws : List ℝ) (miss : List Bool) (h : ∀ w ∈ ws, 0 < w ∧ w < 1) :
    (List.zipWith (fun w b => if b then w * w else 0) ws miss).sum ≤ ws.sum ∧
    (ws ≠ [] → (List.zipWith (fun w b => if b then w * w else 0) ws miss).sum < ws.sum) := by
  induction ws generalizing miss with
  | nil => simp
  | cons a l ih =>
    have ha := h a (by simp)
    have hl : ∀ w ∈ l, 0 < w ∧ w < 1 := fun w hw => h w (by simp [hw])
    have : (List.zipWith (fun w b => if b then w * w else 0) (a :: l) miss).sum < (a :: l).sum := by
      cases miss with
      | nil => simpa using sum_pos_of (fun w hw => (h w hw).1) (by simp)
      | cons b r =>
        have h1 := (ih r hl).1
        simp only [List.zipWith_cons_cons, List.sum_cons]
        cases b
        · simp only [Bool.false_eq_true, if_false]; linarith
        · simp only [if_true]; nlinarith
    exact ⟨this.le, fun _ => this⟩

theorem zipWith_pos (ws es : List ℝ) (a : ℝ) (h : ∀ w ∈ ws, 0 < w) :
    ∀ x ∈ List.zipWith (fun w e => w * Real.exp (a * e)) ws es, 0 < x := by
  intro x hx
  rw [List.mem_iff_getElem] at hx
  obtain ⟨i, hi, rfl⟩ := hx
  rw [List.getElem_zipWith]
  exact mul_pos (h _ (List.getElem_mem _)) (Real.exp_pos _)

theorem sum_map_div (l : List ℝ) (s : ℝ) : (l.map (· / s)).sum = l.sum / s := by
  induction l with
  | nil => simp
  | cons a l ih => simp only [List.map_cons, List.sum_cons, ih]; ring

theorem decSize_of_pos {n : Nat} (h : 0 < n) : decSize n = n - 1 := by
  unfold decSize
  rw [if_neg (by omega)]

theorem boostRound_ok (nc : Nat) (hc : 2 ≤ nc) (ws : List ℝ) (hw : Distribution ws) (hl : 2 ≤ ws.length)
    (miss : List Bool) (hm : miss.length = ws.length) :
    ∃ ws' a, boostRound nc ws miss = .ok (ws', a) ∧ Distribution ws' ∧ ws'.length = ws.length ∧
      a = (let e := (List.zipWith (fun w b => if b then w * w else 0) ws miss).sum
           (if 0 < e then Real.log ((1 - e) / e) else 1) + Real.log ((nc : ℝ) - 1)) := by
  have hlt := lt_one_of hw hl
  have hne : ws ≠ [] := by rintro rfl; simp at hl
  set e := (List.zipWith (fun w b => if b then w * w else 0) ws miss).sum with he
  have he1 : e < 1 := by
    have := (sq_le_sum ws miss (fun w h => ⟨hw.1 w h, hlt w h⟩)).2 hne
    rw [hw.2] at this; exact this
  have he0 : 0 ≤ e := sq_nonneg_sum ws miss
  have h1 : errOf ws (errorsOf ws miss) = .ok e := by
    unfold errOf
    rw [if_neg (by rw [hw.2]; norm_num), err_sum, hw.2, div_one]
  have h2 : alphaOf e nc = .ok ((if 0 < e then Real.log ((1 - e) / e) else 1) + Real.log ((nc : ℝ) - 1)) := by
    unfold alphaOf
    have hb : logC ((decSize nc : Nat) : ℝ) = .ok (Real.log ((nc : ℝ) - 1)) := by
      rw [decSize_of_pos (by omega)]
      have hcast : ((nc - 1 : Nat) : ℝ) = (nc : ℝ) - 1 := by
        rw [Nat.cast_sub (by omega)]; simp
      unfold logC
      have : (2 : ℝ) ≤ nc := by exact_mod_cast hc
      rw [hcast, if_pos (by linarith)]
    by_cases h0 : 0 < e
    · have : logC ((1 - e) / e) = .ok (Real.log ((1 - e) / e)) := by
        unfold logC
        rw [if_pos (div_pos (by linarith) h0)]
      rw [if_pos h0, if_pos h0, this, Res_bind_ok, hb]; rfl
    · rw [if_neg h0, if_neg h0, Res_bind_ok, hb]; rfl
  set a := (if 0 < e then Real.log ((1 - e) / e) else 1) + Real.log ((nc : ℝ) - 1) with ha
  have hpos := zipWith_pos ws (errorsOf ws miss) a hw.1
  set zs := List.zipWith (fun w e => w * Real.exp (a * e)) ws (errorsOf ws miss) with hz
  have hlen : zs.length = ws.length := by simp [hz, errorsOf, hm]
  have hs : 0 < zs.sum := sum_pos_of hpos (by rintro h; rw [h] at hlen; simp at hlen; omega)
  refine ⟨zs.map (· / zs.sum), a, ?_, ⟨?_, ?_⟩, by simp [hlen], rfl⟩
  · unfold boostRound
    dsimp only
    rw [h1, Res_bind_ok, h2, Res_bind_ok, ← hz, if_neg hs.ne']; rfl
  · intro w hw'
    obtain ⟨x, hx, rfl⟩ := List.mem_map.mp hw'
    exact div_pos (hpos x hx) hs
  · rw [sum_map_div, div_self hs.ne']

theorem boostLoop_ok (nc : Nat) (hc : 2 ≤ nc) (outcomes : List (List Bool)) :
    ∀ (ws : List ℝ), Distribution ws → 2 ≤ ws.length → (∀ miss ∈ outcomes, miss.length = ws.length) →
    ∃ ws' as, boostLoop nc ws outcomes = .ok (ws', as) ∧ Distribution ws' ∧ ws'.length = ws.length ∧
      as.length = outcomes.length := by
  induction outcomes with
  | nil => intro ws hw _ _; exact ⟨ws, [], rfl, hw, rfl, rfl⟩
  | cons miss rest ih =>
    intro ws hw hl hm
    obtain ⟨ws1, a, h1, h2, h3, _⟩ := boostRound_ok nc hc ws hw hl miss (hm miss (by simp))
    obtain ⟨ws2, as, g1, g2, g3, g4⟩ := ih ws1 h2 (by omega) (fun m hm' => by rw [h3]; exact hm m (by simp [hm']))
    refine ⟨ws2, a :: as, ?_, g2, by omega, by simp [g4]⟩
    rw [boostLoop, h1, Res_bind_ok]
    dsimp only
    rw [g1, Res_bind_ok]; rfl

theorem weightedError_cons (x : ℝ) (l : List ℝ) (b : Bool) (r : List Bool) :
    weightedError (x :: l) (b :: r) = (if b then x else 0) + weightedError l r := by
  unfold weightedError
  rw [Finset.sum_filter, Finset.sum_filter, List.length_cons, Finset.sum_range_succ']
  simp [add_comm]

theorem weightedError_nil (l : List ℝ) : weightedError l [] = 0 := by
  simp [weightedError]

theorem uniform_distribution (n : Nat) (h : 0 < n) : Distribution (List.replicate n (1 / (n : ℝ))) := by
  have hn : (0 : ℝ) < n := by exact_mod_cast h
  refine ⟨fun w hw => ?_, ?_⟩
  · rw [List.eq_of_mem_replicate hw]; positivity
  · rw [List.sum_replicate, nsmul_eq_mul]; field_simp

end MLTK.Vote
