import Verif.Model.DoubleMetric
import Verif.Lemmas.DoubleSum
/-!
# C224: the Minkowski distances in `double` arithmetic
-/
namespace MLTK.Props
open MLTK.Fp
open MLTK.Data (Res_bind_ok Res_bind_error Res_pure)

attribute [local irreducible] Fp.rnd Fp.near Fp.huge Fp.two

/-- The point with these finite coordinates. -/
def atPoint (p : List ℚ) : List Dbl := p.map Dbl.fin

theorem diffs_fin : ∀ p q : List ℚ, List.zipWith Dbl.sub (atPoint p) (atPoint q) = List.zipWith (fun a b => rnd (a - b)) p q := by
  intro p
  induction p with
  | nil => intro q; simp [atPoint]
  | cons a p ih =>
    intro q
    cases q with
    | nil => simp [atPoint]
    | cons b q =>
      simp only [atPoint, List.map_cons, List.zipWith_cons_cons, sub_fin] at ih ⊢
      rw [ih q]

theorem minus_fin {p q : List ℚ} (hl : p.length = q.length) :
    minus (atPoint p) (atPoint q) = .ok (List.zipWith (fun a b => rnd (a - b)) p q) := by
  unfold minus
  rw [if_pos (by simpa [atPoint] using hl), diffs_fin]

/-- The terms of the Manhattan distance. -/
def gaps (p q : List ℚ) : List Dbl := List.zipWith (fun a b => rnd |a - b|) p q

theorem gaps_abs (p q : List ℚ) : (List.zipWith (fun a b => rnd (a - b)) p q).map Dbl.abs = gaps p q := by
  unfold gaps
  rw [List.map_zipWith]
  simp only [abs_rnd]

theorem gaps_comm (p q : List ℚ) : gaps p q = gaps q p := by
  unfold gaps
  rw [List.zipWith_comm]
  simp only [abs_sub_comm]

theorem gaps_D0 (p q : List ℚ) : ∀ x ∈ gaps p q, D0 x := by
  intro x hx
  unfold gaps at hx
  obtain ⟨i, hi, rfl⟩ := List.mem_iff_getElem.1 hx
  rw [List.getElem_zipWith]
  exact rnd_D0 (abs_nonneg _)

theorem gaps_mem {p q : List ℚ} {a b : ℚ} (h : (a, b) ∈ p.zip q) : rnd |a - b| ∈ gaps p q := by
  unfold gaps
  rw [List.mem_iff_getElem] at *
  obtain ⟨i, hi, he⟩ := h
  rw [List.length_zip] at hi
  refine ⟨i, by rw [List.length_zipWith]; exact hi, ?_⟩
  rw [List.getElem_zip] at he
  rw [List.getElem_zipWith]
  cases he
  rfl

theorem gaps_zero : ∀ {p q : List ℚ}, p.length = q.length → (∀ a ∈ p, IsDbl a) → (∀ b ∈ q, IsDbl b) →
    ((∀ x ∈ gaps p q, x = .fin 0) ↔ p = q) := by
  intro p
  induction p with
  | nil =>
    intro q hl _ _
    cases q with
    | nil => simp [gaps]
    | cons b q => simp at hl
  | cons a p ih =>
    intro q hl hp hq
    cases q with
    | nil => simp at hl
    | cons b q =>
      have hrest := ih (q := q) (by simpa using hl) (fun x hx => hp x (by simp [hx])) (fun x hx => hq x (by simp [hx]))
      have ha := (isDbl_iff.1 (hp a (by simp))).1
      have hb := (isDbl_iff.1 (hq b (by simp))).1
      have hab : rnd |a - b| = .fin 0 ↔ a = b := by
        rw [rnd_eq_zero]
        constructor
        · intro h
          rcases le_total 0 (a - b) with h0 | h0
          · rw [abs_of_nonneg h0] at h
            exact near_sub_zero ha hb h
          · rw [abs_of_nonpos h0, near_neg, neg_eq_zero] at h
            exact near_sub_zero ha hb h
        · rintro rfl; rw [sub_self, abs_zero, near_zero]
      have hsplit : gaps (a :: p) (b :: q) = rnd |a - b| :: gaps p q := rfl
      rw [hsplit, List.forall_mem_cons, hab, hrest, List.cons.injEq]

/-- **C224 (Manhattan)** Between points of finite `double`s the Manhattan distance is a nonnegative `double` or infinite, never NaN;
it is the same in both directions, zero exactly when the points are equal, and at least the rounded difference in each
coordinate. -/
theorem C224_manhattan (p q : List ℚ) (hl : p.length = q.length) (hp : ∀ a ∈ p, IsDbl a) (hq : ∀ b ∈ q, IsDbl b) :
    ∃ d, manhattan (atPoint p) (atPoint q) = .ok d ∧ manhattan (atPoint q) (atPoint p) = .ok d ∧
      (d = .inf false ∨ ∃ r, d = .fin r ∧ IsDbl r ∧ 0 ≤ r) ∧ (d = .fin 0 ↔ p = q) ∧
      (∀ a b, (a, b) ∈ p.zip q → (rnd |a - b|).le d = true) := by
  have hsum := sum_D0 (gaps p q) (gaps_D0 p q) _ zero_D0
  refine ⟨total (gaps p q), ?_, ?_, ?_, ?_, ?_⟩
  · unfold manhattan; rw [minus_fin hl, Res_bind_ok, gaps_abs]; rfl
  · unfold manhattan; rw [minus_fin hl.symm, Res_bind_ok, gaps_abs, gaps_comm]; rfl
  · rcases hsum.1 with ⟨r, h, h1, h2⟩ | h
    · exact .inr ⟨r, h, h1, h2⟩
    · exact .inl h
  · rw [← gaps_zero hl hp hq]
    exact sum_zero_iff _ (gaps_D0 p q)
  · intro a b hab
    exact hsum.2.2 _ (gaps_mem hab)

/-- **C224 (refuted: the triangle inequality)** The Manhattan distance in `double`s can be shorter by way of a third point, the two
legs being added up in `double`s. -/
theorem C224_triangle_refuted : ¬ ∀ (p q r : List ℚ) (d1 d2 d3 : Dbl), (∀ a ∈ p ++ q ++ r, IsDbl a) →
    manhattan (atPoint p) (atPoint q) = .ok d1 → manhattan (atPoint q) (atPoint r) = .ok d2 →
    manhattan (atPoint p) (atPoint r) = .ok d3 → d3.le (d1.add d2) = true := by
  intro h
  have := h [1] [-1 / 2 ^ 53] [-1 - 3 / 2 ^ 52] (.fin 1) (.fin (1 + 1 / 2 ^ 51)) (.fin (2 + 1 / 2 ^ 50)) (by decide +kernel)
    (by rw [show manhattan _ _ = _ from rfl]; decide +kernel) (by decide +kernel) (by decide +kernel)
  exact absurd this (by decide +kernel)

theorem pick_max {s x : Dbl} (hs : D0 s) (h1 : D0 x) :
    D0 (if s.lt x then x else s) ∧ s.le (if s.lt x then x else s) = true ∧ x.le (if s.lt x then x else s) = true := by
  rcases hs with ⟨a, rfl, ha, a0⟩ | rfl <;> rcases h1 with ⟨b, rfl, hb, b0⟩ | rfl
  · by_cases h : a < b
    · rw [if_pos (by simpa [Dbl.lt] using h)]
      exact ⟨.inl ⟨b, rfl, hb, b0⟩, by simpa [Dbl.le] using h.le, by simp [Dbl.le]⟩
    · rw [if_neg (by simpa [Dbl.lt] using h)]
      exact ⟨.inl ⟨a, rfl, ha, a0⟩, by simp [Dbl.le], by simpa [Dbl.le] using h⟩
  · exact ⟨.inr rfl, rfl, rfl⟩
  · exact ⟨.inr rfl, rfl, rfl⟩
  · exact ⟨.inr rfl, rfl, rfl⟩

theorem maxOf_ge (xs : List Dbl) (hx : ∀ x ∈ xs, D0 x) : ∀ s, D0 s →
    let r := xs.foldl (fun m v => if m.lt v then v else m) s
    D0 r ∧ s.le r = true ∧ (∀ x ∈ xs, x.le r = true) ∧ (r = s ∨ r ∈ xs) := by
  induction xs with
  | nil => intro s hs; exact ⟨hs, hs.refl, by simp, .inl rfl⟩
  | cons x xs ih =>
    intro s hs
    have h1 := hx x (by simp)
    have hcmp := pick_max hs h1
    obtain ⟨a, b, c, e⟩ := ih (fun y hy => hx y (by simp [hy])) _ hcmp.1
    refine ⟨a, hcmp.1.trans hcmp.2.1 b, ?_, ?_⟩
    · intro y hy
      rcases List.mem_cons.1 hy with rfl | hy
      · exact hcmp.1.trans hcmp.2.2 b
      · exact c y hy
    · rcases e with e | e
      · by_cases hlt : s.lt x = true
        · rw [if_pos hlt] at e
          right; rw [List.foldl_cons, if_pos hlt, e]; simp
        · rw [if_neg hlt] at e
          left; rw [List.foldl_cons, if_neg hlt, e]
      · right; exact List.mem_cons_of_mem _ e

/-- **C224 (Chebyshev)** Between points of finite `double`s the Chebyshev distance is the largest of the rounded differences of the
coordinates or, if that is larger, the least normal number; it is the same in both directions and never NaN. -/
theorem C224_chebyshev_partial (p q : List ℚ) (hl : p.length = q.length) :
    ∃ d, chebyshev (atPoint p) (atPoint q) = .ok d ∧ chebyshev (atPoint q) (atPoint p) = .ok d ∧ d ≠ .nan ∧
      (∀ a b, (a, b) ∈ p.zip q → (rnd |a - b|).le d = true) ∧ (Dbl.fin (1 / 2 ^ 1022)).le d = true ∧
      (d = .fin (1 / 2 ^ 1022) ∨ ∃ a b, (a, b) ∈ p.zip q ∧ d = rnd |a - b|) := by
  have hleast : least = 1 / 2 ^ 1022 := by decide +kernel
  have h0 : D0 (.fin least) := .inl ⟨least, rfl, by decide +kernel, by rw [hleast]; positivity⟩
  obtain ⟨h1, h2, h3, h4⟩ := maxOf_ge (gaps p q) (gaps_D0 p q) _ h0
  refine ⟨maxOf (gaps p q), ?_, ?_, ?_, ?_, ?_, ?_⟩
  · unfold chebyshev; rw [minus_fin hl, Res_bind_ok, gaps_abs]; rfl
  · unfold chebyshev; rw [minus_fin hl.symm, Res_bind_ok, gaps_abs, gaps_comm]; rfl
  · unfold maxOf
    rcases h1 with ⟨r, h, _⟩ | h <;> rw [h] <;> simp
  · intro a b hab
    exact h3 _ (gaps_mem hab)
  · rw [← hleast]; exact h2
  · rcases h4 with h | h
    · left; rw [← hleast]; exact h
    · right
      obtain ⟨i, hi, he⟩ := List.mem_iff_getElem.1 h
      unfold gaps at he hi
      rw [List.length_zipWith] at hi
      rw [List.getElem_zipWith] at he
      refine ⟨p[i], q[i], ?_, ?_⟩
      · rw [List.mem_iff_getElem]
        exact ⟨i, by rw [List.length_zip]; exact hi, List.getElem_zip⟩
      · exact he.symm

/-- **C224 (refuted: Chebyshev)** The Chebyshev distance of a point to itself is not zero. -/
theorem C224_chebyshev_refuted : ¬ ∀ (p : List ℚ) (d : Dbl), (∀ a ∈ p, IsDbl a) → chebyshev (atPoint p) (atPoint p) = .ok d →
    d = .fin 0 := by
  intro h
  exact absurd (h [1] (.fin (1 / 2 ^ 1022)) (by decide +kernel) (by decide +kernel)) (by decide +kernel)

theorem mul_self_rnd (q : ℚ) : (rnd q).mul (rnd q) = (rnd (-q)).mul (rnd (-q)) := by
  rw [rnd_neg]
  cases rnd q with
  | fin x => simp only [Dbl.mul, Dbl.neg, neg_mul_neg]
  | inf s => simp [Dbl.mul, Dbl.neg]
  | nan => rfl

theorem square_D0 (q : ℚ) : D0 ((rnd q).mul (rnd q)) := by
  have key : ∀ a : Dbl, a ≠ .nan → D0 (a.mul a) := by
    intro a ha
    cases a with
    | fin x => exact rnd_D0 (mul_self_nonneg x)
    | inf s => right; simp [Dbl.mul]
    | nan => exact absurd rfl ha
  apply key
  unfold rnd
  split_ifs <;> simp

/-- **C224 (Euclidean)** Between points of finite `double`s the Euclidean distance is the root of a nonnegative or infinite `double`;
it is the same in both directions, and that of a point to itself is the root of zero. -/
theorem C224_euclidean_partial (sqrt : Dbl → Dbl) (p q : List ℚ) (hl : p.length = q.length) :
    ∃ s, euclidean sqrt (atPoint p) (atPoint q) = .ok (sqrt s) ∧ euclidean sqrt (atPoint q) (atPoint p) = .ok (sqrt s) ∧
      (s = .inf false ∨ ∃ r, s = .fin r ∧ IsDbl r ∧ 0 ≤ r) ∧ (p = q → s = .fin 0) := by
  have hmap : ∀ p q : List ℚ, (List.zipWith (fun a b => rnd (a - b)) p q).map (fun v => v.mul v) =
      List.zipWith (fun a b => (rnd (a - b)).mul (rnd (a - b))) p q := fun p q => List.map_zipWith ..
  have hd : ∀ x ∈ List.zipWith (fun a b => (rnd (a - b)).mul (rnd (a - b))) p q, D0 x := by
    intro x hx
    obtain ⟨i, hi, rfl⟩ := List.mem_iff_getElem.1 hx
    rw [List.getElem_zipWith]
    exact square_D0 _
  refine ⟨total (List.zipWith (fun a b => (rnd (a - b)).mul (rnd (a - b))) p q), ?_, ?_, ?_, ?_⟩
  · unfold euclidean; rw [minus_fin hl, Res_bind_ok, hmap]; rfl
  · unfold euclidean; rw [minus_fin hl.symm, Res_bind_ok, hmap, List.zipWith_comm]
    have : (fun (b a : ℚ) => (rnd (a - b)).mul (rnd (a - b))) = fun b a => (rnd (b - a)).mul (rnd (b - a)) := by
      funext b a
      rw [mul_self_rnd, neg_sub]
    rw [this]; rfl
  · rcases (sum_D0 _ hd _ zero_D0).1 with ⟨r, h, h1, h2⟩ | h
    · exact .inr ⟨r, h, h1, h2⟩
    · exact .inl h
  · rintro rfl
    apply sum_zero
    intro x hx
    obtain ⟨i, hi, rfl⟩ := List.mem_iff_getElem.1 hx
    rw [List.getElem_zipWith, sub_self]
    have h0 : rnd 0 = .fin 0 := rnd_eq_zero.2 near_zero
    rw [h0]
    simp only [Dbl.mul, mul_zero, h0]

theorem euclidean_of {sqrt : Dbl → Dbl} {p q : List Dbl} {s : Dbl} (h : euclidean id p q = .ok s) :
    euclidean sqrt p q = .ok (sqrt s) := by
  unfold euclidean at *
  cases hm : minus p q with
  | error e => rw [hm, Res_bind_error] at h; cases h
  | ok d =>
    rw [hm, Res_bind_ok] at h
    rw [Res_bind_ok]
    cases h
    rfl

/-- **C224 (refuted: Euclidean)** Different points of finite `double`s can have the Euclidean distance of a point to itself, and others
the root of infinity. -/
theorem C224_euclidean_refuted :
    (∀ sqrt, ¬ ∀ p q : List ℚ, (∀ a ∈ p ++ q, IsDbl a) → p ≠ q →
      euclidean sqrt (atPoint p) (atPoint q) ≠ euclidean sqrt (atPoint p) (atPoint p)) ∧
    (∀ sqrt, ∃ p q : List ℚ, (∀ a ∈ p ++ q, IsDbl a) ∧ euclidean sqrt (atPoint p) (atPoint q) = .ok (sqrt (.inf false))) := by
  constructor
  · intro sqrt h
    refine h [1 / 2 ^ 600] [0] (by decide +kernel) (by decide +kernel) ?_
    rw [euclidean_of (s := .fin 0) (by decide +kernel), euclidean_of (s := .fin 0) (by decide +kernel)]
  · intro sqrt
    exact ⟨[2 ^ 600], [0], by decide +kernel, euclidean_of (by decide +kernel)⟩

/-- Two points of the plane whose coordinates are `double`s. -/
example : (∀ a ∈ [(1 : ℚ) / 4, 3] ++ [2, -1], IsDbl a) ∧
    manhattan (atPoint [1 / 4, 3]) (atPoint [2, -1]) = .ok (.fin (23 / 4)) ∧
    chebyshev (atPoint [1 / 4, 3]) (atPoint [2, -1]) = .ok (.fin 4) ∧
    euclidean id (atPoint [1 / 4, 3]) (atPoint [2, -1]) = .ok (.fin (305 / 16)) := by
  refine ⟨by decide +kernel, by decide +kernel, by decide +kernel, by decide +kernel⟩

/-- **C224 (sizes)** Points of different sizes have no distance: the program stops at an assertion or reads outside a point. -/
theorem C224_sizes (p q : List Dbl) (h : p.length ≠ q.length) (sqrt : Dbl → Dbl) :
    (∃ e, manhattan p q = .error e) ∧ (∃ e, chebyshev p q = .error e) ∧ ∃ e, euclidean sqrt p q = .error e := by
  have : ∃ e, minus p q = .error e := by
    unfold minus
    rw [if_neg h]
    split_ifs
    · exact ⟨_, rfl⟩
    · exact ⟨_, rfl⟩
  obtain ⟨e, he⟩ := this
  refine ⟨⟨e, ?_⟩, ⟨e, ?_⟩, ⟨e, ?_⟩⟩
  · unfold manhattan; rw [he]; rfl
  · unfold chebyshev; rw [he]; rfl
  · unfold euclidean; rw [he]; rfl

end MLTK.Props
