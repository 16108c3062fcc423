import Mathlib.Tactic.Ring
import Mathlib.Tactic.Linarith
import Mathlib.Tactic.FieldSimp
import Mathlib.Tactic.Positivity
import Mathlib.Data.List.Nodup
import Mathlib.Data.Finset.Card
import Mathlib.Data.Finset.Range
import Verif.Model.Features
import Verif.Lemmas.Util
/-!
# Lemmas about feature selection and sampling
-/
namespace MLTK.Feat
open MLTK.Data (Res_bind_ok Res_bind_error Res_pure)

theorem mapM_ok {α β : Type} (f : α → Res β) (g : α → β) (l : List α) (h : ∀ a ∈ l, f a = .ok (g a)) :
    l.mapM f = .ok (l.map g) := by
  induction l with
  | nil => rfl
  | cons a l ih =>
    rw [List.mapM_cons, h a (by simp), Res_bind_ok, ih (fun x hx => h x (by simp [hx])), Res_bind_ok]
    rfl

/-- The columns of a row whose names satisfy a condition. -/
def cols {T : Type} (keep : Int → Bool) (names : List Int) (row : List T) : List T :=
  ((row.zip names).filter (fun p => keep p.2)).map Prod.fst

theorem cols_cons {T : Type} (keep : Int → Bool) (n : Int) (ns : List Int) (x : T) (xs : List T) :
    cols keep (n :: ns) (x :: xs) = if keep n then x :: cols keep ns xs else cols keep ns xs := by
  simp only [cols, List.zip_cons_cons, List.filter_cons]
  split <;> simp

theorem cols_congr {T : Type} (k1 k2 : Int → Bool) (ns : List Int) (xs : List T) (h : ∀ n ∈ ns, k1 n = k2 n) :
    cols k1 ns xs = cols k2 ns xs := by
  induction ns generalizing xs with
  | nil => simp [cols]
  | cons n ns ih =>
    cases xs with
    | nil => simp [cols]
    | cons x xs => rw [cols_cons, cols_cons, h n (by simp), ih xs (fun m hm => h m (by simp [hm]))]

theorem cols_all {T : Type} (k : Int → Bool) (ns : List Int) (xs : List T) (hl : xs.length ≤ ns.length)
    (h : ∀ n ∈ ns, k n = true) : cols k ns xs = xs := by
  induction ns generalizing xs with
  | nil => cases xs <;> simp_all [cols]
  | cons n ns ih =>
    cases xs with
    | nil => simp [cols]
    | cons x xs =>
      rw [cols_cons, h n (by simp), if_pos rfl, ih xs (by simpa using hl) (fun m hm => h m (by simp [hm]))]

theorem cols_length {T : Type} (k : Int → Bool) (ns : List Int) (xs : List T) (hl : xs.length = ns.length) :
    (cols k ns xs).length = (ns.filter k).length := by
  induction ns generalizing xs with
  | nil => cases xs <;> simp_all [cols]
  | cons n ns ih =>
    cases xs with
    | nil => simp at hl
    | cons x xs =>
      rw [cols_cons, List.filter_cons]
      split <;> simp [ih xs (by simpa using hl)]

theorem sortInt_perm (l : List Int) : (sortInt l).Perm l := List.perm_insertionSort _ l

theorem sortInt_lt (l : List Int) (h : l.Nodup) : (sortInt l).Pairwise (· < ·) := by
  have h1 : (sortInt l).Pairwise (· ≤ ·) := List.pairwise_insertionSort _ l
  have h2 : (sortInt l).Nodup := (sortInt_perm l).nodup_iff.2 h
  exact (h1.and h2).imp (fun ⟨a, b⟩ => lt_of_le_of_ne a b)

theorem existsName_full (names : List Int) (f : Int) :
    existsName names names.length f = .ok (decide (f > -1 ∧ f ∈ names)) := by
  induction names with
  | nil => simp [existsName]
  | cons a l ih =>
    simp only [List.length_cons, existsName]
    by_cases h : f > -1 ∧ f = a
    · rw [if_pos h]
      simp [h.2]
      rw [← h.2]; exact h.1
    · rw [if_neg h, ih]
      congr 1
      apply decide_eq_decide.2
      simp only [List.mem_cons]
      constructor
      · exact fun ⟨a, b⟩ => ⟨a, Or.inr b⟩
      · rintro ⟨a, b | b⟩
        · exact absurd ⟨a, b⟩ h
        · exact ⟨a, b⟩

/-- The features flagged as existing. -/
def flagged (fs : List (Int × Bool)) : List Int := (fs.filter (·.2)).map Prod.fst

theorem flagged_dropWhile (fs : List (Int × Bool)) : flagged (fs.dropWhile (fun p => !p.2)) = flagged fs := by
  induction fs with
  | nil => rfl
  | cons p fs ih =>
    obtain ⟨f, b⟩ := p
    cases b with
    | false => simpa [flagged] using ih
    | true => simp

theorem eraseLoop_spec {T : Type} : ∀ (xs : List T) (fs : List (Int × Bool)) (names : List Int),
    xs.length ≤ names.length → names.Pairwise (· < ·) → (flagged fs).Pairwise (· < ·) →
    (∀ f ∈ flagged fs, f ∈ names) →
    eraseLoop fs names xs = .ok (cols (fun n => decide (n ∉ flagged fs)) names xs) := by
  intro xs
  induction xs with
  | nil => intro fs names _ _ _ _; simp [eraseLoop, cols]
  | cons x xs ih =>
    intro fs names hl hn hf hin
    have hfl := flagged_dropWhile fs
    have hhead : ∀ p, (fs.dropWhile (fun p => !p.2)).head? = some p → p.2 = true := by
      intro p hp
      have := List.head?_dropWhile_not (fun p : Int × Bool => !p.2) fs
      rw [hp] at this
      simpa using this
    rw [← hfl] at hin hf ⊢
    simp only [eraseLoop]
    generalize fs.dropWhile (fun p => !p.2) = gs at hf hhead hin
    cases gs with
    | nil =>
      simp only
      rw [cols_all _ names (x :: xs) hl (by simp [flagged])]
    | cons g gs =>
      obtain ⟨f, b⟩ := g
      have hb : b = true := hhead _ rfl
      subst hb
      cases names with
      | nil => simp at hl
      | cons n ns =>
        simp only
        have hflag : flagged ((f, true) :: gs) = f :: flagged gs := by simp [flagged]
        have hf' := hf
        rw [hflag] at hin hf' ⊢
        have hgs : ∀ g ∈ flagged gs, f < g := (List.pairwise_cons.1 hf').1
        have hns := List.pairwise_cons.1 hn
        by_cases h : n = f
        · rw [if_pos h, cols_cons]
          rw [ih gs ns (by simpa using hl) hns.2 (List.pairwise_cons.1 hf').2 (by
            intro g hg
            have := hin g (by simp [hg])
            have hlt := hgs g hg
            rcases List.mem_cons.1 this with h' | h'
            · omega
            · exact h')]
          simp only [h, List.mem_cons, true_or, not_true_eq_false, decide_false, Bool.false_eq_true, if_false]
          congr 1
          apply cols_congr
          intro m hm
          have := hns.1 m hm
          apply decide_eq_decide.2
          constructor
          · rintro h1 (h2 | h2)
            · omega
            · exact h1 h2
          · exact fun h1 h2 => h1 (Or.inr h2)
        · rw [if_neg h, cols_cons]
          have hfn : f ∈ ns := by
            rcases List.mem_cons.1 (hin f (by simp)) with h' | h'
            · exact absurd h'.symm h
            · exact h'
          have hnf := hns.1 f hfn
          rw [ih ((f, true) :: gs) ns (by simpa using hl) hns.2 hf (by
            rw [hflag]
            intro g hg
            rcases List.mem_cons.1 (hin g hg) with h' | h'
            · rcases List.mem_cons.1 hg with rfl | hg
              · exact hfn
              · have := hgs g hg; omega
            · exact h'), hflag]
          have hk : n ∉ f :: flagged gs := by
            intro hm
            rcases List.mem_cons.1 hm with h' | h'
            · exact h h'
            · have := hgs n h'; omega
          rw [if_pos (by simpa using hk), Res_bind_ok, Res_pure]

theorem eraseNames_spec (feats : List Int) : ∀ (names : List Int), names.Nodup →
    feats.foldl eraseName (names, names.length) =
      (names.filter (fun n => decide (n ∉ feats)), (names.filter (fun n => decide (n ∉ feats))).length) := by
  induction feats with
  | nil => intro names _; simp
  | cons f feats ih =>
    intro names hn
    rw [List.foldl_cons]
    have hstep : eraseName (names, names.length) f = (names.erase f, (names.erase f).length) := by
      simp only [eraseName]
      by_cases h : f ∈ names
      · rw [if_pos h]
        have hpos : names.length ≠ 0 := by
          intro h0; rw [List.length_eq_zero_iff.1 h0] at h; simp at h
        simp [decSize, hpos, List.length_erase, h]
      · rw [if_neg h, List.erase_of_not_mem h]
    rw [hstep, ih _ (hn.erase f), hn.erase_eq_filter f, List.filter_filter]
    have : (fun n => decide (n ∉ feats) && (n != f)) = (fun n => decide (n ∉ f :: feats)) := by
      funext n
      by_cases h1 : n = f <;> by_cases h2 : n ∈ feats <;> simp [h1, h2]
    rw [this]

theorem insertLoop_spec {T : Type} : ∀ (names ins : List Int) (xs : List T), xs.length = names.length →
    names.Pairwise (· < ·) → ins.Pairwise (· < ·) → (∀ f ∈ ins, f ∈ names) →
    insertLoop ins names xs names.length = .ok (cols (fun n => decide (n ∈ ins)) names xs, ins) := by
  intro names
  induction names with
  | nil =>
    intro ins xs _ _ _ hin
    cases ins with
    | nil => simp [insertLoop, cols]
    | cons f ins => exact absurd (hin f (by simp)) (by simp)
  | cons a names ih =>
    intro ins xs hl hn hi hin
    have hns := List.pairwise_cons.1 hn
    cases xs with
    | nil => simp at hl
    | cons x xs =>
      have hl' : xs.length = names.length := by simpa using hl
      cases ins with
      | nil =>
        simp only [List.length_cons, insertLoop, List.drop_one, List.tail_cons]
        rw [ih [] xs hl' hns.2 (by simp) (by simp), cols_cons]
        simp
      | cons f ins =>
        have his := List.pairwise_cons.1 hi
        simp only [List.length_cons, insertLoop]
        by_cases h : a = f
        · rw [if_pos h, ih ins xs hl' hns.2 his.2 (by
            intro g hg
            have := his.1 g hg
            rcases List.mem_cons.1 (hin g (by simp [hg])) with h' | h'
            · omega
            · exact h')]
          simp only [Res_bind_ok, Res_pure, cols_cons]
          simp only [h, List.mem_cons, true_or, decide_true, if_true]
          congr 3
          apply cols_congr
          intro m hm
          have := hns.1 m hm
          apply decide_eq_decide.2
          constructor
          · exact Or.inr
          · rintro (h1 | h1)
            · omega
            · exact h1
        · rw [if_neg h]
          have hfn : f ∈ names := by
            rcases List.mem_cons.1 (hin f (by simp)) with h' | h'
            · exact absurd h'.symm h
            · exact h'
          have haf := hns.1 f hfn
          have hna : a ∉ f :: ins := by
            intro hm
            rcases List.mem_cons.1 hm with h' | h'
            · exact h h'
            · have := his.1 a h'; omega
          simp only [List.drop_one, List.tail_cons]
          rw [ih (f :: ins) xs hl' hns.2 hi (by
            intro g hg
            rcases List.mem_cons.1 (hin g hg) with h' | h'
            · exact absurd (h' ▸ hg) hna
            · exact h'), cols_cons, if_neg (by simpa using hna)]

theorem insertRows_spec {T : Type} (d : Tbl T) (ins : List Int) (hd : d.dim = d.fnames.length)
    (hn : d.fnames.Pairwise (· < ·)) (hi : ins.Pairwise (· < ·)) (hin : ∀ f ∈ ins, f ∈ d.fnames) :
    ∀ rows : List (List T), (∀ r ∈ rows, r.length = d.dim) →
    insertRows d ins rows = .ok (some (rows.map (cols (fun n => decide (n ∈ ins)) d.fnames),
      if rows = [] then List.replicate ins.length 0 else ins)) := by
  have hfil : d.fnames.filter (fun n => decide (n ∈ ins)) = ins := by
    have p1 : (d.fnames.filter (fun n => decide (n ∈ ins))).Pairwise (· < ·) := hn.filter _
    apply List.Perm.eq_of_pairwise (le := (· < ·)) _ p1 hi
    · rw [List.perm_ext_iff_of_nodup (p1.imp (fun h => ne_of_lt h)) (hi.imp (fun h => ne_of_lt h))]
      intro a
      simp only [List.mem_filter, decide_eq_true_eq]
      exact ⟨fun h => h.2, fun h => ⟨hin a h, h⟩⟩
    · intro a b _ _ h1 h2; omega
  intro rows
  induction rows with
  | nil => intro _; simp [insertRows]
  | cons x rows ih =>
    intro hr
    have hx := hr x (by simp)
    simp only [insertRows, hd]
    rw [insertLoop_spec d.fnames ins x (by rw [hx, hd]) hn hi hin, Res_bind_ok]
    simp only
    have hlen : (cols (fun n => decide (n ∈ ins)) d.fnames x).length = ins.length := by
      rw [cols_length _ _ _ (by rw [hx, hd]), hfil]
    rw [if_neg (by simpa using hlen), ih (fun r h => hr r (by simp [h])), Res_bind_ok]
    simp

theorem positions_spec {T : Type} : ∀ (names : List Int) (fs : List Nat) (pre xs : List T),
    xs.length = names.length → names.Pairwise (· < ·) → fs.Pairwise (· < ·) → (∀ f ∈ fs, 1 ≤ f) →
    (∀ f ∈ fs, (f : Int) ∈ names) →
    ∃ ps, positions names pre.length fs = some (ps, 0) ∧ ps.length = fs.length ∧
      (ps.mapM (vget (pre ++ xs)) = Except.ok (cols (fun n => decide (∃ f ∈ fs, n = (f : Int))) names xs) ∧
       ∀ p ∈ ps, pre.length ≤ p) := by
  intro names
  induction names with
  | nil =>
    intro fs pre xs hl _ _ _ hin
    cases fs with
    | nil =>
      refine ⟨[], by simp [positions], rfl, ?_, by simp⟩
      simp [cols]
    | cons f fs => exact absurd (hin f (by simp)) (by simp)
  | cons a names ih =>
    intro fs pre xs hl hn hf h1 hin
    have hns := List.pairwise_cons.1 hn
    cases xs with
    | nil => simp at hl
    | cons x xs =>
      have hl' : xs.length = names.length := by simpa using hl
      have happ : pre ++ x :: xs = (pre ++ [x]) ++ xs := by simp
      cases fs with
      | nil =>
        refine ⟨[], by simp [positions], rfl, ?_, by simp⟩
        have : cols (fun n => decide (∃ f ∈ ([] : List Nat), n = (f : Int))) (a :: names) (x :: xs) = [] := by
          simp [cols]
        rw [this]; rfl
      | cons f fs =>
        have his := List.pairwise_cons.1 hf
        have hf1 := h1 f (by simp)
        rw [positions, if_neg (by omega)]
        by_cases h : a = (f : Int)
        · rw [if_pos h]
          obtain ⟨ps, e1, e2, e3, e4⟩ := ih fs (pre ++ [x]) xs hl' hns.2 his.2 (fun g hg => h1 g (by simp [hg])) (by
            intro g hg
            have := his.1 g hg
            rcases List.mem_cons.1 (hin g (by simp [hg])) with h' | h'
            · omega
            · exact h')
          rw [List.length_append, List.length_singleton] at e1 e4
          rw [e1]
          refine ⟨pre.length :: ps, rfl, by simp [e2], ?_, ?_⟩
          · rw [List.mapM_cons]
            have hv : vget (pre ++ x :: xs) pre.length = .ok x := by simp
            rw [hv, Res_bind_ok, happ, e3, Res_bind_ok, Res_pure, cols_cons]
            rw [if_pos (by simp [h])]
            congr 2
            apply cols_congr
            intro m hm
            have := hns.1 m hm
            apply decide_eq_decide.2
            constructor
            · rintro ⟨g, hg, he⟩; exact ⟨g, by simp [hg], he⟩
            · rintro ⟨g, hg, he⟩
              rcases List.mem_cons.1 hg with rfl | hg
              · omega
              · exact ⟨g, hg, he⟩
          · intro p hp
            rcases List.mem_cons.1 hp with rfl | hp
            · exact le_rfl
            · have := e4 p hp; omega
        · rw [if_neg h]
          have hfn : (f : Int) ∈ names := by
            rcases List.mem_cons.1 (hin f (by simp)) with h' | h'
            · exact absurd h'.symm h
            · exact h'
          have haf := hns.1 f hfn
          have hna : ¬ ∃ g ∈ f :: fs, a = (g : Int) := by
            rintro ⟨g, hg, he⟩
            rcases List.mem_cons.1 hg with rfl | hg
            · exact h he
            · have := his.1 g hg; omega
          obtain ⟨ps, e1, e2, e3, e4⟩ := ih (f :: fs) (pre ++ [x]) xs hl' hns.2 hf h1 (by
            intro g hg
            rcases List.mem_cons.1 (hin g hg) with h' | h'
            · exact absurd ⟨g, hg, h'.symm⟩ hna
            · exact h')
          rw [List.length_append, List.length_singleton] at e1 e4
          refine ⟨ps, e1, e2, ?_, fun p hp => by have := e4 p hp; omega⟩
          rw [happ, e3, cols_cons, if_neg (by simpa using hna)]

/-! ### sampling -/

theorem redraw_some {draw : Nat → Nat → Nat} {hi : Nat} {ids : List Nat} : ∀ {n k idx k' : Nat},
    redraw draw hi ids n k = some (idx, k') → idx ∉ ids ∧ ∃ j, idx = draw j hi := by
  intro n
  induction n with
  | zero => intro k idx k' h; simp [redraw] at h
  | succ n ih =>
    intro k idx k' h
    simp only [redraw] at h
    by_cases hm : draw k hi ∈ ids
    · rw [if_pos hm] at h; exact ih h
    · rw [if_neg hm] at h
      simp only [Option.some.injEq, Prod.mk.injEq] at h
      exact ⟨h.1 ▸ hm, k, h.1.symm⟩

/-- Drawing without replacement from a class with enough samples never faults; if it ends, the new indices are distinct,
new, and within the bound. -/
theorem drawClass_spec {α : Type} (draw : Nat → Nat → Nat) (hdraw : ∀ k hi, draw k hi ≤ hi) (fuel : Nat)
    (cls : List α) (hi : Nat) (hhi : hi < cls.length) : ∀ (cnt : Nat) (ids : List Nat) (k : Nat),
    drawClass draw false fuel cls hi cnt (ids, k) = .ok none ∨
    ∃ (new : List Nat) (xs : List α) (k' : Nat),
      drawClass draw false fuel cls hi cnt (ids, k) = .ok (some (xs, new.reverse ++ ids, k')) ∧
      new.length = cnt ∧ new.Nodup ∧ (∀ i ∈ new, i ∉ ids ∧ i ≤ hi) ∧ xs.map some = new.map (fun i => cls[i]?) := by
  intro cnt
  induction cnt with
  | zero => intro ids k; exact Or.inr ⟨[], [], k, rfl, rfl, by simp, by simp, rfl⟩
  | succ cnt ih =>
    intro ids k
    simp only [drawClass, Bool.false_eq_true, if_false]
    cases hr : redraw draw hi ids fuel k with
    | none => exact Or.inl rfl
    | some p =>
      obtain ⟨idx, k'⟩ := p
      obtain ⟨h1, j, h2⟩ := redraw_some hr
      have hidx : idx ≤ hi := h2 ▸ hdraw j hi
      simp only
      have hv : vget cls idx = .ok cls[idx] := by
        rw [vget_eq_ok, List.getElem?_eq_getElem (by omega)]
      rw [hv, Res_bind_ok]
      rcases ih (idx :: ids) k' with h | ⟨new, xs, k'', e1, e2, e3, e4, e5⟩
      · rw [h]; exact Or.inl rfl
      · rw [e1]
        refine Or.inr ⟨idx :: new, cls[idx] :: xs, k'', ?_, by simp [e2], ?_, ?_, ?_⟩
        · simp
        · rw [List.nodup_cons]
          exact ⟨fun h => (e4 idx h).1 (by simp), e3⟩
        · intro i hi'
          rcases List.mem_cons.1 hi' with rfl | hi'
          · exact ⟨h1, hidx⟩
          · exact ⟨fun h => (e4 i hi').1 (by simp [h]), (e4 i hi').2⟩
        · rw [List.map_cons, List.map_cons, e5, List.getElem?_eq_getElem (by omega)]

/-- Distinct numbers up to a bound, one more than the bound of them, are all of them. -/
theorem all_of_card {new : List Nat} {hi : Nat} (hn : new.Nodup) (hl : new.length = hi + 1) (hb : ∀ i ∈ new, i ≤ hi) :
    new.Perm (List.range (hi + 1)) := by
  have hsub : new.toFinset ⊆ Finset.range (hi + 1) := by
    intro i hi'
    simp only [List.mem_toFinset] at hi'
    simp only [Finset.mem_range]
    have := hb i hi'; omega
  have heq : new.toFinset = Finset.range (hi + 1) := by
    apply Finset.eq_of_subset_of_card_le hsub
    rw [Finset.card_range, List.toFinset_card_of_nodup hn, hl]
  rw [List.perm_ext_iff_of_nodup hn List.nodup_range]
  intro a
  rw [← List.mem_toFinset, heq]; simp

theorem upper_quota (c : ℚ) (h : 0 < c) : ∃ hi, upper c = .ok hi ∧ hi + 1 = quota c := by
  refine ⟨⌊c - 1⌋.toNat, ?_, ?_⟩
  · rw [upper, if_neg (by linarith)]
  · simp only [quota, Int.floor_sub_one]
    by_cases h1 : c < 1
    · rw [if_pos h1]
      have : ⌊c⌋ = 0 := Int.floor_eq_zero_iff.2 ⟨le_of_lt h, h1⟩
      simp [this]
    · rw [if_neg h1]
      have : 1 ≤ ⌊c⌋ := Int.le_floor.2 (by push_cast; linarith)
      omega

theorem quota_le (c : ℚ) (n : Nat) (h1 : c ≤ n) (hn : 1 ≤ n) : quota c ≤ n := by
  simp only [quota]
  split
  · exact hn
  · have : ⌊c⌋ ≤ (n : Int) := by
      have : (⌊c⌋ : ℚ) ≤ ((n : Int) : ℚ) := le_trans (Int.floor_le c) (by push_cast; exact h1)
      exact_mod_cast this
    omega

theorem share_pos (sz samp n : Nat) (h1 : 0 < sz) (h2 : 0 < samp) (h3 : 0 < n) : 0 < share sz samp n := by
  unfold share; positivity

theorem share_le (sz samp n : Nat) (h1 : 0 < sz) (h2 : samp ≤ sz) : share sz samp n ≤ n := by
  unfold share
  have hs : (0 : ℚ) < sz := by exact_mod_cast h1
  have : (samp : ℚ) ≤ sz := by exact_mod_cast h2
  rw [div_mul_eq_mul_div, div_le_iff₀ hs]
  have hn : (0 : ℚ) ≤ n := by positivity
  nlinarith

/-- The bounds of the distributions, when every class and the sample are non-empty. -/
theorem sampling_eq {α : Type} (draw : Nat → Nat → Nat) (fuel : Nat) (classes : List (List α)) (samp : Nat) (repl : Bool)
    (hsamp : 0 < samp) (hle : samp ≤ (classes.map List.length).sum) (hne : ∀ c ∈ classes, c ≠ []) :
    sampling draw fuel classes samp repl =
      drawAll draw repl fuel (classes.map (fun c =>
        (c, quota (share (classes.map List.length).sum samp c.length) - 1,
          quota (share (classes.map List.length).sum samp c.length)))) ([], 0) ∧
    ∀ c ∈ classes, 1 ≤ quota (share (classes.map List.length).sum samp c.length) ∧
      quota (share (classes.map List.length).sum samp c.length) ≤ c.length := by
  generalize hsz : (classes.map List.length).sum = sz at hle
  have hpos : ∀ c ∈ classes, 0 < share sz samp c.length := by
    intro c hc
    exact share_pos sz samp _ (by omega) hsamp (List.length_pos_iff.2 (hne c hc))
  constructor
  · simp only [sampling, hsz]
    rw [if_neg (by omega)]
    have hm : (classes.map (fun c => share sz samp c.length)).mapM upper =
        Except.ok ((classes.map (fun c => share sz samp c.length)).map (fun s => quota s - 1)) := by
      apply mapM_ok
      intro a ha
      obtain ⟨c, hc, rfl⟩ := List.mem_map.1 ha
      obtain ⟨hi, e1, e2⟩ := upper_quota _ (hpos c hc)
      rw [e1, ← e2]; simp
    rw [hm, Res_bind_ok]
    congr 1
    clear hm hpos hsz hle hne
    induction classes with
    | nil => rfl
    | cons c cs ih => simpa using ih
  · intro c hc
    obtain ⟨hi, e1, e2⟩ := upper_quota _ (hpos c hc)
    exact ⟨by omega, quota_le _ _ (share_le sz samp _ (by omega) hle) (List.length_pos_iff.2 (hne c hc))⟩

end MLTK.Feat
