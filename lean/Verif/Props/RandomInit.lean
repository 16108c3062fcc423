import Verif.Model.RandomInit
/-!
# C182: points with random components
-/
namespace MLTK.Props
open MLTK.Rng
variable {T : Type}

private theorem fill_length (f : Mt → T × Mt) (n : Nat) (s : State) : (fill f n s).1.length = n := by
  induction n generalizing s with
  | zero => rfl
  | succ n ih => simp only [fill, List.length_cons, ih]

private theorem fill_mem (f : Mt → T × Mt) (n : Nat) (s : State) :
    ∀ v ∈ (fill f n s).1, ∃ g, v = (f g).1 := by
  induction n generalizing s with
  | zero => intro v hv; simp [fill] at hv
  | succ n ih =>
    intro v hv
    simp only [fill, List.mem_cons] at hv
    rcases hv with rfl | hv
    · exact ⟨s.gen, rfl⟩
    · exact ih _ v hv

private theorem fill_add (f : Mt → T × Mt) (n m : Nat) (s : State) :
    fill f (n + m) s = ((fill f n s).1 ++ (fill f m (fill f n s).2).1, (fill f m (fill f n s).2).2) := by
  induction n generalizing s with
  | zero => simp [fill]
  | succ n ih => rw [Nat.succ_add]; simp only [fill, ih, List.cons_append]

private theorem fill_seed (f : Mt → T × Mt) (n : Nat) (s : State) :
    (fill f n s).2.seedParam = s.seedParam := by
  induction n generalizing s with
  | zero => rfl
  | succ n ih => simp only [fill, ih, draw]

private theorem fill_gen (f : Mt → T × Mt) (n : Nat) (s t : State) (h : s.gen = t.gen) :
    (fill f n s).1 = (fill f n t).1 ∧ (fill f n s).2.gen = (fill f n t).2.gen := by
  induction n generalizing s t with
  | zero => exact ⟨rfl, h⟩
  | succ n ih =>
    have := ih (draw f s).2 (draw f t).2 (by simp only [draw, h])
    simp only [fill]
    refine ⟨?_, this.2⟩
    rw [this.1]; simp only [draw, h]

/-- C182: whatever the state of the generator, a new point has the number of components asked for, each
of them a value of the distribution (so within its range `[lo, hi)` if it has one), label 0, id 0. -/
theorem C182_new [LE T] [LT T] (f : Mt → T × Mt) (lo hi : T) (hf : ∀ g, lo ≤ (f g).1 ∧ (f g).1 < hi)
    (size seed dev : Nat) (s : State) :
    (randomNew f size seed dev s).1.x.length = size ∧
    (∀ v ∈ (randomNew f size seed dev s).1.x, lo ≤ v ∧ v < hi) ∧
    (randomNew f size seed dev s).1.y = 0 ∧ (randomNew f size seed dev s).1.id = 0 := by
  refine ⟨fill_length _ _ _, fun v hv => ?_, rfl, rfl⟩
  obtain ⟨g, rfl⟩ := fill_mem _ _ _ v hv
  exact hf g

/-- C182: filling an existing point gives it the components and the label of a new one; the point keeps
its id and its multiplier, and its old components have no influence. -/
theorem C182_into (f : Mt → T × Mt) (p : Pt T) (size seed dev : Nat) (s : State) :
    (randomInto f p size seed dev s).1.x = (randomNew f size seed dev s).1.x ∧
    (randomInto f p size seed dev s).1.y = 0 ∧
    (randomInto f p size seed dev s).1.id = p.id ∧
    (randomInto f p size seed dev s).1.alpha = p.alpha ∧
    (randomInto f p size seed dev s).2 = (randomNew f size seed dev s).2 ∧
    (randomOver f p seed dev s).1.x = (randomNew f p.x.length seed dev s).1.x ∧
    (randomOver f p seed dev s).1.id = p.id ∧ (randomOver f p seed dev s).1.y = 0 :=
  ⟨rfl, rfl, rfl, rfl, rfl, rfl, rfl, rfl⟩

example : (randomInto mtNext { x := [1, 2, 3], y := 4, id := 9 } 2 5 0 (start 3)).1.id = 9 ∧
    (randomInto mtNext { x := [1, 2, 3], y := 4, id := 9 } 2 5 0 (start 3)).1.x.length = 2 := by
  decide +kernel

/-- C182, reproducibility: if the seed is not zero as a 32-bit number and is not the seed in force, the
point depends on the seed and the size only: not on the past, not on the machine.

Missing for the full claim: a seed that is in force already, seed 1 at the start of the program, and
seeds that are multiples of 2^32 (see the `_refuted` theorems). -/
theorem C182_reproducible_partial (f : Mt → T × Mt) (size seed dev dev' : Nat) (s s' : State)
    (h0 : seed % 2 ^ 32 ≠ 0) (h : seed % 2 ^ 32 ≠ s.seedParam) (h' : seed % 2 ^ 32 ≠ s'.seedParam) :
    (randomNew f size seed dev s).1 = (randomNew f size seed dev' s').1 := by
  have : (initWide s seed dev).gen = (initWide s' seed dev').gen := by
    simp [initWide, Rng.init, h0, h, h']
  simp only [randomNew, (fill_gen f size _ _ this).1]

example : (42 % 2 ^ 32 ≠ 0) ∧ 42 % 2 ^ 32 ≠ (start 7).seedParam ∧
    42 % 2 ^ 32 ≠ (Rng.init (start 8) 5 0).1.seedParam := by decide

/-- C182: a second call with the same seed, whatever it is, does not repeat the first one: it continues it.  Together
the two points are the components of one point of twice the size. -/
theorem C182_continues (f : Mt → T × Mt) (n m seed dev dev' : Nat) (s : State) :
    (randomNew f n seed dev s).1.x ++ (randomNew f m seed dev' (randomNew f n seed dev s).2).1.x =
      (randomNew f (n + m) seed dev s).1.x := by
  have e : initWide (fill f n (initWide s seed dev)).2 seed dev' = (fill f n (initWide s seed dev)).2 := by
    have : (fill f n (initWide s seed dev)).2.seedParam = seed % 2 ^ 32 := by
      rw [fill_seed]
      simp only [initWide, Rng.init]
      split
      · rfl
      · rename_i hh; simpa using (not_not.mp hh).symm
    have stay : ∀ t : State, t.seedParam = seed % 2 ^ 32 → initWide t seed dev' = t := fun t ht => by
      unfold initWide Rng.init
      rw [ht, if_neg (by simp)]
    exact stay _ this
  simp only [randomNew]
  rw [e, fill_add]

/-- C182 is false of the code: two calls in a row with the same seed give different points. -/
theorem C182_repeat_refuted :
    ¬ ∀ (size seed dev : Nat) (s : State), seed ≠ 0 →
      (randomNew mtNext size seed dev (randomNew mtNext size seed dev s).2).1.x =
        (randomNew mtNext size seed dev s).1.x := by
  intro h
  have := h 1 42 0 (start 0) (by decide)
  revert this
  decide +kernel

/-- C182 is false of the code: with seed 1 at the start of the program, and with any multiple of 2^32,
the point comes from the random device of the machine. -/
theorem C182_seed_refuted :
    (randomNew mtNext 1 1 0 (start 10)).1.x ≠ (randomNew mtNext 1 1 0 (start 11)).1.x ∧
    (randomNew mtNext 1 (2 ^ 32) 10 (start 0)).1.x ≠ (randomNew mtNext 1 (2 ^ 32) 11 (start 0)).1.x := by
  decide +kernel

end MLTK.Props
