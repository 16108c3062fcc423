import Verif.Model.Random
/-!
# C34: seeding
-/
namespace MLTK.Props
open MLTK.Rng

theorem run_gen (s t : State) (cs : List Call) (hg : s.gen = t.gen)
    (hp : s.seedParam = t.seedParam) : (run s cs).1 = (run t cs).1 := by
  induction cs generalizing s t with
  | nil => rfl
  | cons c cs ih =>
    cases c with
    | init seed dev =>
      simp only [run]
      apply ih
      · simp only [Rng.init]
        rw [hp]
        split <;> simp [hg]
      · simp only [Rng.init]
        rw [hp]
        split <;> simp [hp]
    | next f =>
      simp only [run, draw]
      rw [hg]
      congr 1
      exact ih _ _ rfl hp

/-- C34 (partial): if `seed` is neither zero nor the seed currently in force, then everything drawn after
`init(seed)`, whatever calls are made, is a function of `seed` and those calls alone: two programs with
entirely different pasts draw the same values.  Missing from C34: re-initialising with the seed already
in force, and the very first `init(1)`, see the refutations. -/
theorem C34_reproducible_partial (dev dev' : Nat) (past past' calls : List Call) (seed d d' : Nat)
    (h0 : seed ≠ 0)
    (h1 : seed ≠ (run (start dev) past).2.seedParam)
    (h2 : seed ≠ (run (start dev') past').2.seedParam) :
    (run (Rng.init (run (start dev) past).2 seed d).1 calls).1 =
      (run (Rng.init (run (start dev') past').2 seed d').1 calls).1 := by
  apply run_gen <;> simp [Rng.init, h0, h1, h2]

/-- C34: `getSeed` and the value returned by `init` agree, and equal the requested seed when it was
accepted. -/
theorem C34_getSeed (s : State) (seed dev : Nat) :
    getSeed (Rng.init s seed dev).1 = (Rng.init s seed dev).2 ∧
    (seed ≠ 0 → seed ≠ s.seedParam → (Rng.init s seed dev).2 = seed) := by
  unfold Rng.init getSeed
  split
  · simp; intro h; simp [h]
  · simp_all

/-- C34: for every reachable state whose current seed is not zero, `getSeed()` is the seed of the last
effective `init` call (1 before any). -/
theorem C34_reported_seed (dev : Nat) (past : List Call) :
    (run (start dev) past).2.seedParam ≠ 0 →
      getSeed (run (start dev) past).2 = (run (start dev) past).2.seedParam := by
  have : ∀ s : State, (s.seedParam ≠ 0 → s.mSeed = s.seedParam) →
      ((run s past).2.seedParam ≠ 0 → (run s past).2.mSeed = (run s past).2.seedParam) := by
    induction past with
    | nil => intro s h; exact h
    | cons c cs ih =>
      intro s h
      cases c with
      | init seed d =>
        simp only [run]
        apply ih
        unfold Rng.init
        split
        · intro h0; simp at h0; simp [h0]
        · exact h
      | next f => simp only [run, draw]; exact ih _ h
  exact this (start dev) (by simp [start])

/-- The hypotheses of the partial theorem are met by programs with different pasts. -/
example : (42 : Nat) ≠ 0 ∧ 42 ≠ (run (start 7) [.next mtNext, .init 5 0, .next mtNext]).2.seedParam ∧
    42 ≠ (run (start 8) []).2.seedParam := by decide

/-- The generator is a real one: the first outputs of `std::mt19937` for its default seed 5489. -/
example : (run { seedParam := 0, mSeed := 0, gen := mtSeed 5489 } [.next mtNext, .next mtNext]).1 =
    [3499211612, 581869302] := by decide +kernel

/-- C34 is false for the seed already in force: calling `init(5)`, drawing, and calling `init(5)` again
does not restart the stream. -/
theorem C34_same_seed_refuted :
    ¬ ∀ (dev : Nat) (past past' : List Call) (seed : Nat), seed ≠ 0 → ∀ calls,
      (run (Rng.init (run (start dev) past).2 seed 0).1 calls).1 =
        (run (Rng.init (run (start dev) past').2 seed 0).1 calls).1 := by
  intro h
  have := h 0 [] [.init 5 0, .next mtNext] 5 (by decide) [.next mtNext]
  revert this
  decide +kernel

/-- C34 is false for seed 1 at program start: `init(1)` leaves the generator as the operating system's
random device seeded it, so two runs of the same program differ. -/
theorem C34_seed_one_refuted :
    (run (Rng.init (start 10) 1 0).1 [.next mtNext]).1 ≠
      (run (Rng.init (start 11) 1 0).1 [.next mtNext]).1 ∧
    (Rng.init (start 10) 1 0).2 = 1 := by decide +kernel

end MLTK.Props
