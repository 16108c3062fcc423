import Verif.Model.IMA
/-!
# Lemmas about the incremental margin algorithms
-/
namespace MLTK.IMA

section
variable {K : Type} [Field K] [LinearOrder K]

/-- What `extremes` computes. -/
theorem extremes_spec (norm : K) (vs : List K) :
    ∀ mn mx : Option K,
      (∀ a, (extremes norm vs (mn, mx)).1 = some a → mn = some a ∨ ∃ v ∈ vs, 0 ≤ v ∧ a = v / norm) ∧
      (∀ v ∈ vs, 0 ≤ v → ∃ a, (extremes norm vs (mn, mx)).1 = some a ∧ a ≤ v / norm) ∧
      (∀ a0, mn = some a0 → ∃ a, (extremes norm vs (mn, mx)).1 = some a ∧ a ≤ a0) ∧
      (∀ a, (extremes norm vs (mn, mx)).2 = some a → mx = some a ∨ ∃ v ∈ vs, v < 0 ∧ a = v / norm) ∧
      (∀ v ∈ vs, v < 0 → ∃ a, (extremes norm vs (mn, mx)).2 = some a ∧ v / norm ≤ a) ∧
      (∀ a0, mx = some a0 → ∃ a, (extremes norm vs (mn, mx)).2 = some a ∧ a0 ≤ a) := by
  induction vs with
  | nil =>
    intro mn mx
    refine ⟨fun a h => Or.inl h, by simp, fun a h => ⟨a, h, le_refl _⟩, fun a h => Or.inl h, by simp,
      fun a h => ⟨a, h, le_refl _⟩⟩
  | cons v vs ih =>
    intro mn mx
    simp only [extremes]
    split
    · rename_i hv
      obtain ⟨h1, h2, h3, h4, h5, h6⟩ := ih (some (v / norm)) mx
      refine ⟨?_, ?_, ?_, ?_, ?_, h6⟩
      · intro a ha
        rcases h1 a ha with h | ⟨u, hu, hu0, rfl⟩
        · cases h; exact Or.inr ⟨v, by simp, hv.1, rfl⟩
        · exact Or.inr ⟨u, by simp [hu], hu0, rfl⟩
      · intro u hu hu0
        rcases List.mem_cons.mp hu with rfl | hu
        · exact h3 _ rfl
        · exact h2 u hu hu0
      · rintro a0 rfl
        obtain ⟨a, ha, hle⟩ := h3 _ rfl
        refine ⟨a, ha, hle.trans (le_of_lt ?_)⟩
        simpa using hv.2
      · intro a ha
        rcases h4 a ha with h | ⟨u, hu, hu0, rfl⟩
        · exact Or.inl h
        · exact Or.inr ⟨u, by simp [hu], hu0, rfl⟩
      · intro u hu hu0
        rcases List.mem_cons.mp hu with rfl | hu
        · exact absurd hv.1 (not_le.mpr hu0)
        · exact h5 u hu hu0
    · rename_i hv
      split
      · rename_i hv2
        obtain ⟨h1, h2, h3, h4, h5, h6⟩ := ih mn (some (v / norm))
        refine ⟨?_, ?_, h3, ?_, ?_, ?_⟩
        · intro a ha
          rcases h1 a ha with h | ⟨u, hu, hu0, rfl⟩
          · exact Or.inl h
          · exact Or.inr ⟨u, by simp [hu], hu0, rfl⟩
        · intro u hu hu0
          rcases List.mem_cons.mp hu with rfl | hu
          · exact absurd hv2.1 (not_lt.mpr hu0)
          · exact h2 u hu hu0
        · intro a ha
          rcases h4 a ha with h | ⟨u, hu, hu0, rfl⟩
          · cases h; exact Or.inr ⟨v, by simp, hv2.1, rfl⟩
          · exact Or.inr ⟨u, by simp [hu], hu0, rfl⟩
        · intro u hu hu0
          rcases List.mem_cons.mp hu with rfl | hu
          · exact h6 _ rfl
          · exact h5 u hu hu0
        · rintro a0 rfl
          obtain ⟨a, ha, hle⟩ := h6 _ rfl
          refine ⟨a, ha, le_trans (le_of_lt ?_) hle⟩
          simpa using hv2.2
      · rename_i hv2
        obtain ⟨h1, h2, h3, h4, h5, h6⟩ := ih mn mx
        refine ⟨?_, ?_, h3, ?_, ?_, h6⟩
        · intro a ha
          rcases h1 a ha with h | ⟨u, hu, hu0, rfl⟩
          · exact Or.inl h
          · exact Or.inr ⟨u, by simp [hu], hu0, rfl⟩
        · intro u hu hu0
          rcases List.mem_cons.mp hu with rfl | hu
          · cases mn with
            | none => exact absurd ⟨hu0, rfl⟩ hv
            | some a0 =>
              obtain ⟨a, ha, hle⟩ := h3 _ rfl
              refine ⟨a, ha, hle.trans ?_⟩
              by_contra hc
              exact hv ⟨hu0, by simpa using not_le.mp hc⟩
          · exact h2 u hu hu0
        · intro a ha
          rcases h4 a ha with h | ⟨u, hu, hu0, rfl⟩
          · exact Or.inl h
          · exact Or.inr ⟨u, by simp [hu], hu0, rfl⟩
        · intro u hu hu0
          rcases List.mem_cons.mp hu with rfl | hu
          · cases mx with
            | none => exact absurd ⟨hu0, rfl⟩ hv2
            | some a0 =>
              obtain ⟨a, ha, hle⟩ := h6 _ rfl
              refine ⟨a, ha, le_trans ?_ hle⟩
              by_contra hc
              exact hv2 ⟨hu0, by simpa using not_le.mp hc⟩
          · exact h5 u hu hu0

end
end MLTK.IMA
