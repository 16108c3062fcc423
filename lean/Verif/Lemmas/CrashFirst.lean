import Verif.Lemmas.Crash
/-!
# The first line of a file, cut
-/
namespace MLTK.Text

/-- The pieces of a line with its last characters missing: the first pieces of the line, of which the last one may be shorter. -/
theorem cut_pieces (d : Char) : ∀ (ts : List (List Char)) (s : List Char), (∀ t ∈ ts, t ≠ [] ∧ d ∉ t) →
    s <+: List.intercalate [d] ts → s ≠ [] →
    ∃ (a : List (List Char)) (u t : List Char), a ++ [u] <+: ts ∧ t ≠ [] ∧ t <+: u ∧ (getlines d s []).map Prod.fst = a ++ [t] ∧
      (t = u ∨ s = List.intercalate [d] (a ++ [t]))
  | [], s, _, hs, hne => by
    have : s = [] := by simpa [List.intercalate] using hs
    exact absurd this hne
  | [t], s, h, hs, hne => by
    have e : List.intercalate [d] [t] = t := by simp [List.intercalate]
    rw [e] at hs
    refine ⟨[], t, s, by simp, hne, hs, ?_, Or.inr (by simp [List.intercalate])⟩
    rw [getlines_last d s (fun hc => (h t (by simp)).2 (hs.subset hc)) hne]
    rfl
  | t :: t' :: ts, s, h, hs, hne => by
    rw [intercalate_cons₂] at hs
    have ht := h t (by simp)
    have hpre : [] ++ [t] <+: t :: t' :: ts := by simp
    rcases prefix_append_iff hs with h1 | ⟨s', rfl, h1⟩
    · refine ⟨[], t, s, hpre, hne, h1, ?_, Or.inr (by simp [List.intercalate])⟩
      rw [getlines_last d s (fun hc => ht.2 (h1.subset hc)) hne]
      rfl
    · cases s' with
      | nil =>
        refine ⟨[], t, t, hpre, ht.1, List.prefix_refl _, ?_, Or.inl rfl⟩
        rw [List.append_nil, getlines_last d t ht.2 ht.1]
        rfl
      | cons c s' =>
        rw [List.cons_prefix_cons] at h1
        obtain ⟨rfl, h2⟩ := h1
        rw [getlines_piece c t s' ht.2]
        by_cases h0 : s' = []
        · subst h0
          exact ⟨[], t, t, hpre, ht.1, List.prefix_refl _, by simp [getlines], Or.inl rfl⟩
        · obtain ⟨a, u, v, h3, h4, h5, h6, h7⟩ := cut_pieces c (t' :: ts) s' (fun x hx => h x (List.mem_cons_of_mem _ hx)) h2 h0
          refine ⟨t :: a, u, v, ?_, h4, h5, by simp [h6], h7.imp id (fun e => ?_)⟩
          · rw [List.cons_append, List.cons_prefix_cons]
            exact ⟨rfl, h3⟩
          · rw [e]
            cases a with
            | nil => exact (intercalate_cons₂ c t v []).symm
            | cons b a => exact (intercalate_cons₂ c t b (a ++ [v])).symm

/-- The delimiter of a line without semicolons. -/
theorem guessDelim_noSemicolon : ∀ (s : List Char), ';' ∉ s → guessDelim s = ','
  | [], _ => rfl
  | c :: cs, h => by
    simp only [List.mem_cons, not_or] at h
    rw [guessDelim]
    split
    · rfl
    · rw [if_neg (fun h' => h.1 h'.symm)]
      exact guessDelim_noSemicolon cs h.2

end MLTK.Text
