import Verif.Props.DataCopy
/-!
# C163: inserting a sample of another dataset by its position
-/
namespace MLTK.Props
open MLTK MLTK.Data MLTK.Spec

variable {T : Type}

private theorem insertFrom_at (m : Mem T) (d src : Data) (i : Nat) (hi : i < src.points.length) (keep : Bool)
    (hb : src.points.length < 2 ^ 63) :
    insertFrom m d src i keep = (insertPtr m d (src.points[i]) keep).map (fun q => (q.1, q.2.1, true)) := by
  have h1 : ¬ ((i : Int) < 0) := by omega
  have h2 : src.size ≠ 0 := by simp only [size]; omega
  have h3 : ¬ (i > src.size - 1) := by simp only [size]; omega
  have hv : vget src.points i = .ok src.points[i] := by
    rw [vget_eq_ok]; exact List.getElem?_eq_getElem hi
  unfold insertFrom
  simp only [h1, if_false, h2, Int.toNat_natCast, h3, hv, Res_bind_ok, Res_pure]
  cases insertPtr m d src.points[i] keep <;> rfl

/-- The pointer behind the `i`-th sample. -/
private theorem pointer_of_sample {m : Mem T} {d : Data} (h : Consistent m d) {i : Nat} {p : Pt T}
    (hi : (samples m d)[i]? = some p) : ∃ hl : i < d.points.length, m[d.points[i]]? = some p := by
  have key : ∀ ps : List Nat, Live m ps → (ps.filterMap (fun r => m[r]?))[i]? = some p →
      ∃ hl : i < ps.length, m[ps[i]]? = some p := by
    clear hi h
    intro ps
    induction ps generalizing i with
    | nil => intro _ h; simp at h
    | cons r rs ih =>
      intro hL h
      obtain ⟨q, hq⟩ := hL r (by simp)
      rw [List.filterMap_cons_some hq] at h
      cases i with
      | zero => simp at h; exact ⟨by simp, by simpa [← h] using hq⟩
      | succ k =>
        obtain ⟨h1, h2⟩ := ih (i := k) (fun x hx => hL x (by simp [hx])) (by simpa using h)
        exact ⟨by simpa using h1, by simpa using h2⟩
  exact key d.points h.livePts hi

/-- **C163** A position outside a non-empty source, negative ones included, is refused: the answer is `false` and nothing
changes. -/
theorem C163_outside (m : Mem T) (d src : Data) (idx : Int) (keep : Bool) (hne : src.points ≠ [])
    (hb : src.points.length < 2 ^ 31) (hlo : -2 ^ 31 ≤ idx) (hout : idx < 0 ∨ (src.points.length : Int) ≤ idx) :
    insertFrom m d src idx keep = .ok (m, d, false) := by
  have hp : 0 < src.points.length := List.length_pos_iff.2 hne
  have h2 : src.size ≠ 0 := by simp only [size]; omega
  have h3 : (if idx < 0 then (2 ^ 64 + idx).toNat else idx.toNat) > src.size - 1 := by
    simp only [size]
    split <;> omega
  unfold insertFrom
  simp only [if_neg h2, if_pos h3]
  rfl

example : insertFrom demoMem Data.empty demoData (-1) true = .ok (demoMem, Data.empty, false) ∧
    insertFrom demoMem Data.empty demoData 3 true = .ok (demoMem, Data.empty, false) :=
  ⟨C163_outside _ _ _ _ _ (by decide) (by decide) (by decide) (by decide),
    C163_outside _ _ _ _ _ (by decide) (by decide) (by decide) (by decide)⟩

/-- **C163** A position of the source, into an empty dataset or one of the same dimension: the sample is appended, the bookkeeping
of both datasets agrees with their samples, the samples of the source keep features, labels and alphas, and with `keepIndex` the
call changes nothing else at all; without it the sample gets the number of its new position. -/
theorem C163_inside_partial (m : Mem T) (d src : Data) (hd : Consistent m d) (hs : Consistent m src) (i : Nat) (p : Pt T)
    (hi : (samples m src)[i]? = some p) (keep : Bool) (hb : src.points.length < 2 ^ 31)
    (hdim : d.points = [] ∨ p.x.length = d.mdim) :
    ∃ m' d', insertFrom m d src i keep = .ok (m', d', true) ∧ Consistent m' d' ∧ Consistent m' src ∧
      (samples m' d').map content = (samples m d).map content ++ [content p] ∧
      (samples m' src).map content = (samples m src).map content ∧
      (keep = true → m' = m ∧ samples m' d' = samples m d ++ [p]) ∧
      (keep = false → (samples m' d').getLast? = some { p with id := d.points.length + 1 }) := by
  obtain ⟨hil, hr⟩ := pointer_of_sample hs hi
  rcases insertPtr_consistent hd hr keep with ⟨h1, h2, _⟩ | ⟨_, m', d', e, hc, hm, hsame, hpts, _⟩
  · rcases hdim with h | h
    · exact absurd h h1
    · exact absurd h h2
  · have hsd : samples m' d' = samples m' d ++ samples m' { d with points := [src.points[i]] } := by
      simp [samples, hpts]
    refine ⟨m', d', ?_, hc, Consistent_of_same hs hsame, ?_, (hsame.samples src).symm, ?_, ?_⟩
    · rw [insertFrom_at m d src i hil keep (by omega), e]; rfl
    · rw [hsd, List.map_append, ← hsame.samples, ← hsame.samples]
      simp [samples, hr]
    · intro hk
      subst hk
      simp only [if_true] at hm
      subst hm
      exact ⟨rfl, by rw [hsd]; simp [samples, hr]⟩
    · intro hk
      subst hk
      have hl : src.points[i] < m.length := (List.getElem?_eq_some_iff.1 hr).1
      have : m'[src.points[i]]? = some { p with id := d.points.length + 1 } := by
        rw [hm]; simp [hl]
      rw [hsd]
      simp [samples, this]

example : ∃ m' d', insertFrom demoMem Data.empty demoData ((1 : Nat) : Int) false = .ok (m', d', true) ∧
    samples m' d' = [⟨[2], -1, 0, 1⟩] := by
  obtain ⟨m', d', e, _, _, h, _, _, h'⟩ := C163_inside_partial demoMem Data.empty demoData (inv_empty _).consistent demo_consistent
    1 ⟨[2], -1, 0, 2⟩ rfl false (by decide) (Or.inl rfl)
  refine ⟨m', d', e, ?_⟩
  have h2 := h' rfl
  have h1 := congrArg List.length h
  simp [samples, Data.empty] at h1
  match hm : samples m' d', h2 with
  | [], h2 => simp at h2
  | [a], h2 => simp at h2; rw [h2]; rfl
  | a :: b :: l, _ =>
    have : (samples m' d').length = 1 := by simpa [samples] using h1
    rw [hm] at this; simp at this

/-- **C163 is false for the answer:** a sample of another dimension is not inserted, yet the call answers `true`. -/
theorem C163_answer_refuted (m : Mem T) (d src : Data) (hd : Consistent m d) (hs : Consistent m src) (i : Nat) (p : Pt T)
    (hi : (samples m src)[i]? = some p) (keep : Bool) (hb : src.points.length < 2 ^ 31)
    (hne : d.points ≠ []) (hdim : p.x.length ≠ d.mdim) :
    insertFrom m d src i keep = .ok (m, d, true) := by
  obtain ⟨hil, hr⟩ := pointer_of_sample hs hi
  rcases insertPtr_consistent hd hr keep with ⟨_, _, e⟩ | ⟨h1, _⟩
  · rw [insertFrom_at m d src i hil keep (by omega), e]; rfl
  · rcases h1 with h | h
    · exact absurd h hne
    · exact absurd h hdim

/-- **C163 is false for an empty source:** every position that is not negative is read from it, out of bounds. -/
theorem C163_empty_refuted (m : Mem T) (d src : Data) (i : Nat) (keep : Bool) (he : src.points = []) (hb : i < 2 ^ 31) :
    insertFrom m d src i keep = .error .outOfBounds := by
  have h1 : ¬ ((i : Int) < 0) := by omega
  have h3 : ¬ (i > 2 ^ 64 - 1) := by omega
  have hv : vget src.points i = .error .outOfBounds := by rw [he]; rfl
  unfold insertFrom
  simp only [h1, if_false, size, he, List.length_nil, if_true, Int.toNat_natCast, h3, Res_pure]
  rw [← he, hv]
  rfl

/-- **C163 is false for the source:** without `keepIndex` the sample is renumbered in the source too, because both datasets
share it. -/
theorem C163_source_refuted :
    ∃ m' d', insertFrom demoMem Data.empty demoData 2 false = .ok (m', d', true) ∧
      (samples demoMem demoData).map Pt.id = [1, 2, 3] ∧ (samples m' demoData).map Pt.id = [1, 2, 1] :=
  ⟨_, _, rfl, rfl, rfl⟩

end MLTK.Props
