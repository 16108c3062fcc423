import Mathlib.Tactic.NormNum
import Verif.Lemmas.AosRun
import Verif.Lemmas.Voting
import Verif.Spec.MultiClass
/-!
# C170, C171: using a multi-class wrapper again
-/
namespace MLTK.Props
open MLTK.Spec MLTK.Multi
open MLTK.Data (Res_bind_ok Res_bind_error Res_pure)
variable {X M K : Type}

/-! ### The shape of the learner matrix -/

private theorem vset_lt {α : Type} {l : List α} {i : Nat} {a : α} (h : i < l.length) : vset l i a = .ok (l.set i a) := by
  simp [vset, h]

private theorem vset_inv {α : Type} {l l' : List α} {i : Nat} {a : α} (h : vset l i a = .ok l') :
    i < l.length ∧ l' = l.set i a := by
  unfold vset at h
  split at h
  · exact ⟨by assumption, by cases h; rfl⟩
  · cases h

/-- `n` rows of `n` learners. -/
private def Square (n : Nat) (ls : List (List (Option M))) : Prop := ls.length = n ∧ ∀ row ∈ ls, row.length = n

private theorem square_new (d : DS X) (base : M) (over : Option (DS X → DS X)) :
    Square d.classes.length (newOvO d base over).learners := by
  constructor
  · simp [newOvO]
  · intro row h
    simp only [newOvO, List.mem_map] at h
    obtain ⟨c, _, rfl⟩ := h
    simp

private theorem square_step {B : Base X M K} {o : OvO X M} {d : DS X} {n : Nat} {ls ls' : List (List (Option M))}
    {ij : Nat × Nat} (h : Square n ls) (e : OvO.trainPair B o d ls ij = .ok ls') : Square n ls' := by
  unfold OvO.trainPair at e
  obtain ⟨ci, _, e1⟩ := Aos.bind_inv e
  obtain ⟨cj, _, e2⟩ := Aos.bind_inv e1
  split at e2
  · obtain ⟨row, hr, e3⟩ := Aos.bind_inv e2
    obtain ⟨l, _, e4⟩ := Aos.bind_inv e3
    cases l with
    | none => cases e4
    | some m =>
      obtain ⟨m', _, e5⟩ := Aos.bind_inv e4
      obtain ⟨row', hr', e6⟩ := Aos.bind_inv e5
      obtain ⟨_, rfl⟩ := vset_inv hr'
      obtain ⟨_, rfl⟩ := vset_inv e6
      refine ⟨by simp [h.1], fun r hm => ?_⟩
      rcases List.mem_or_eq_of_mem_set hm with h1 | h1
      · exact h.2 r h1
      · subst h1
        rw [List.length_set]
        exact h.2 row (List.mem_of_getElem? (vget_eq_ok.mp hr))
  · cases e2; exact h

private theorem mem_pairsOf {n m : Nat} {ij : Nat × Nat} : ij ∈ pairsOf n m ↔ ij.1 < n ∧ ij.2 < m := by
  obtain ⟨i, j⟩ := ij
  simp [pairsOf]

private theorem foldlM_step {α β : Type} {f : β → α → Res β} (P : β → Prop) : ∀ {l : List α} {s s' : β} {a : α},
    l.foldlM f s = .ok s' → P s → (∀ s a s', a ∈ l → P s → f s a = .ok s' → P s') → a ∈ l →
    ∃ t t', P t ∧ f t a = .ok t' := by
  intro l
  induction l with
  | nil => intro s s' a _ _ _ h; cases h
  | cons b l ih =>
    intro s s' a e h hs ha
    rw [List.foldlM_cons] at e
    obtain ⟨t, ht, e1⟩ := Aos.bind_inv e
    rcases List.mem_cons.mp ha with rfl | h1
    · exact ⟨s, t, h, ht⟩
    · exact ih e1 (hs s b t (by simp) h ht) (fun s a s' h2 => hs s a s' (by simp [h2])) h1

/-- Learner matrices with the same shape. -/
private def Alike (S : Nat × Nat → Prop) (ls ls' : List (List (Option M))) : Prop :=
  ls.length = ls'.length ∧ ∀ (i : Nat) (r r' : List (Option M)), ls[i]? = some r → ls'[i]? = some r' →
    r.length = r'.length ∧ ∀ (j : Nat) (a b : Option M), r[j]? = some a → r'[j]? = some b →
      (a = none ↔ b = none) ∧ (S (i, j) → a = b)

private theorem alike_eq {S : Nat × Nat → Prop} {ls ls' : List (List (Option M))} (h : Alike S ls ls')
    (hS : ∀ (i j : Nat) (r : List (Option M)) (m : M), ls[i]? = some r → r[j]? = some (some m) → S (i, j)) :
    ls = ls' := by
  apply List.ext_getElem h.1
  intro i h1 h2
  obtain ⟨e1, e2⟩ := h.2 i _ _ (List.getElem?_eq_getElem h1) (List.getElem?_eq_getElem h2)
  apply List.ext_getElem e1
  intro j h3 h4
  obtain ⟨f1, f2⟩ := e2 j _ _ (List.getElem?_eq_getElem h3) (List.getElem?_eq_getElem h4)
  cases hm : (ls[i])[j] with
  | none => exact (f1.mp hm).symm
  | some m =>
    rw [← hm]
    exact f2 (hS i j _ m (List.getElem?_eq_getElem h1) (by rw [List.getElem?_eq_getElem h3, hm]))

private theorem alike_step {B : Base X M K} (hfit : ∀ m m' t, B.fit m t = B.fit m' t) {o o' : OvO X M} (ho : o.over = o'.over)
    {d : DS X} {S : Nat × Nat → Prop} {ls ls' : List (List (Option M))} {ij : Nat × Nat} (h : Alike S ls ls') :
    (∃ e, OvO.trainPair B o d ls ij = .error e ∧ OvO.trainPair B o' d ls' ij = .error e) ∨
    ∃ t t', OvO.trainPair B o d ls ij = .ok t ∧ OvO.trainPair B o' d ls' ij = .ok t' ∧
      Alike (fun p => S p ∨ (p = ij ∧ d.classes[ij.1]? ≠ d.classes[ij.2]?)) t t' := by
  obtain ⟨i, j⟩ := ij
  unfold OvO.trainPair
  cases hci : vget d.classes i with
  | error e => left; exact ⟨e, rfl, rfl⟩
  | ok ci =>
  cases hcj : vget d.classes j with
  | error e => left; exact ⟨e, rfl, rfl⟩
  | ok cj =>
  simp only [Res_bind_ok]
  rw [vget_eq_ok] at hci hcj
  by_cases hc : ci = cj
  · right
    rw [if_neg (not_not.mpr hc), if_neg (not_not.mpr hc)]
    refine ⟨ls, ls', rfl, rfl, h.1, fun a r r' h1 h2 => ?_⟩
    obtain ⟨e1, e2⟩ := h.2 a r r' h1 h2
    refine ⟨e1, fun b x y h3 h4 => ⟨(e2 b x y h3 h4).1, ?_⟩⟩
    rintro (h5 | ⟨_, h6⟩)
    · exact (e2 b x y h3 h4).2 h5
    · exact absurd (by rw [hci, hcj, hc]) h6
  · rw [if_pos hc, if_pos hc]
    by_cases hi : i < ls.length
    · have hi' : i < ls'.length := h.1 ▸ hi
      have g1 : ls[i]? = some ls[i] := List.getElem?_eq_getElem hi
      have g2 : ls'[i]? = some ls'[i] := List.getElem?_eq_getElem hi'
      obtain ⟨e1, e2⟩ := h.2 i _ _ g1 g2
      rw [vget_eq_ok.mpr g1, vget_eq_ok.mpr g2]
      simp only [Res_bind_ok]
      by_cases hj : j < ls[i].length
      · have hj' : j < ls'[i].length := e1 ▸ hj
        have g3 : ls[i][j]? = some ls[i][j] := List.getElem?_eq_getElem hj
        have g4 : ls'[i][j]? = some ls'[i][j] := List.getElem?_eq_getElem hj'
        rw [vget_eq_ok.mpr g3, vget_eq_ok.mpr g4]
        simp only [Res_bind_ok]
        obtain ⟨f1, _⟩ := e2 j _ _ g3 g4
        cases ha : ls[i][j] with
        | none => rw [f1.mp ha]; left; exact ⟨_, rfl, rfl⟩
        | some m =>
          cases hb : ls'[i][j] with
          | none => rw [f1.mpr hb] at ha; cases ha
          | some m' =>
            simp only
            rw [hfit m' m, ← ho]
            cases hf : B.fit m (applyOver o.over (pairData d ci cj)) with
            | error e => left; exact ⟨e, rfl, rfl⟩
            | ok m'' =>
              right
              simp only [Res_bind_ok]
              rw [vset_lt hj, vset_lt hj']
              simp only [Res_bind_ok]
              rw [vset_lt hi, vset_lt hi']
              refine ⟨_, _, rfl, rfl, by simp [h.1], fun a r r' h1 h2 => ?_⟩
              rw [List.getElem?_set] at h1 h2
              by_cases hai : i = a
              · subst hai
                rw [if_pos rfl, if_pos hi] at h1
                rw [if_pos rfl, if_pos hi'] at h2
                cases h1; cases h2
                refine ⟨by simp [e1], fun b x y h3 h4 => ?_⟩
                rw [List.getElem?_set] at h3 h4
                by_cases hbj : j = b
                · subst hbj
                  rw [if_pos rfl, if_pos hj] at h3
                  rw [if_pos rfl, if_pos hj'] at h4
                  cases h3; cases h4
                  exact ⟨Iff.rfl, fun _ => rfl⟩
                · rw [if_neg hbj] at h3 h4
                  refine ⟨(e2 b x y h3 h4).1, ?_⟩
                  rintro (h5 | ⟨h6, _⟩)
                  · exact (e2 b x y h3 h4).2 h5
                  · cases h6; exact absurd rfl hbj
              · rw [if_neg hai] at h1 h2
                obtain ⟨k1, k2⟩ := h.2 a r r' h1 h2
                refine ⟨k1, fun b x y h3 h4 => ⟨(k2 b x y h3 h4).1, ?_⟩⟩
                rintro (h5 | ⟨h6, _⟩)
                · exact (k2 b x y h3 h4).2 h5
                · cases h6; exact absurd rfl hai
      · left
        have hj' : ¬ j < ls'[i].length := e1 ▸ hj
        refine ⟨.outOfBounds, ?_, ?_⟩
        · simp [vget, List.getElem?_eq_none (not_lt.mp hj), bind, Except.bind]
        · simp [vget, List.getElem?_eq_none (not_lt.mp hj'), bind, Except.bind]
    · left
      have hi' : ¬ i < ls'.length := h.1 ▸ hi
      refine ⟨.outOfBounds, ?_, ?_⟩
      · simp [vget, List.getElem?_eq_none (not_lt.mp hi), bind, Except.bind]
      · simp [vget, List.getElem?_eq_none (not_lt.mp hi'), bind, Except.bind]

private theorem alike_fold {B : Base X M K} (hfit : ∀ m m' t, B.fit m t = B.fit m' t) {o o' : OvO X M} (ho : o.over = o'.over)
    {d : DS X} (ps : List (Nat × Nat)) : ∀ (S : Nat × Nat → Prop) (ls ls' : List (List (Option M))), Alike S ls ls' →
    (∃ e, ps.foldlM (OvO.trainPair B o d) ls = .error e ∧ ps.foldlM (OvO.trainPair B o' d) ls' = .error e) ∨
    ∃ t t', ps.foldlM (OvO.trainPair B o d) ls = .ok t ∧ ps.foldlM (OvO.trainPair B o' d) ls' = .ok t' ∧
      Alike (fun p => S p ∨ (p ∈ ps ∧ d.classes[p.1]? ≠ d.classes[p.2]?)) t t' := by
  induction ps with
  | nil =>
    intro S ls ls' h
    right
    refine ⟨ls, ls', rfl, rfl, ?_⟩
    simpa using h
  | cons p ps ih =>
    intro S ls ls' h
    simp only [List.foldlM_cons]
    rcases alike_step hfit ho (d := d) (ij := p) h with ⟨e, h1, h2⟩ | ⟨t, t', h1, h2, h3⟩
    · left; exact ⟨e, by rw [h1]; rfl, by rw [h2]; rfl⟩
    · rw [h1, h2]
      simp only [Res_bind_ok]
      rcases ih _ t t' h3 with h4 | ⟨u, u', h4, h5, h6⟩
      · left; exact h4
      · right
        refine ⟨u, u', h4, h5, h6.1, fun i r r' g1 g2 => ?_⟩
        obtain ⟨k1, k2⟩ := h6.2 i r r' g1 g2
        refine ⟨k1, fun j a b g3 g4 => ⟨(k2 j a b g3 g4).1, fun g5 => (k2 j a b g3 g4).2 ?_⟩⟩
        rcases g5 with g5 | ⟨g5, g6⟩
        · exact Or.inl (Or.inl g5)
        · rcases List.mem_cons.mp g5 with rfl | g5
          · exact Or.inl (Or.inr ⟨rfl, g6⟩)
          · exact Or.inr ⟨g5, g6⟩

/-- The matrix has a learner exactly off the diagonal. -/
private def OffDiag (n : Nat) (ls : List (List (Option M))) : Prop :=
  Square n ls ∧ ∀ (i j : Nat) (r : List (Option M)) (a : Option M), ls[i]? = some r → r[j]? = some a → (a = none ↔ i = j)

private theorem offDiag_new {d : DS X} (hn : d.classes.Nodup) (base : M) (over : Option (DS X → DS X)) :
    OffDiag d.classes.length (newOvO d base over).learners := by
  refine ⟨square_new d base over, fun i j r a h1 h2 => ?_⟩
  simp only [newOvO, List.getElem?_map, Option.map_eq_some_iff] at h1
  obtain ⟨c, hc, rfl⟩ := h1
  simp only [List.getElem?_map, Option.map_eq_some_iff] at h2
  obtain ⟨c', hc', rfl⟩ := h2
  obtain ⟨hi, rfl⟩ := List.getElem?_eq_some_iff.mp hc
  obtain ⟨hj, rfl⟩ := List.getElem?_eq_some_iff.mp hc'
  by_cases he : d.classes[i] = d.classes[j]
  · simp [(hn.getElem_inj_iff).mp he]
  · rw [if_pos he]
    constructor
    · intro h; cases h
    · rintro rfl; exact absurd rfl he

private theorem offDiag_step {B : Base X M K} {o : OvO X M} {d : DS X} {n : Nat} {ls ls' : List (List (Option M))}
    {ij : Nat × Nat} (h : OffDiag n ls) (e : OvO.trainPair B o d ls ij = .ok ls') : OffDiag n ls' := by
  refine ⟨square_step h.1 e, ?_⟩
  unfold OvO.trainPair at e
  obtain ⟨ci, _, e1⟩ := Aos.bind_inv e
  obtain ⟨cj, _, e2⟩ := Aos.bind_inv e1
  split at e2
  · obtain ⟨row, hr, e3⟩ := Aos.bind_inv e2
    obtain ⟨l, hl, e4⟩ := Aos.bind_inv e3
    cases l with
    | none => cases e4
    | some m =>
      obtain ⟨m', _, e5⟩ := Aos.bind_inv e4
      obtain ⟨row', hr', e6⟩ := Aos.bind_inv e5
      obtain ⟨q1, rfl⟩ := vset_inv hr'
      obtain ⟨q2, rfl⟩ := vset_inv e6
      rw [vget_eq_ok] at hr hl
      intro i j r a h1 h2
      rw [List.getElem?_set] at h1
      by_cases hi : ij.1 = i
      · rw [if_pos hi, if_pos q2] at h1
        cases h1
        rw [List.getElem?_set] at h2
        by_cases hj : ij.2 = j
        · rw [if_pos hj, if_pos q1] at h2
          cases h2
          have := h.2 _ _ _ _ hr hl
          rw [hi, hj] at this
          simpa using this
        · rw [if_neg hj] at h2
          exact h.2 i j row a (hi ▸ hr) h2
      · rw [if_neg hi] at h1
        exact h.2 i j r a h1 h2
  · cases e2; exact h.2

private theorem alike_of_offDiag {n : Nat} {ls ls' : List (List (Option M))} (h : OffDiag n ls) (h' : OffDiag n ls') :
    Alike (fun _ => False) ls ls' := by
  refine ⟨h.1.1.trans h'.1.1.symm, fun i r r' h1 h2 => ⟨?_, fun j a b h3 h4 => ⟨?_, False.elim⟩⟩⟩
  · rw [h.1.2 r (List.mem_of_getElem? h1), h'.1.2 r' (List.mem_of_getElem? h2)]
  · rw [h.2 i j r a h1 h3, h'.2 i j r' b h2 h4]

/-- Training of the wrapper keeps the shape. -/
private theorem train_offDiag {B : Base X M K} {o o' : OvO X M} {b : Bool} {n : Nat} (h : OffDiag n o.learners)
    (e : o.train B = .ok (b, o')) : OffDiag n o'.learners ∧ o'.over = o.over ∧ o'.data = o.data := by
  unfold OvO.train at e
  cases hd : o.data with
  | none => rw [hd] at e; cases e
  | some d =>
    rw [hd] at e
    obtain ⟨ls, h1, h2⟩ := Aos.bind_inv e
    cases h2
    exact ⟨Aos.foldlM_inv (OffDiag n) h1 h (fun s a s' _ hs he => offDiag_step hs he), rfl, rfl⟩

/-! ### C170: one-vs-one -/

/-- C170 (one-vs-one).  A wrapper built with `d` and given a dataset with as many classes behaves like one built with it. -/
theorem C170_ovo_partial [One K] [DecidableEq K] (B : Base X M K) (base : M) (over : Option (DS X → DS X)) (d d' : DS X)
    (hn : d.classes.Nodup) (hn' : d'.classes.Nodup) (hl : d.classes.length = d'.classes.length) (x : X) :
    rebuiltOvO B base over d d' x = builtOvO B base over d' x := by
  have : (newOvO d base over).setSamples d' = newOvO d' base over := by
    have h1 := offDiag_new hn base over
    have h2 := offDiag_new hn' base over
    rw [hl] at h1
    have : (newOvO d base over).learners = (newOvO d' base over).learners := by
      apply List.ext_getElem (h1.1.1.trans h2.1.1.symm)
      intro i g1 g2
      apply List.ext_getElem ((h1.1.2 _ (List.getElem_mem g1)).trans (h2.1.2 _ (List.getElem_mem g2)).symm)
      intro j g3 g4
      simp only [newOvO, List.getElem_map, hn.getElem_inj_iff, hn'.getElem_inj_iff, ne_eq]
    show (⟨some d', (newOvO d base over).learners, over⟩ : OvO X M) = _
    rw [this]
    rfl
  unfold rebuiltOvO builtOvO
  rw [this]

/-- C170 (one-vs-one, without a dataset).  A wrapper built from a classifier alone takes that classifier's dataset: given
another with as many classes it behaves like one built with it.  A classifier without a dataset cannot be wrapped. -/
theorem C170_ovo_from_partial [One K] [DecidableEq K] (B : Base X M K) (base : M) (samplesOf : M → Option (DS X))
    (over : Option (DS X → DS X)) (d' : DS X) (hn' : d'.classes.Nodup) (x : X) :
    (samplesOf base = none → newOvOFrom base samplesOf over = .error .badPointer) ∧
    ∀ d, samplesOf base = some d → d.classes.Nodup → d.classes.length = d'.classes.length →
      ∃ o, newOvOFrom base samplesOf over = .ok o ∧ o.data = some d ∧
        (do let (_, o') ← (o.setSamples d').train B; o'.evaluate B x) = builtOvO B base over d' x := by
  refine ⟨fun h => by simp [newOvOFrom, h], fun d h hn hl => ⟨newOvO d base over, by simp [newOvOFrom, h], rfl, ?_⟩⟩
  exact C170_ovo_partial B base over d d' hn hn' hl x

/-- C170 (one-vs-one, after training).  If training a base learner starts over, the wrapper trained on `d`, given a dataset
with as many classes and trained again, is the wrapper built with that dataset and trained. -/
theorem C170_ovo_retrained_partial (B : Base X M K) (hfit : ∀ m m' t, B.fit m t = B.fit m' t) (base : M)
    (over : Option (DS X → DS X)) (d d' : DS X) (hn : d.classes.Nodup) (hn' : d'.classes.Nodup)
    (hl : d.classes.length = d'.classes.length) (b : Bool) (o : OvO X M) (h : (newOvO d base over).train B = .ok (b, o)) :
    (o.setSamples d').train B = (newOvO d' base over).train B := by
  obtain ⟨h1, h2, _⟩ := train_offDiag (offDiag_new hn base over) h
  have h3 := offDiag_new hn' base over
  rw [hl] at h1
  unfold OvO.train
  show (List.foldlM (OvO.trainPair B (o.setSamples d') d') o.learners
      (pairsOf d'.classes.length d'.classes.length) >>= _) = (List.foldlM (OvO.trainPair B (newOvO d' base over) d')
      (newOvO d' base over).learners (pairsOf d'.classes.length d'.classes.length) >>= _)
  rcases alike_fold hfit (o := o.setSamples d') (o' := newOvO d' base over) h2 (d := d')
    (pairsOf d'.classes.length d'.classes.length) (fun _ => False) _ _ (alike_of_offDiag h1 h3) with
    ⟨e, g1, g2⟩ | ⟨t, t', g1, g2, g3⟩
  · rw [g1, g2]; rfl
  · have k1 : OffDiag d'.classes.length t :=
      Aos.foldlM_inv (OffDiag _) g1 h1 (fun s a s' _ hs he => offDiag_step hs he)
    have : t = t' := by
      apply alike_eq g3
      intro i j r m q1 q2
      right
      have hij : i ≠ j := fun hij => by
        have := (k1.2 i j r (some m) q1 q2).mpr hij
        cases this
      have hi : i < d'.classes.length := k1.1.1 ▸ (List.getElem?_eq_some_iff.mp q1).1
      have hj : j < d'.classes.length := k1.1.2 r (List.mem_of_getElem? q1) ▸ (List.getElem?_eq_some_iff.mp q2).1
      refine ⟨mem_pairsOf.mpr ⟨hi, hj⟩, ?_⟩
      simp only [List.getElem?_eq_getElem hi, List.getElem?_eq_getElem hj, ne_eq, Option.some.injEq,
        hn'.getElem_inj_iff]
      exact hij
    rw [g1, g2, this]
    simp only [Res_bind_ok]
    show Except.ok (true, (⟨some d', t', o.over⟩ : OvO X M)) = Except.ok (true, ⟨some d', t', over⟩)
    rw [show o.over = over from h2]

/-- C170 refuted (one-vs-one).  Given a dataset with another number of classes the wrapper gives no answer at all: with more
classes training reads outside the learner matrix, with fewer classes prediction reads outside the list of classes. -/
theorem C170_ovo_refuted [One K] [DecidableEq K] (B : Base X M K) (base : M) (over : Option (DS X → DS X)) (d d' : DS X)
    (hn' : d'.classes.Nodup) (hne : d.classes ≠ [])
    (hl : d.classes.length ≠ d'.classes.length) (x : X) (c : Int) : rebuiltOvO B base over d d' x ≠ .ok c := by
  intro h
  have hpos : 0 < d.classes.length := List.length_pos_iff.mpr hne
  unfold rebuiltOvO at h
  obtain ⟨⟨b, o⟩, h1, h2⟩ := Aos.bind_inv h
  unfold OvO.train at h1
  obtain ⟨ls, h3, h4⟩ := Aos.bind_inv (x := List.foldlM (OvO.trainPair B ((newOvO d base over).setSamples d') d')
      (newOvO d base over).learners (pairsOf d'.classes.length d'.classes.length)) h1
  cases h4
  have hsq : Square d.classes.length ls :=
    Aos.foldlM_inv (Square _) h3 (square_new d base over) (fun s a s' _ hs he => square_step hs he)
  rcases lt_or_gt_of_ne hl with hlt | hgt
  · -- more classes: the pair (0, d.classes.length)
    obtain ⟨t, t', p1, p2⟩ := foldlM_step (Square d.classes.length) (a := (0, d.classes.length)) h3
      (square_new d base over) (fun s a s' _ hs he => square_step hs he) (mem_pairsOf.mpr ⟨by omega, hlt⟩)
    unfold OvO.trainPair at p2
    obtain ⟨ci, q1, p3⟩ := Aos.bind_inv p2
    obtain ⟨cj, q2, p4⟩ := Aos.bind_inv p3
    rw [vget_eq_ok] at q1 q2
    obtain ⟨u1, rfl⟩ := List.getElem?_eq_some_iff.mp q1
    obtain ⟨u2, rfl⟩ := List.getElem?_eq_some_iff.mp q2
    rw [if_pos (by rw [ne_eq, hn'.getElem_inj_iff]; exact hpos.ne)] at p4
    obtain ⟨row, q3, p5⟩ := Aos.bind_inv p4
    obtain ⟨l, q4, _⟩ := Aos.bind_inv p5
    rw [vget_eq_ok] at q3 q4
    have := (List.getElem?_eq_some_iff.mp q4).1
    rw [p1.2 row (List.mem_of_getElem? q3)] at this
    omega
  · -- fewer classes: the learner (0, d'.classes.length)
    unfold OvO.evaluate at h2
    obtain ⟨votes, h5, _⟩ := Aos.bind_inv (x := ls.zipIdx.foldlM
      (fun v (row : List (Option M) × Nat) => row.1.zipIdx.foldlM (OvO.vote B d'.classes x row.2) v)
      (List.replicate d'.classes.length 0)) h2
    have h0 : 0 < ls.length := by rw [hsq.1]; exact hpos
    have hmem : (ls[0], 0) ∈ ls.zipIdx := by
      rw [List.mem_zipIdx_iff_getElem?]; simp [h0]
    obtain ⟨v, v', _, h6⟩ := foldlM_step (fun _ => True) h5 trivial (fun _ _ _ _ _ _ => trivial) hmem
    have hlen : ls[0].length = d.classes.length := hsq.2 _ (List.getElem_mem h0)
    have hj : d'.classes.length < ls[0].length := by omega
    have hmem' : (ls[0][d'.classes.length], d'.classes.length) ∈ ls[0].zipIdx := by
      rw [List.mem_zipIdx_iff_getElem?]; simp [hj]
    obtain ⟨w, w', _, h7⟩ := foldlM_step (fun _ => True) h6 trivial (fun _ _ _ _ _ _ => trivial) hmem'
    unfold OvO.vote at h7
    obtain ⟨ci, _, h8⟩ := Aos.bind_inv h7
    obtain ⟨cj, q2, _⟩ := Aos.bind_inv h8
    rw [vget_eq_ok] at q2
    have := (List.getElem?_eq_some_iff.mp q2).1
    omega

/-! ### C170: one-vs-all -/

/-- C170 (one-vs-all).  A wrapper built with `d` and given a dataset with as many classes behaves like one built with it. -/
theorem C170_ova_partial [LinearOrder K] (B : Base X M K) (base : M) (over : Option (DS X → DS X)) (d d' : DS X)
    (hl : d.classes.length = d'.classes.length) (x : X) :
    rebuiltOvA B base over d d' x = builtOvA B base over d' x := by
  have : (newOvA d base over).setSamples d' = newOvA d' base over := by
    show (⟨some d', d.classes.map (fun _ => base), over⟩ : OvA X M) = ⟨some d', d'.classes.map (fun _ => base), over⟩
    rw [List.map_const', List.map_const', hl]
  unfold rebuiltOvA builtOvA
  rw [this]

/-- C170 (one-vs-all, after training).  The same for a wrapper that was trained, if training a base learner starts over. -/
theorem C170_ova_retrained_partial (B : Base X M K) (hfit : ∀ m m' t, B.fit m t = B.fit m' t) (base : M)
    (over : Option (DS X → DS X)) (d d' : DS X)
    (hl : d.classes.length = d'.classes.length) (b : Bool) (o : OvA X M) (h : (newOvA d base over).train B = .ok (b, o)) :
    (o.setSamples d').train B = (newOvA d' base over).train B := by
  unfold OvA.train at h
  obtain ⟨ls, h1, h2⟩ := Aos.bind_inv (x := (newOvA d base over).learners.zipIdx.mapM (fun (l : M × Nat) => do
      let t ← allData d l.2
      B.fit l.1 (applyOver over t))) h
  cases h2
  have hlen : ls.length = d'.classes.length := by
    have := (Aos.mapM_inv h1).length_eq
    simpa [newOvA, hl] using this.symm
  have key : ∀ (l l' : List M) (k : Nat), l.length = l'.length →
      (l.zipIdx k).mapM (fun (l : M × Nat) => do
        let t ← allData d' l.2
        B.fit l.1 (applyOver over t)) =
      (l'.zipIdx k).mapM (fun (l : M × Nat) => do
        let t ← allData d' l.2
        B.fit l.1 (applyOver over t)) := by
    intro l
    induction l with
    | nil => intro l' k h; cases l' with
      | nil => rfl
      | cons _ _ => cases h
    | cons a l ih =>
      intro l' k h
      cases l' with
      | nil => cases h
      | cons a' l' =>
        simp only [List.zipIdx_cons, List.mapM_cons]
        rw [ih l' (k + 1) (by simpa using h)]
        congr 1
        cases allData d' k with
        | error e => rfl
        | ok t => exact hfit a a' _
  unfold OvA.train
  show (List.mapM (fun (l : M × Nat) => do
        let t ← allData d' l.2
        B.fit l.1 (applyOver over t)) ls.zipIdx >>= _) = (List.mapM (fun (l : M × Nat) => do
        let t ← allData d' l.2
        B.fit l.1 (applyOver over t)) ((newOvA d' base over).learners).zipIdx >>= _)
  rw [key ls (newOvA d' base over).learners 0 (by simp [newOvA, hlen])]
  rfl

/-- C170 refuted (one-vs-all, more classes).  Whatever was learnt, only the first classes, as many as the wrapper was built
with, are ever predicted: the learners for the others do not exist. -/
theorem C170_ova_more_refuted [Zero K] [LinearOrder K] (B : Base X M K) (base : M) (over : Option (DS X → DS X)) (d d' : DS X)
    (hne : d.classes ≠ []) (x : X) (c : Int) (h : rebuiltOvA B base over d d' x = .ok c) :
    c ∈ d'.classes.take d.classes.length := by
  unfold rebuiltOvA at h
  obtain ⟨⟨b, o⟩, h1, h2⟩ := Aos.bind_inv h
  unfold OvA.train at h1
  obtain ⟨ls, h3, h4⟩ := Aos.bind_inv (x := (newOvA d base over).learners.zipIdx.mapM (fun (l : M × Nat) => do
      let t ← allData d' l.2
      B.fit l.1 (applyOver over t))) h1
  cases h4
  have hlen : ls.length = d.classes.length := by
    have := (Aos.mapM_inv h3).length_eq
    simpa [newOvA] using this.symm
  unfold OvA.evaluate at h2
  obtain ⟨vals, h5, h6⟩ := Aos.bind_inv (x := ls.mapM (fun m => B.ans m x true)) h2
  have hv : vals.length = d.classes.length := by rw [← (Aos.mapM_inv h5).length_eq, hlen]
  have hv' : vals ≠ [] := by
    intro he; rw [he] at hv; exact hne (List.length_eq_zero_iff.mp hv.symm)
  have := (Vote.maxElement_spec vals hv').1
  have h6' : d'.classes[Vote.maxElement vals]? = some c := vget_eq_ok.mp h6
  rw [List.mem_take_iff_getElem]
  obtain ⟨g1, g2⟩ := List.getElem?_eq_some_iff.mp h6'
  exact ⟨_, by omega, g2⟩

/-- C170 refuted (one-vs-all, fewer classes).  With fewer classes and at least one sample, training reads outside the list
of classes. -/
theorem C170_ova_fewer_refuted [LinearOrder K] (B : Base X M K) (base : M) (over : Option (DS X → DS X)) (d d' : DS X)
    (hs : d'.samples ≠ []) (hl : d'.classes.length < d.classes.length) (x : X) (c : Int) :
    rebuiltOvA B base over d d' x ≠ .ok c := by
  intro h
  unfold rebuiltOvA at h
  obtain ⟨⟨b, o⟩, h1, _⟩ := Aos.bind_inv h
  unfold OvA.train at h1
  obtain ⟨ls, h3, _⟩ := Aos.bind_inv (x := (newOvA d base over).learners.zipIdx.mapM (fun (l : M × Nat) => do
      let t ← allData d' l.2
      B.fit l.1 (applyOver over t))) h1
  have hlen : d'.classes.length < (newOvA d base over).learners.length := by simpa [newOvA] using hl
  have hm : ((newOvA d base over).learners[d'.classes.length], d'.classes.length) ∈
      (newOvA d base over).learners.zipIdx := by
    rw [List.mem_zipIdx_iff_getElem?]; simp [hlen]
  have h5 := Aos.mapM_inv h3
  have h4 : ∃ b, (do
      let t ← allData d' d'.classes.length
      B.fit (newOvA d base over).learners[d'.classes.length] (applyOver over t)) = .ok b := by
    obtain ⟨e1, e2⟩ := List.forall₂_iff_get.mp h5
    obtain ⟨k, hk, hk'⟩ := List.getElem_of_mem hm
    have := e2 k hk (e1 ▸ hk)
    rw [List.get_eq_getElem, hk'] at this
    exact ⟨_, this⟩
  obtain ⟨b, h4⟩ := h4
  obtain ⟨t, h6, _⟩ := Aos.bind_inv h4
  unfold allData at h6
  obtain ⟨ss, h7, _⟩ := Aos.bind_inv h6
  cases hd : d'.samples with
  | nil => exact hs hd
  | cons s rest =>
    rw [hd, List.mapM_cons] at h7
    obtain ⟨y, h8, _⟩ := Aos.bind_inv h7
    obtain ⟨c, h9, _⟩ := Aos.bind_inv h8
    have := (List.getElem?_eq_some_iff.mp (vget_eq_ok.mp h9)).1
    omega

/-- C170 refuted (one-vs-all, default constructed).  Without learners training reports success and every point is predicted
to be of the first class. -/
theorem C170_ova_default_refuted [LinearOrder K] (B : Base X M K) (d : DS X) (c : Int) (cs : List Int)
    (hc : d.classes = c :: cs) (x : X) :
    ∃ o, ((emptyOvA : OvA X M).setSamples d).train B = .ok (true, o) ∧ o.evaluate B x = .ok c := by
  refine ⟨(emptyOvA : OvA X M).setSamples d, rfl, ?_⟩
  show vget d.classes 0 = .ok c
  rw [hc]; rfl

/-! ### A base learner that remembers its training set -/

/-- Learners that store their dataset and answer with the label of the point, -1 if it is unknown. -/
private def memory : Base Int (DS Int) ℚ where
  fit _ t := .ok t
  ans m x _ := .ok ((m.samples.find? (fun s => s.1 == x)).elim (-1) (fun s => (s.2 : ℚ)))
  form _ := "memory"

private def two' : DS Int := ⟨[1, 2], [(10, 1), (20, 2)]⟩
private def three : DS Int := ⟨[1, 2, 3], [(10, 1), (20, 2), (30, 3)]⟩
private def other : DS Int := ⟨[5, 7], [(10, 7), (20, 5), (40, 7)]⟩

/-- The hypotheses of the theorems above are met, and the answers are right. -/
example : (∀ m m' t, memory.fit m t = memory.fit m' t) ∧ two'.classes.Nodup ∧ other.classes.Nodup ∧
    rebuiltOvO memory two' none two' other 40 = .ok 7 ∧ rebuiltOvA memory two' none two' other 40 = .ok 7 :=
  ⟨fun _ _ _ => rfl, by decide, by decide, by decide +kernel, by decide +kernel⟩

/-- A wrapper built with two classes and trained on three: one-vs-one faults, one-vs-all says class 1 for the sample of
class 3; a wrapper built with the three classes is right. -/
theorem C170_three_classes_refuted :
    rebuiltOvO memory two' none two' three 30 = .error .outOfBounds ∧
    rebuiltOvA memory two' none two' three 30 = .ok 1 ∧
    builtOvO memory two' none three 30 = .ok 3 ∧ builtOvA memory two' none three 30 = .ok 3 := by
  decide +kernel

/-- From three classes to two: both fault. -/
example : rebuiltOvO memory two' none three two' 10 = .error .outOfBounds ∧
    rebuiltOvA memory two' none three two' 10 = .error .outOfBounds := by decide +kernel

/-! ### C171: the formulation -/

/-- C171 (one-vs-one).  With two classes or more the formulation is that of the base classifier. -/
theorem C171_ovo_partial (B : Base X M K) (base : M) (over : Option (DS X → DS X)) (d : DS X) (hn : d.classes.Nodup)
    (h2 : 2 ≤ d.classes.length) : (newOvO d base over).formulation B = .ok (B.form base) := by
  unfold OvO.formulation newOvO
  have e0 : (0 : Nat) < d.classes.length := by omega
  have e1 : (1 : Nat) < d.classes.length := by omega
  simp only [vget, List.getElem?_map, List.getElem?_eq_getElem e0, List.getElem?_eq_getElem e1, Option.map_some,
    Res_bind_ok, ne_eq, hn.getElem_inj_iff]
  rfl

/-- C171 (one-vs-all).  With one class or more the formulation is that of the base classifier. -/
theorem C171_ova_partial (B : Base X M K) (base : M) (over : Option (DS X → DS X)) (d : DS X)
    (h1 : d.classes ≠ []) : (newOvA d base over).formulation B = .ok (B.form base) := by
  cases hc : d.classes with
  | nil => exact absurd hc h1
  | cons c cs => simp [OvA.formulation, newOvA, hc, vget]

/-- C171 (after training).  Training does not change it, if training a base learner does not. -/
theorem C171_trained_partial (B : Base X M K) (hform : ∀ m t m', B.fit m t = .ok m' → B.form m' = B.form m) (base : M)
    (over : Option (DS X → DS X)) (d : DS X) (hn : d.classes.Nodup) (h2 : 2 ≤ d.classes.length) (b : Bool) (o : OvO X M)
    (h : (newOvO d base over).train B = .ok (b, o)) : o.formulation B = .ok (B.form base) := by
  have hinv : ∀ ls : List (List (Option M)), (∀ row ∈ ls, ∀ m, some m ∈ row → B.form m = B.form base) →
      ∀ ij ls', OvO.trainPair B (newOvO d base over) d ls ij = .ok ls' →
      ∀ row ∈ ls', ∀ m, some m ∈ row → B.form m = B.form base := by
    intro ls hls ij ls' e
    unfold OvO.trainPair at e
    obtain ⟨ci, _, e1⟩ := Aos.bind_inv e
    obtain ⟨cj, _, e2⟩ := Aos.bind_inv e1
    split at e2
    · obtain ⟨row, hr, e3⟩ := Aos.bind_inv e2
      obtain ⟨l, hl, e4⟩ := Aos.bind_inv e3
      cases l with
      | none => cases e4
      | some m =>
        obtain ⟨m', hm', e5⟩ := Aos.bind_inv e4
        obtain ⟨row', hr', e6⟩ := Aos.bind_inv e5
        obtain ⟨_, rfl⟩ := vset_inv hr'
        obtain ⟨_, rfl⟩ := vset_inv e6
        have hrow := List.mem_of_getElem? (vget_eq_ok.mp hr)
        intro r hmr q hq
        rcases List.mem_or_eq_of_mem_set hmr with g | g
        · exact hls r g q hq
        · subst g
          rcases List.mem_or_eq_of_mem_set hq with g | g
          · exact hls row hrow q g
          · cases g
            rw [hform m _ _ hm']
            exact hls row hrow m (List.mem_of_getElem? (vget_eq_ok.mp hl))
    · cases e2; exact hls
  have hoff := train_offDiag (offDiag_new hn base over) h
  unfold OvO.train at h
  obtain ⟨ls, h3, h4⟩ := Aos.bind_inv (x := List.foldlM (OvO.trainPair B (newOvO d base over) d)
      (newOvO d base over).learners (pairsOf d.classes.length d.classes.length)) h
  cases h4
  have hall : ∀ row ∈ ls, ∀ m, some m ∈ row → B.form m = B.form base :=
    Aos.foldlM_inv (fun ls => ∀ row ∈ ls, ∀ m, some m ∈ row → B.form m = B.form base) h3
      (by
        intro row hr m hm
        simp only [newOvO, List.mem_map] at hr
        obtain ⟨c, _, rfl⟩ := hr
        simp only [List.mem_map] at hm
        obtain ⟨c', _, hm⟩ := hm
        split at hm
        · cases hm; rfl
        · cases hm)
      (fun s a s' _ hs he => hinv s hs a s' he)
  have e0 : 0 < ls.length := by rw [hoff.1.1.1]; omega
  have e1 : 1 < ls[0].length := by rw [hoff.1.1.2 _ (List.getElem_mem e0)]; omega
  have e2 := (hoff.1.2 0 1 ls[0] ls[0][1] (List.getElem?_eq_getElem e0) (List.getElem?_eq_getElem e1))
  unfold OvO.formulation
  simp only [vget, List.getElem?_eq_getElem e0, List.getElem?_eq_getElem e1, Res_bind_ok]
  cases hm : ls[0][1] with
  | none => exact absurd (e2.mp hm) (by omega)
  | some m =>
    simp only [Res_pure]
    rw [hall ls[0] (List.getElem_mem e0) m (hm ▸ List.getElem_mem e1)]

/-- C171 refuted.  With fewer than two classes one-vs-one has no learner to ask, and a default constructed one-vs-all has
none either. -/
theorem C171_refuted (B : Base X M K) (base : M) (over : Option (DS X → DS X)) (d : DS X) (h : d.classes.length < 2) :
    (newOvO d base over).formulation B = .error .outOfBounds ∧
    ((emptyOvA : OvA X M).setSamples d).formulation B = .error .outOfBounds := by
  refine ⟨?_, rfl⟩
  rcases hc : d.classes with _ | ⟨c, _ | ⟨c', cs⟩⟩
  · simp [OvO.formulation, newOvO, hc, vget]
  · simp [OvO.formulation, newOvO, hc, vget]
  · rw [hc] at h; simp at h

example : (newOvO three two' none).formulation memory = .ok "memory" ∧
    (newOvA three two' none).formulation memory = .ok "memory" := by decide +kernel

end MLTK.Props
