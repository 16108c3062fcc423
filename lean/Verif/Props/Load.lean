import Mathlib.Tactic.NormNum
import Verif.Lemmas.AosRun
import Verif.Lemmas.Readers
import Verif.Spec.Load
/-!
# C172, C173: loading into a dataset
-/
namespace MLTK.Props
open MLTK.Spec MLTK.Text
open MLTK.Data (Res_bind_ok Res_bind_error Res_pure)

/-! ### The components do not depend on the classes known -/

private theorem readItems_x (atEnd c1 c2 : Bool) : ∀ (items : List (List Char × Bool)) (j : Nat) (x : List ℚ) (y1 y2 : ℚ)
    (cl1 cl2 : Classes) (r1 r2 : List ℚ × ℚ × Classes),
    readItems atEnd c1 items j x y1 cl1 = .ok r1 → readItems atEnd c2 items j x y2 cl2 = .ok r2 → r1.1 = r2.1 := by
  intro items
  induction items with
  | nil => intro j x y1 y2 cl1 cl2 r1 r2 h1 h2; cases h1; cases h2; rfl
  | cons it rest ih =>
    obtain ⟨item, eof⟩ := it
    intro j x y1 y2 cl1 cl2 r1 r2 h1 h2
    unfold readItems at h1 h2
    by_cases hc : (if atEnd = true then !eof else decide (j ≠ 0)) = true
    · rw [if_pos hc] at h1 h2
      split at h1
      · rw [if_pos (by assumption)] at h2
        obtain ⟨x1, g1, h3⟩ := Aos.bind_inv h1
        obtain ⟨x2, g2, h4⟩ := Aos.bind_inv h2
        rw [g1] at g2; cases g2
        exact ih _ _ _ _ _ _ _ _ h3 h4
      · rw [if_neg (by assumption)] at h2
        exact ih _ _ _ _ _ _ _ _ h1 h2
    · rw [if_neg hc] at h1 h2
      have k1 : ∃ y cl, readItems atEnd c1 rest (j + 1) x y cl = .ok r1 := by
        split at h1
        · obtain ⟨_, _, h3⟩ := Aos.bind_inv h1; exact ⟨_, _, h3⟩
        · exact ⟨_, _, h1⟩
      have k2 : ∃ y cl, readItems atEnd c2 rest (j + 1) x y cl = .ok r2 := by
        split at h2
        · obtain ⟨_, _, h3⟩ := Aos.bind_inv h2; exact ⟨_, _, h3⟩
        · exact ⟨_, _, h2⟩
      obtain ⟨_, _, k1⟩ := k1
      obtain ⟨_, _, k2⟩ := k2
      exact ih _ _ _ _ _ _ _ _ k1 k2

private theorem readLines_x (atEnd c1 c2 : Bool) (d : Char) (dim : Nat) : ∀ (ls : List (List Char)) (n : Nat)
    (cl1 cl2 : Classes) (r1 r2 : List LPt × Classes),
    readLines atEnd c1 d dim ls n cl1 = .ok r1 → readLines atEnd c2 d dim ls n cl2 = .ok r2 →
    r1.1.map (fun p => (p.x, p.id)) = r2.1.map (fun p => (p.x, p.id)) := by
  intro ls
  induction ls with
  | nil => intro n cl1 cl2 r1 r2 h1 h2; cases h1; cases h2; rfl
  | cons l ls ih =>
    intro n cl1 cl2 r1 r2 h1 h2
    unfold readLines at h1 h2
    obtain ⟨⟨x1, y1, cl1'⟩, g1, h3⟩ := Aos.bind_inv h1
    obtain ⟨⟨x2, y2, cl2'⟩, g2, h4⟩ := Aos.bind_inv h2
    obtain ⟨⟨ps1, e1⟩, g3, h5⟩ := Aos.bind_inv h3
    obtain ⟨⟨ps2, e2⟩, g4, h6⟩ := Aos.bind_inv h4
    cases h5; cases h6
    have := readItems_x _ _ _ _ _ _ _ _ _ _ _ _ g1 g2
    simp only at this
    simp only [List.map_cons, this, ih _ _ _ _ _ g3 g4]

private theorem readPieces_x : ∀ (ps : List (List Char)) (isF : Bool) (s1 s2 t1 t2 : RowSt), s1.x = s2.x → s1.j = s2.j →
    s1.fnames = s2.fnames → readPieces ps isF s1 = .ok t1 → readPieces ps isF s2 = .ok t2 →
    t1.x = t2.x ∧ t1.j = t2.j ∧ t1.fnames = t2.fnames := by
  intro ps
  induction ps with
  | nil => intro isF s1 s2 t1 t2 h1 h2 h3 e1 e2; cases e1; cases e2; exact ⟨h1, h2, h3⟩
  | cons p ps ih =>
    intro isF s1 s2 t1 t2 h1 h2 h3 e1 e2
    unfold readPieces at e1 e2
    simp only at e1 e2
    split at e1
    · rw [if_pos (by assumption)] at e2
      obtain ⟨f1, g1, e3⟩ := Aos.bind_inv e1
      obtain ⟨f2, g2, e4⟩ := Aos.bind_inv e2
      rw [g1] at g2; cases g2
      obtain ⟨fn1, g3, e5⟩ := Aos.bind_inv e3
      obtain ⟨fn2, g4, e6⟩ := Aos.bind_inv e4
      rw [h2, h3] at g3; rw [g3] at g4; cases g4
      refine ih _ _ _ _ _ ?_ ?_ ?_ e5 e6
      · exact h1
      · exact h2
      · rfl
    · rw [if_neg (by assumption)] at e2
      split at e1
      · rw [if_pos (by assumption)] at e2
        obtain ⟨x1, g1, e3⟩ := Aos.bind_inv e1
        obtain ⟨x2, g2, e4⟩ := Aos.bind_inv e2
        rw [h1, h2] at g1; rw [g1] at g2; cases g2
        refine ih _ _ _ _ _ ?_ ?_ ?_ e3 e4
        · rfl
        · simp [h2]
        · exact h3
      · rw [if_neg (by assumption)] at e2
        exact ih _ _ _ _ _ h1 h2 h3 e1 e2

private theorem readDataItems_x (c1 c2 : Bool) : ∀ (items : List (List Char)) (s1 s2 t1 t2 : RowSt), s1.x = s2.x →
    s1.j = s2.j → s1.fnames = s2.fnames → items.foldlM (readDataItem c1) s1 = .ok t1 →
    items.foldlM (readDataItem c2) s2 = .ok t2 → t1.x = t2.x ∧ t1.j = t2.j ∧ t1.fnames = t2.fnames := by
  intro items
  induction items with
  | nil => intro s1 s2 t1 t2 h1 h2 h3 e1 e2; cases e1; cases e2; exact ⟨h1, h2, h3⟩
  | cons it items ih =>
    intro s1 s2 t1 t2 h1 h2 h3 e1 e2
    rw [List.foldlM_cons] at e1 e2
    obtain ⟨u1, g1, e3⟩ := Aos.bind_inv e1
    obtain ⟨u2, g2, e4⟩ := Aos.bind_inv e2
    have : u1.x = u2.x ∧ u1.j = u2.j ∧ u1.fnames = u2.fnames := by
      unfold readDataItem at g1 g2
      simp only at g1 g2
      split at g1
      · rw [if_pos (by assumption)] at g2
        have k1 : u1.x = s1.x ∧ u1.j = s1.j ∧ u1.fnames = s1.fnames := by
          split at g1
          · obtain ⟨⟨_, _⟩, _, g3⟩ := Aos.bind_inv g1; cases g3; exact ⟨rfl, rfl, rfl⟩
          · cases g1; exact ⟨rfl, rfl, rfl⟩
        have k2 : u2.x = s2.x ∧ u2.j = s2.j ∧ u2.fnames = s2.fnames := by
          split at g2
          · obtain ⟨⟨_, _⟩, _, g3⟩ := Aos.bind_inv g2; cases g3; exact ⟨rfl, rfl, rfl⟩
          · cases g2; exact ⟨rfl, rfl, rfl⟩
        exact ⟨by rw [k1.1, k2.1, h1], by rw [k1.2.1, k2.2.1, h2], by rw [k1.2.2, k2.2.2, h3]⟩
      · rw [if_neg (by assumption)] at g2
        exact readPieces_x _ _ _ _ _ _ h1 h2 h3 g1 g2
    exact ih _ _ _ _ this.1 this.2.1 this.2.2 e3 e4

private theorem readDataLines_x (c1 c2 : Bool) (dim : Nat) : ∀ (ls : List (List Char)) (n : Nat) (cl1 cl2 : Classes)
    (fn : List Int) (r1 r2 : List LPt × Classes × List Int), readDataLines c1 dim ls n cl1 fn = .ok r1 →
    readDataLines c2 dim ls n cl2 fn = .ok r2 →
    r1.1.map (fun p => (p.x, p.id)) = r2.1.map (fun p => (p.x, p.id)) ∧ r1.2.2 = r2.2.2 := by
  intro ls
  induction ls with
  | nil => intro n cl1 cl2 fn r1 r2 h1 h2; cases h1; cases h2; exact ⟨rfl, rfl⟩
  | cons l ls ih =>
    intro n cl1 cl2 fn r1 r2 h1 h2
    unfold readDataLines at h1 h2
    obtain ⟨s1, g1, h3⟩ := Aos.bind_inv h1
    obtain ⟨s2, g2, h4⟩ := Aos.bind_inv h2
    obtain ⟨⟨ps1, e1, f1⟩, g3, h5⟩ := Aos.bind_inv h3
    obtain ⟨⟨ps2, e2, f2⟩, g4, h6⟩ := Aos.bind_inv h4
    cases h5; cases h6
    obtain ⟨k1, _, k3⟩ : s1.x = s2.x ∧ s1.j = s2.j ∧ s1.fnames = s2.fnames := by
      refine readDataItems_x _ _ _ _ _ _ _ ?_ ?_ ?_ g1 g2 <;> rfl
    rw [k3] at g3
    obtain ⟨q1, q2⟩ := ih _ _ _ _ _ _ g3 g4
    exact ⟨by simp only [List.map_cons, k1]; rw [q1], q2⟩

private theorem firstPassData_dim : ∀ (ls : List (List Char)) (ldim : Int) (n : Nat) (st1 st2 : DType × Bool),
    (firstPassData ls ldim n st1).map (fun r => r.1) = (firstPassData ls ldim n st2).map (fun r => r.1) := by
  intro ls
  induction ls with
  | nil => intro ldim n st1 st2; rfl
  | cons l ls ih =>
    intro ldim n st1 st2
    unfold firstPassData
    simp only
    split
    · rfl
    · exact ih _ _ _ _

private theorem readArffItems_x (atEnd c1 c2 : Bool) : ∀ (items : List (List Char × Bool)) (j : Nat) (x : List ℚ)
    (y1 y2 : ℚ) (cl1 cl2 : Classes) (r1 r2 : List ℚ × ℚ × Classes),
    readArffItems atEnd c1 items j x y1 cl1 = .ok r1 → readArffItems atEnd c2 items j x y2 cl2 = .ok r2 →
    r1.1 = r2.1 := by
  intro items
  induction items with
  | nil => intro j x y1 y2 cl1 cl2 r1 r2 h1 h2; cases h1; cases h2; rfl
  | cons it rest ih =>
    obtain ⟨item, eof⟩ := it
    intro j x y1 y2 cl1 cl2 r1 r2 h1 h2
    unfold readArffItems at h1 h2
    by_cases hc : (if atEnd = true then !eof else decide (j ≠ 1)) = true
    · rw [if_pos hc] at h1 h2
      split at h1
      · rw [if_pos (by assumption)] at h2
        obtain ⟨x1, g1, h3⟩ := Aos.bind_inv h1
        obtain ⟨x2, g2, h4⟩ := Aos.bind_inv h2
        rw [g1] at g2; cases g2
        exact ih _ _ _ _ _ _ _ _ h3 h4
      · rw [if_neg (by assumption)] at h2
        exact ih _ _ _ _ _ _ _ _ h1 h2
    · rw [if_neg hc] at h1 h2
      have k1 : ∃ y cl, readArffItems atEnd c1 rest (j + 1) x y cl = .ok r1 := by
        split at h1
        · obtain ⟨_, _, h3⟩ := Aos.bind_inv h1; exact ⟨_, _, h3⟩
        · exact ⟨_, _, h1⟩
      have k2 : ∃ y cl, readArffItems atEnd c2 rest (j + 1) x y cl = .ok r2 := by
        split at h2
        · obtain ⟨_, _, h3⟩ := Aos.bind_inv h2; exact ⟨_, _, h3⟩
        · exact ⟨_, _, h2⟩
      obtain ⟨_, _, k1⟩ := k1
      obtain ⟨_, _, k2⟩ := k2
      exact ih _ _ _ _ _ _ _ _ k1 k2

private theorem readArffLines_x (atEnd c1 c2 : Bool) (dim : Nat) : ∀ (ls : List (List Char)) (n : Nat)
    (cl1 cl2 : Classes) (r1 r2 : List LPt × Classes),
    readArffLines atEnd c1 dim ls n cl1 = .ok r1 → readArffLines atEnd c2 dim ls n cl2 = .ok r2 →
    r1.1.map (fun p => (p.x, p.id)) = r2.1.map (fun p => (p.x, p.id)) := by
  intro ls
  induction ls with
  | nil => intro n cl1 cl2 r1 r2 h1 h2; cases h1; cases h2; rfl
  | cons l ls ih =>
    intro n cl1 cl2 r1 r2 h1 h2
    unfold readArffLines at h1 h2
    obtain ⟨⟨x1, y1, cl1'⟩, g1, h3⟩ := Aos.bind_inv h1
    obtain ⟨⟨x2, y2, cl2'⟩, g2, h4⟩ := Aos.bind_inv h2
    obtain ⟨⟨ps1, e1⟩, g3, h5⟩ := Aos.bind_inv h3
    obtain ⟨⟨ps2, e2⟩, g4, h6⟩ := Aos.bind_inv h4
    cases h5; cases h6
    have := readArffItems_x _ _ _ _ _ _ _ _ _ _ _ _ g1 g2
    simp only at this
    simp only [List.map_cons, this, ih _ _ _ _ _ g3 g4]

private theorem firstPassArff_names (n1 n2 : List (List Char)) : ∀ (ls : List (List Char)) (ldim : Int),
    (∀ l ∈ ls, ∀ it ∈ (getlines ',' (trim l) []).map Prod.fst, isNumber it = false → it ∉ n1 ∧ it ∉ n2) →
    firstPassArffInto n1 ls ldim = firstPassArffInto n2 ls ldim := by
  intro ls
  induction ls with
  | nil => intro ldim _; rfl
  | cons l ls ih =>
    intro ldim h
    have e : ((getlines ',' (trim l) []).map Prod.fst).filter (fun i => isNumber i || decide (i ∉ n1)) =
        ((getlines ',' (trim l) []).map Prod.fst).filter (fun i => isNumber i || decide (i ∉ n2)) := by
      apply List.filter_congr
      intro it hit
      cases hn : isNumber it with
      | true => simp
      | false => simp [h l (by simp) it hit hn]
    unfold firstPassArffInto
    simp only
    rw [e]
    split
    · rfl
    · exact ih _ (fun l' hl' => h l' (by simp [hl']))

/-! ### C172: loading replaces the samples -/

private theorem csvInto_x {s1 s2 t1 t2 : Store} {file : Option (List Char)} (ha : s1.atEnd = s2.atEnd)
    (hname : s1.name = s2.name) (h1 : csvInto s1 file = .ok (true, t1)) (h2 : csvInto s2 file = .ok (true, t2)) :
    SameFeatures t1 t2 := by
  cases file with
  | none => cases h1
  | some file =>
    unfold csvInto at h1 h2
    simp only at h1 h2
    split at h1
    · cases h1
    · rename_i dim n hf
      rw [hf] at h2
      simp only at h2
      split at h1
      · cases h1
      · rw [if_neg (by assumption)] at h2
        obtain ⟨⟨ps1, cl1⟩, g1, h3⟩ := Aos.bind_inv h1
        obtain ⟨⟨ps2, cl2⟩, g2, h4⟩ := Aos.bind_inv h2
        rw [ha] at g1
        cases h3; cases h4
        exact ⟨rfl, rfl, hname, readLines_x _ _ _ _ _ _ _ _ _ _ _ g1 g2⟩

private theorem dataInto_x {s1 s2 t1 t2 : Store} {file : Option (List Char)}
    (hname : s1.name = s2.name) (h1 : dataInto s1 file = .ok (true, t1)) (h2 : dataInto s2 file = .ok (true, t2)) :
    SameFeatures t1 t2 := by
  cases file with
  | none => cases h1
  | some file =>
    unfold dataInto at h1 h2
    simp only at h1 h2
    have hd := firstPassData_dim ((getlines '\n' file []).map Prod.fst) 0 0 (s1.ty, false) (s2.ty, false)
    split at h1
    · cases h1
    · rename_i dim n ty hf
      rw [hf] at hd
      split at h2
      · cases h2
      · rename_i dim' n' ty' hf'
        rw [hf'] at hd
        simp only [Option.map_some, Option.some.injEq] at hd
        subst hd
        split at h1
        · cases h1
        · rw [if_neg (by assumption)] at h2
          obtain ⟨⟨ps1, cl1, f1⟩, g1, h3⟩ := Aos.bind_inv h1
          obtain ⟨⟨ps2, cl2, f2⟩, g2, h4⟩ := Aos.bind_inv h2
          cases h3; cases h4
          obtain ⟨q1, q2⟩ := readDataLines_x _ _ _ _ _ _ _ _ _ _ g1 g2
          exact ⟨rfl, q2, hname, q1⟩

private theorem txtInto_x {s1 s2 t1 t2 : Store} {file : Option (List Char)}
    (hname : s1.name = s2.name) (h1 : txtInto s1 file = .ok (true, t1)) (h2 : txtInto s2 file = .ok (true, t2)) :
    SameFeatures t1 t2 := by
  cases file with
  | none => cases h1
  | some file =>
    unfold txtInto at h1 h2
    simp only at h1 h2
    split at h1
    · cases h1
    · rename_i dim n hf
      rw [hf] at h2
      simp only at h2
      obtain ⟨ps1, g1, h3⟩ := Aos.bind_inv h1
      obtain ⟨ps2, g2, h4⟩ := Aos.bind_inv h2
      rw [g1] at g2; cases g2
      cases h3; cases h4
      exact ⟨rfl, rfl, hname, rfl⟩

private theorem arffInto_x {s1 s2 t1 t2 : Store} {file : Option (List Char)} (ha : s1.atEnd = s2.atEnd)
    (hname : s1.name = s2.name)
    (hk : ∀ text, file = some text → ∀ l ∈ (getlines '\n' text []).map Prod.fst,
      ∀ it ∈ (getlines ',' (trim l) []).map Prod.fst, isNumber it = false → it ∉ s1.classes.names ∧ it ∉ s2.classes.names)
    (h1 : arffInto s1 file = .ok (true, t1)) (h2 : arffInto s2 file = .ok (true, t2)) :
    SameFeatures t1 t2 := by
  cases file with
  | none => cases h1
  | some file =>
    unfold arffInto at h1 h2
    simp only at h1 h2
    rw [firstPassArff_names s1.classes.names s2.classes.names _ _ (hk file rfl)] at h1
    split at h1
    · cases h1
    · rename_i dim hf
      rw [hf] at h2
      simp only at h2
      split at h1
      · cases h1
      · rw [if_neg (by assumption)] at h2
        obtain ⟨⟨ps1, cl1⟩, g1, h3⟩ := Aos.bind_inv h1
        obtain ⟨⟨ps2, cl2⟩, g2, h4⟩ := Aos.bind_inv h2
        rw [ha] at g1
        cases h3; cases h4
        exact ⟨rfl, rfl, hname, readArffLines_x _ _ _ _ _ _ _ _ _ _ g1 g2⟩

/-- C172 (features).  Whatever the dataset held before, a successful `load` leaves it with the components, the ids, the
dimension, the feature names and the name that loading the file into a new dataset gives; for `.arff` files if no word of
the file is a class name seen before. -/
theorem C172_features_partial (s t t0 : Store) (path : List Char) (file : Option (List Char))
    (hk : identifyFileType path = .ok .arff → NewWords s file)
    (h : load s path file = .ok (true, t)) (h0 : load Store.empty path file = .ok (true, t0)) : SameFeatures t t0 := by
  unfold load at h h0
  obtain ⟨ft, g1, h1⟩ := Aos.bind_inv h
  obtain ⟨ft', g1', h1'⟩ := Aos.bind_inv h0
  rw [g1] at g1'; cases g1'
  obtain ⟨nm, g2, h2⟩ := Aos.bind_inv h1
  obtain ⟨nm', g2', h2'⟩ := Aos.bind_inv h1'
  rw [g2] at g2'; cases g2'
  cases ft with
  | invalid => cases h2
  | data => refine dataInto_x ?_ h2 h2'; rfl
  | csv => refine csvInto_x ?_ ?_ h2 h2' <;> rfl
  | arff =>
    refine arffInto_x ?_ ?_ ?_ h2 h2'
    · rfl
    · rfl
    · intro text ht l hl it hi hn
      exact ⟨hk g1 text ht l hl it hi hn, by simp [Store.empty, Classes.none]⟩
  | txt => refine txtInto_x ?_ h2 h2'; rfl

/-- C172 (features), for `load(file, atEnd)`. -/
theorem C172_features_at_partial (s t t0 : Store) (path : List Char) (atEnd : Bool) (file : Option (List Char))
    (hk : identifyFileType path = .ok .arff → NewWords s file)
    (h : loadAt s path atEnd file = .ok (true, t)) (h0 : loadAt Store.empty path atEnd file = .ok (true, t0)) :
    SameFeatures t t0 := by
  unfold loadAt at h h0
  obtain ⟨ft, g1, h1⟩ := Aos.bind_inv h
  obtain ⟨ft', g1', h1'⟩ := Aos.bind_inv h0
  rw [g1] at g1'; cases g1'
  obtain ⟨nm, g2, h2⟩ := Aos.bind_inv h1
  obtain ⟨nm', g2', h2'⟩ := Aos.bind_inv h1'
  rw [g2] at g2'; cases g2'
  cases ft with
  | invalid => cases h2
  | data => refine dataInto_x ?_ h2 h2'; rfl
  | csv => refine csvInto_x ?_ ?_ h2 h2' <;> rfl
  | arff =>
    refine arffInto_x ?_ ?_ ?_ h2 h2'
    · rfl
    · rfl
    · intro text ht l hl it hi hn
      exact ⟨hk g1 text ht l hl it hi hn, by simp [Store.empty, Classes.none]⟩
  | txt => refine txtInto_x ?_ h2 h2'; rfl

private theorem readItems_regr (atEnd : Bool) : ∀ (items : List (List Char × Bool)) (j : Nat) (x : List ℚ) (y : ℚ)
    (cl1 cl2 : Classes) (r : List ℚ × ℚ × Classes), readItems atEnd false items j x y cl1 = .ok r →
    r.2.2 = cl1 ∧ readItems atEnd false items j x y cl2 = .ok (r.1, r.2.1, cl2) := by
  intro items
  induction items with
  | nil => intro j x y cl1 cl2 r h; cases h; exact ⟨rfl, rfl⟩
  | cons it rest ih =>
    obtain ⟨item, eof⟩ := it
    intro j x y cl1 cl2 r h
    unfold readItems at h ⊢
    by_cases hc : (if atEnd = true then !eof else decide (j ≠ 0)) = true
    · rw [if_pos hc] at h ⊢
      by_cases hn : isNumber item = true
      · rw [if_pos hn] at h ⊢
        obtain ⟨x', g, h3⟩ := Aos.bind_inv h
        rw [g]
        exact ih _ _ _ _ _ _ h3
      · rw [if_neg hn] at h ⊢
        exact ih _ _ _ _ _ _ h
    · rw [if_neg hc] at h ⊢
      rw [if_neg (by simp)] at h ⊢
      exact ih _ _ _ _ _ _ h

private theorem readLines_regr (atEnd : Bool) (d : Char) (dim : Nat) : ∀ (ls : List (List Char)) (n : Nat)
    (cl1 cl2 : Classes) (r : List LPt × Classes), readLines atEnd false d dim ls n cl1 = .ok r →
    r.2 = cl1 ∧ readLines atEnd false d dim ls n cl2 = .ok (r.1, cl2) := by
  intro ls
  induction ls with
  | nil => intro n cl1 cl2 r h; cases h; exact ⟨rfl, rfl⟩
  | cons l ls ih =>
    intro n cl1 cl2 r h
    unfold readLines at h ⊢
    obtain ⟨⟨x1, y1, c1⟩, g1, h3⟩ := Aos.bind_inv h
    obtain ⟨k1, k2⟩ := readItems_regr _ _ _ _ _ _ cl2 _ g1
    simp only at k1 k2
    subst k1
    obtain ⟨⟨ps1, e1⟩, g3, h5⟩ := Aos.bind_inv h3
    obtain ⟨k3, k4⟩ := ih _ _ cl2 _ g3
    cases h5
    refine ⟨k3, ?_⟩
    rw [k2, Res_bind_ok]
    simp only
    rw [k4]
    rfl

/-- C172 (regression).  In a regression dataset a `.csv` file gives the same samples, targets included, whatever the dataset
held before. -/
theorem C172_regression_partial (s t : Store) (path : List Char) (file : Option (List Char)) (s0 : Store)
    (hty : s.ty = .regression) (hty0 : s0.ty = .regression) (hcsv : identifyFileType path = .ok .csv)
    (h : load s path file = .ok (true, t)) :
    ∃ t0, load s0 path file = .ok (true, t0) ∧ t.points = t0.points ∧ t.dim = t0.dim ∧ t.fnames = t0.fnames ∧
      t.classes = s.classes := by
  unfold load at h ⊢
  rw [hcsv] at h ⊢
  obtain ⟨nm, g2, h2⟩ := Aos.bind_inv (x := datasetName path) h
  simp only [Res_bind_ok]
  rw [g2]
  simp only [Res_bind_ok, readInto] at h2 ⊢
  cases file with
  | none => cases h2
  | some file =>
    unfold csvInto at h2 ⊢
    simp only at h2 ⊢
    split at h2
    · cases h2
    · rename_i dim n hf
      by_cases hd : dim < 0
      · rw [if_pos hd] at h2; cases h2
      · rw [if_neg hd] at h2 ⊢
        rw [hty] at h2
        rw [hty0]
        obtain ⟨⟨ps, cl⟩, g, h3⟩ := Aos.bind_inv h2
        obtain ⟨k1, k2⟩ := readLines_regr _ _ _ _ _ _ s0.classes _ g
        cases h3
        have k2' : readLines false DType.regression.isClass (fileDelim ((getlines '\n' file []).map Prod.fst)) dim.toNat
            ((getlines '\n' file []).map Prod.fst) 0 s0.classes = .ok (ps, s0.classes) := k2
        rw [k2']
        exact ⟨_, rfl, rfl, rfl, rfl, k1⟩

/-! ### The classes are not replaced -/

private theorem sum_set_le : ∀ (l : List Nat) (i : Nat), l.sum ≤ (l.set i (l.getD i 0 + 1)).sum := by
  intro l
  induction l with
  | nil => intro i; simp
  | cons a l ih =>
    intro i
    cases i with
    | zero => simp
    | succ i =>
      have := ih i
      simp only [List.set_cons_succ, List.sum_cons, List.getD_cons_succ]
      omega

private theorem processClass_mono {st st' : Classes} {raw : List Char} {c : Int} (h : processClass st raw = .ok (st', c)) :
    st.dist.sum ≤ st'.dist.sum := by
  unfold processClass at h
  simp only at h
  split at h
  · cases h; exact le_refl _
  · have key : ∃ (c' : Int) (i : Nat), st'.dist = (if c' ∈ st.labels then st.dist else st.dist ++ [0]).set i
        ((if c' ∈ st.labels then st.dist else st.dist ++ [0]).getD i 0 + 1) := by
      split at h
      · split at h
        · obtain ⟨c0, _, h2⟩ := Aos.bind_inv h
          cases h2
          exact ⟨_, _, rfl⟩
        · cases h
          exact ⟨_, _, rfl⟩
      · split at h
        · obtain ⟨c0, _, h2⟩ := Aos.bind_inv h
          cases h2
          exact ⟨_, _, rfl⟩
        · cases h
          exact ⟨_, _, rfl⟩
    obtain ⟨c', i, hd⟩ := key
    rw [hd]
    refine le_trans ?_ (sum_set_le _ _)
    split
    · exact le_refl _
    · simp

private theorem readItems_mono (atEnd c : Bool) : ∀ (items : List (List Char × Bool)) (j : Nat) (x : List ℚ) (y : ℚ)
    (cl : Classes) (r : List ℚ × ℚ × Classes), readItems atEnd c items j x y cl = .ok r →
    cl.dist.sum ≤ r.2.2.dist.sum := by
  intro items
  induction items with
  | nil => intro j x y cl r h; cases h; exact le_refl _
  | cons it rest ih =>
    obtain ⟨item, eof⟩ := it
    intro j x y cl r h
    unfold readItems at h
    by_cases hc : (if atEnd = true then !eof else decide (j ≠ 0)) = true
    · rw [if_pos hc] at h
      split at h
      · obtain ⟨_, _, h3⟩ := Aos.bind_inv h; exact ih _ _ _ _ _ h3
      · exact ih _ _ _ _ _ h
    · rw [if_neg hc] at h
      split at h
      · obtain ⟨⟨cl', c'⟩, g, h3⟩ := Aos.bind_inv h
        exact (processClass_mono g).trans (ih _ _ _ _ _ h3)
      · exact ih _ _ _ _ _ h

private theorem readLines_mono (atEnd c : Bool) (d : Char) (dim : Nat) : ∀ (ls : List (List Char)) (n : Nat)
    (cl : Classes) (r : List LPt × Classes), readLines atEnd c d dim ls n cl = .ok r →
    cl.dist.sum ≤ r.2.dist.sum ∧ r.1.length = ls.length := by
  intro ls
  induction ls with
  | nil => intro n cl r h; cases h; exact ⟨le_refl _, rfl⟩
  | cons l ls ih =>
    intro n cl r h
    unfold readLines at h
    obtain ⟨⟨x1, y1, c1⟩, g1, h3⟩ := Aos.bind_inv h
    obtain ⟨⟨ps1, e1⟩, g3, h5⟩ := Aos.bind_inv h3
    cases h5
    obtain ⟨k1, k2⟩ := ih _ _ _ g3
    exact ⟨(readItems_mono _ _ _ _ _ _ _ _ g1).trans k1, by simp [k2]⟩

/-- C172 refuted (class counts).  The counts of the samples held before stay: loading a `.csv` file into a dataset in which
more samples were counted than the file has lines leaves counts that exceed the number of samples. -/
theorem C172_counts_refuted (s t : Store) (path : List Char) (file : List Char) (hcsv : identifyFileType path = .ok .csv)
    (hmore : ((getlines '\n' file []).map Prod.fst).length < s.classes.dist.sum)
    (h : load s path (some file) = .ok (true, t)) : t.points.length < t.classes.dist.sum := by
  unfold load at h
  rw [hcsv] at h
  obtain ⟨nm, _, h2⟩ := Aos.bind_inv (x := datasetName path) h
  simp only [readInto] at h2
  unfold csvInto at h2
  simp only at h2
  split at h2
  · cases h2
  · split at h2
    · cases h2
    · obtain ⟨⟨ps, cl⟩, g, h3⟩ := Aos.bind_inv h2
      cases h3
      obtain ⟨k1, k2⟩ := readLines_mono _ _ _ _ _ _ _ _ g
      simp only at k1 k2 ⊢
      omega

/-- Three samples of two named classes, the class first. -/
private def pets : List Char := "dog,1,2\ncat,3,4\ndog,5,6\n".toList
/-- Two samples of two classes. -/
private def cars : List Char := "fiat,1,2\ncat,3,4\n".toList
private def petsPath : List Char := "./x/pets.csv".toList

/-- A dataset that was loaded from a file, and another file loaded into it: the components are those of the second file, the
counts are not, and the class "cat" has another label than in a new dataset. -/
theorem C172_classes_refuted :
    ∃ s t t0, load Store.empty petsPath (some pets) = .ok (true, s) ∧ load s petsPath (some cars) = .ok (true, t) ∧
      load Store.empty petsPath (some cars) = .ok (true, t0) ∧ t.points.length = 2 ∧
      t.classes.dist = [2, 2, 1] ∧ t0.classes.dist = [1, 1] ∧
      t.points.map (fun p => p.y) = [3, 2] ∧ t0.points.map (fun p => p.y) = [1, 2] ∧ SameFeatures t t0 := by
  refine ⟨_, _, _, rfl, rfl, rfl, ?_, ?_, ?_, ?_, ?_, ?_⟩
  all_goals first | decide +kernel | (unfold SameFeatures; decide +kernel)

/-- The hypotheses of the refutation of the counts are met: a dataset of three samples, a file of two lines. -/
example : ∃ s t, load Store.empty petsPath (some pets) = .ok (true, s) ∧ load s petsPath (some cars) = .ok (true, t) ∧
    ((getlines '\n' cars []).map Prod.fst).length < s.classes.dist.sum :=
  ⟨_, _, rfl, rfl, by decide +kernel⟩

/-- C172 refuted (`.arff`).  An `.arff` file with named classes cannot be loaded twice into the same dataset: the second time
the class name is not counted as an item, the dimension comes out one too small, and the last feature is written outside the
point. -/
theorem C172_arff_refuted :
    ∃ (path file : List Char) (s : Store), load Store.empty path (some file) = .ok (true, s) ∧ s.dim = 2 ∧
      load s path (some file) = .error .outOfBounds :=
  ⟨"./x/pets.arff".toList, "1,2,dog\n3,4,cat\n".toList, _, rfl, by decide +kernel, by decide +kernel⟩

/-! ### C173: a load that fails -/

/-- C173.  A `load` that returns false leaves the samples, the dimension, the feature names and the classes as they were. -/
theorem C173_kept_partial (s t : Store) (path : List Char) (file : Option (List Char)) (h : load s path file = .ok (false, t)) :
    SameContent t s := by
  unfold load at h
  obtain ⟨ft, _, h1⟩ := Aos.bind_inv h
  obtain ⟨nm, _, h2⟩ := Aos.bind_inv h1
  cases ft <;> cases file <;> simp only [readInto, csvInto, dataInto, arffInto, txtInto] at h2
  all_goals first
    | (cases h2; exact ⟨rfl, rfl, rfl, rfl⟩)
    | skip
  all_goals
    split at h2
    · cases h2; exact ⟨rfl, rfl, rfl, rfl⟩
    · first
      | (obtain ⟨_, _, h3⟩ := Aos.bind_inv h2; cases h3)
      | (split at h2
         · cases h2
         · obtain ⟨_, _, h3⟩ := Aos.bind_inv h2; cases h3)

/-- C173 (constructor).  A dataset constructed from a file that cannot be opened, has an unknown type or lines of different
dimension holds no samples and no classes. -/
theorem C173_constructor (path : List Char) (file : Option (List Char)) (t : Store)
    (h : load Store.empty path file = .ok (false, t)) :
    fromFile path file = .ok t ∧ SameContent t Store.empty :=
  ⟨by simp [fromFile, h], C173_kept_partial _ _ _ _ h⟩

/-- C173 (constructor with the position of the class).  Constructing with the position of the class is loading a new
dataset with it; without it, the last attribute of an `.arff` file and the first of the others is the class. -/
theorem C173_constructor_at (path : List Char) (file : Option (List Char)) (t : FType) (h : identifyFileType path = .ok t) :
    fromFile path file = fromFileAt path (t = .arff) file ∧
    ∀ (atEnd b : Bool) (s : Store), loadAt Store.empty path atEnd file = .ok (b, s) → fromFileAt path atEnd file = .ok s := by
  constructor
  · unfold fromFile fromFileAt load loadAt
    rw [h]
    cases t <;> rfl
  · intro atEnd b s hs
    unfold fromFileAt
    have : loadAt { Store.empty with atEnd := atEnd } path atEnd file = loadAt Store.empty path atEnd file := rfl
    rw [this, hs]
    rfl

example : identifyFileType "a/b.arff".toList = .ok .arff ∧ identifyFileType "a/b.data".toList = .ok .data := by
  decide +kernel

/-- C173 refuted.  The dataset is named after the file that could not be loaded, and a regression dataset can become a
classification dataset. -/
theorem C173_refuted :
    ∃ (s t : Store) (path file : List Char), load s path (some file) = .ok (false, t) ∧ s.points ≠ [] ∧
      t.points = s.points ∧ t.name ≠ s.name ∧ s.ty = .regression ∧ t.ty = .classification := by
  refine ⟨{ Store.empty with points := [⟨[1], 1/2, 1⟩], dim := 1, name := "good".toList, ty := .regression }, _,
    "./x/bad.data".toList, "1:2 1\n1:3 1\n1:3 2:4 1\n".toList, rfl, ?_, ?_, ?_, ?_, ?_⟩
  all_goals decide +kernel

/-! ### The readers of `Model/Text` and `Model/Readers` are these on a new dataset -/

theorem csvInto_new (atEnd : Bool) (ty : DType) (file : List Char) :
    csvInto { Store.empty with atEnd := atEnd, ty := ty } (some file) = (do
      match ← loadCsv atEnd ty.isClass file with
      | none => return (false, { Store.empty with atEnd := atEnd, ty := ty })
      | some L => return (true, { Store.empty with atEnd := atEnd, ty := ty, points := L.points, dim := L.dim,
                                                   fnames := L.fnames.map Int.ofNat, classes := L.classes })) := by
  unfold csvInto loadCsv
  simp only
  generalize firstPass _ _ 0 0 = f
  rcases f with _ | ⟨dim, n⟩
  · rfl
  · by_cases hd : dim < 0
    · simp only [if_pos hd]; rfl
    · simp only [if_neg hd]
      show (readLines atEnd ty.isClass _ _ _ 0 Classes.none >>= _) = (readLines atEnd ty.isClass _ _ _ 0 Classes.none >>= _) >>= _
      cases readLines atEnd ty.isClass (fileDelim ((getlines '\n' file []).map Prod.fst)) dim.toNat
        ((getlines '\n' file []).map Prod.fst) 0 Classes.none with
      | error e => rfl
      | ok r => simp [names1, bind, Except.bind, pure, Except.pure]

theorem dataInto_new (ty : DType) (file : List Char) :
    dataInto { Store.empty with ty := ty } (some file) = (do
      match ← loadData ty file with
      | none => return (false, { Store.empty with ty := typeAfterData ((getlines '\n' file []).map Prod.fst) 0 0 (ty, false) })
      | some L => return (true, { Store.empty with ty := L.ty, points := L.points, dim := L.dim, fnames := L.fnames,
                                                   classes := L.classes })) := by
  unfold dataInto loadData
  simp only
  generalize firstPassData _ 0 0 (ty, false) = f
  rcases f with _ | ⟨dim, n, ty'⟩
  · rfl
  · by_cases hd : dim < 0
    · simp only [if_pos hd]; rfl
    · simp only [if_neg hd]
      show (readDataLines ty'.isClass _ _ 0 Classes.none (names1 dim.toNat) >>= _) =
        (readDataLines ty'.isClass _ _ 0 Classes.none (names1 dim.toNat) >>= _) >>= _
      cases readDataLines ty'.isClass dim.toNat ((getlines '\n' file []).map Prod.fst) 0 Classes.none (names1 dim.toNat) with
      | error e => rfl
      | ok r => rfl

theorem txtInto_new (ty : DType) (file : List Char) :
    txtInto { Store.empty with ty := ty } (some file) = (do
      match ← loadTxt ty file with
      | none => return (false, { Store.empty with ty := ty })
      | some L => return (true, { Store.empty with ty := L.ty, points := L.points, dim := L.dim, fnames := L.fnames,
                                                   classes := L.classes })) := by
  unfold txtInto loadTxt
  simp only
  generalize firstPassTxt _ 0 0 = f
  rcases f with _ | ⟨dim, n⟩
  · rfl
  · simp only
    cases readTxtLines dim ((getlines '\n' file []).map Prod.fst) 0 with
    | error e => rfl
    | ok r => rfl

end MLTK.Props
