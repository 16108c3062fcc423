import Verif.Lemmas.Text
/-!
# Lemmas about CSV files
-/
namespace MLTK.Text
open MLTK.Data (Res_bind_ok Res_bind_error Res_pure)
open MLTK.Spec

theorem natDigitChar_eq {k : Nat} (h : k < 10) : Nat.digitChar k = digitChar k := by
  have : ∀ k, k < 10 → Nat.digitChar k = digitChar k := by decide
  exact this k h

theorem natChars_spec (n : Nat) : ∃ ks : List Nat, natChars n = ks.map digitChar ∧ ks ≠ [] ∧ (∀ k ∈ ks, k < 10) ∧
    (ks.head? = some 0 → ks = [0]) ∧ digitsValue ks = n := by
  induction n using Nat.strong_induction_on with
  | _ n ih =>
    by_cases h : n < 10
    · refine ⟨[n], ?_, by simp, by simpa using h, by simp, by simp [digitsValue]⟩
      rw [natChars, Nat.toDigits_of_lt_base h, natDigitChar_eq h]; rfl
    · obtain ⟨ks, h1, h2, h3, h4, h5⟩ := ih (n / 10) (by omega)
      refine ⟨ks ++ [n % 10], ?_, by simp, ?_, ?_, ?_⟩
      · rw [natChars, Nat.toDigits_of_base_le (by norm_num) (by omega)]
        rw [natChars] at h1
        rw [h1, natDigitChar_eq (Nat.mod_lt _ (by norm_num))]; simp
      · intro k hk
        rcases List.mem_append.1 hk with h | h
        · exact h3 k h
        · simp at h; omega
      · intro h0
        exfalso
        cases ks with
        | nil => exact h2 rfl
        | cons k ks =>
          have := h4 (by simpa using h0)
          rw [this] at h5
          simp [digitsValue] at h5; omega
      · rw [digitsValue_append, h5]; simp [digitsValue]; omega

theorem showDouble_numeral (v : Int) (h : v.natAbs < 10 ^ 6) : IsNumeral v (showDouble v) := by
  obtain ⟨ks, h1, h2, h3, h4, h5⟩ := natChars_spec v.natAbs
  refine ⟨ks, h2, h3, h4, h5, ?_⟩
  simp only [showDouble]
  rw [if_pos h, h1]
  by_cases hv : v < 0 <;> simp [hv]

/-! ### splitting -/

theorem getlines_token (d : Char) (t rest cur : List Char) (h : d ∉ t) :
    getlines d (t ++ rest) cur = getlines d rest (t.reverse ++ cur) := by
  induction t generalizing cur with
  | nil => rfl
  | cons c t ih =>
    have hc : c ≠ d := fun e => h (by simp [e])
    simp only [List.cons_append, getlines, hc, if_false]
    rw [ih (c :: cur) (fun hd => h (by simp [hd]))]
    simp

theorem getlines_last (d : Char) (t : List Char) (h : d ∉ t) (hne : t ≠ []) : getlines d t [] = [(t, true)] := by
  have := getlines_token d t [] [] h
  rw [List.append_nil, List.append_nil] at this
  rw [this]
  cases hr : t.reverse with
  | nil => simp at hr; exact absurd hr hne
  | cons c r =>
    simp only [getlines]
    rw [← hr]; simp

theorem getlines_piece (d : Char) (t rest : List Char) (h : d ∉ t) :
    getlines d (t ++ d :: rest) [] = (t, false) :: getlines d rest [] := by
  rw [getlines_token d t _ [] h]
  simp [getlines]

theorem intercalate_cons₂ (d : Char) (t u : List Char) (ts : List (List Char)) :
    List.intercalate [d] (t :: u :: ts) = t ++ d :: List.intercalate [d] (u :: ts) := by
  simp [List.intercalate, List.intersperse]

theorem getlines_intercalate (d : Char) : ∀ (ts : List (List Char)), (∀ t ∈ ts, t ≠ [] ∧ d ∉ t) →
    (getlines d (List.intercalate [d] ts) []).map Prod.fst = ts
  | [], _ => rfl
  | [t], h => by
    have : List.intercalate [d] [t] = t := by simp [List.intercalate, List.intersperse]
    rw [this, getlines_last d t (h t (by simp)).2 (h t (by simp)).1]; rfl
  | t :: u :: ts, h => by
    rw [intercalate_cons₂, getlines_piece d t _ (h t (by simp)).2, List.map_cons,
      getlines_intercalate d (u :: ts) (fun x hx => h x (List.mem_cons_of_mem _ hx))]

theorem getlines_lines (d : Char) : ∀ (ls : List (List Char)), (∀ l ∈ ls, d ∉ l) →
    (getlines d ((ls.map (fun l => l ++ [d])).flatten) []).map Prod.fst = ls
  | [], _ => rfl
  | l :: ls, h => by
    rw [List.map_cons, List.flatten_cons, List.append_assoc, List.singleton_append,
      getlines_piece d l _ (h l (by simp)), List.map_cons,
      getlines_lines d ls (fun x hx => h x (List.mem_cons_of_mem _ hx))]

theorem trim_noSpace (s : List Char) (h : ∀ c ∈ s, isSpace c = false) : trim s = s := by
  have hdw : ∀ s : List Char, (∀ c ∈ s, isSpace c = false) → s.dropWhile isSpace = s := by
    intro s hs
    have := dropWhile_append_stop isSpace [] s (by simp) (by
      intro x hx
      cases s with
      | nil => simp at hx
      | cons c s => simp at hx; subst hx; exact hs c (by simp))
    simpa using this
  rw [trim, hdw s h, hdw s.reverse (by simpa using h), List.reverse_reverse]

theorem guessDelim_comma (t rest : List Char) (h : ∀ c ∈ t, c ≠ ';') : guessDelim (t ++ ',' :: rest) = ',' := by
  induction t with
  | nil => simp [guessDelim]
  | cons c t ih =>
    simp only [List.cons_append, guessDelim, h c (by simp), if_false]
    rw [ih (fun x hx => h x (by simp [hx]))]
    split <;> rfl

/-! ### reading -/

theorem readItems_fields (cls : Bool) : ∀ (ks : List Int) (items : List (List Char × Bool)) (pre : List ℚ)
    (x : List ℚ) (y : ℚ) (cl : Classes),
    List.Forall₂ IsNumeral ks (items.map Prod.fst) → x.length = ks.length →
    readItems false cls items (pre.length + 1) (pre ++ x) y cl = .ok (pre ++ ks.map (fun k : Int => (k : ℚ)), y, cl) := by
  intro ks
  induction ks with
  | nil =>
    intro items pre x y cl h hx
    have hi : items = [] := by
      cases items with
      | nil => rfl
      | cons a b => simp at h
    subst hi
    have : x = [] := List.length_eq_zero_iff.1 hx
    subst this
    simp [readItems]
  | cons k ks ih =>
    intro items pre x y cl h hx
    cases items with
    | nil => simp at h
    | cons it items =>
      obtain ⟨item, eof⟩ := it
      simp only [List.map_cons] at h
      obtain ⟨h1, h2⟩ := List.forall₂_cons.1 h
      cases x with
      | nil => simp at hx
      | cons a x =>
        simp only [readItems, Bool.false_eq_true, if_false, decide_eq_true_eq, ne_eq, Nat.succ_ne_zero,
          not_false_eq_true, if_true, numeral_isNumber h1, Nat.add_sub_cancel]
        have hset : vset (pre ++ a :: x) pre.length (atod item) = .ok ((pre ++ [(k : ℚ)]) ++ x) := by
          rw [atod_numeral h1]
          simp [vset]
        rw [hset, Res_bind_ok]
        have := ih items (pre ++ [(k : ℚ)]) x y cl h2 (by simpa using hx)
        simp only [List.length_append, List.length_singleton, List.append_assoc, List.singleton_append] at this
        simpa using this

theorem firstPass_const (d : Char) (n : Nat) : ∀ (ls : List (List Char)) (ldim : Int) (m : Nat),
    (ldim = 0 ∨ ldim = n) → (∀ l ∈ ls, (getlines d (trim l) []).length = n + 1) →
    firstPass d ls ldim m = some (if ls = [] then ldim else (n : Int), m + ls.length)
  | [], ldim, m, _, _ => by simp [firstPass]
  | l :: ls, ldim, m, h, hl => by
    have h1 := hl l (by simp)
    have e : ((getlines d (trim l) []).length : Int) - 1 = n := by rw [h1]; push_cast; ring
    simp only [firstPass, e]
    rw [if_neg (by rcases h with rfl | rfl <;> simp)]
    rw [firstPass_const d n ls n (m + 1) (Or.inr rfl) (fun x hx => hl x (by simp [hx]))]
    simp; omega

/-- The fields of a written line. -/
def fields (p : Int × List Int) : List (List Char) := showDouble p.1 :: p.2.map showDouble

/-- A written line without its end. -/
def lineBody (p : Int × List Int) : List Char := List.intercalate [','] (fields p)

theorem writeLine_eq (p : Int × List Int) (h : p.2 ≠ []) : writeLine p = lineBody p ++ ['\n'] := by
  obtain ⟨y, x⟩ := p
  cases x with
  | nil => exact absurd rfl h
  | cons a x => simp only [writeLine, lineBody, fields, List.map_cons, intercalate_cons₂]

/-- Values printed without exponent. -/
def Small (p : Int × List Int) : Prop := p.1.natAbs < 10 ^ 6 ∧ ∀ v ∈ p.2, v.natAbs < 10 ^ 6

theorem fields_numeral (p : Int × List Int) (h : Small p) : List.Forall₂ IsNumeral (p.1 :: p.2) (fields p) := by
  refine List.Forall₂.cons (showDouble_numeral _ h.1) ?_
  rw [List.forall₂_map_right_iff, List.forall₂_same]
  exact fun v hv => showDouble_numeral v (h.2 v hv)

theorem fields_chars (p : Int × List Int) (h : Small p) : ∀ t ∈ fields p, t ≠ [] ∧ ∀ c ∈ t, c = '-' ∨ isDigit c = true := by
  intro t ht
  simp only [fields, List.mem_cons, List.mem_map] at ht
  rcases ht with rfl | ⟨v, hv, rfl⟩
  · exact numeral_chars (showDouble_numeral _ h.1)
  · exact numeral_chars (showDouble_numeral _ (h.2 v hv))

theorem mem_intercalate (d c : Char) (ts : List (List Char)) (h : c ∈ List.intercalate [d] ts) :
    c = d ∨ ∃ t ∈ ts, c ∈ t := by
  induction ts with
  | nil => simp [List.intercalate] at h
  | cons t ts ih =>
    cases ts with
    | nil =>
      have : List.intercalate [d] [t] = t := by simp [List.intercalate, List.intersperse]
      rw [this] at h
      exact Or.inr ⟨t, by simp, h⟩
    | cons u ts =>
      rw [intercalate_cons₂] at h
      simp only [List.mem_append, List.mem_cons] at h
      rcases h with h | h | h
      · exact Or.inr ⟨t, by simp, h⟩
      · exact Or.inl h
      · rcases ih h with h | ⟨v, hv, hc⟩
        · exact Or.inl h
        · exact Or.inr ⟨v, List.mem_cons_of_mem _ hv, hc⟩

theorem lineBody_chars (p : Int × List Int) (h : Small p) : ∀ c ∈ lineBody p, c = ',' ∨ c = '-' ∨ isDigit c = true := by
  intro c hc
  rcases mem_intercalate _ _ _ hc with h1 | ⟨t, ht, h1⟩
  · exact Or.inl h1
  · exact Or.inr ((fields_chars p h t ht).2 c h1)

theorem lineBody_noSpace (p : Int × List Int) (h : Small p) : ∀ c ∈ lineBody p, isSpace c = false := by
  intro c hc
  rcases lineBody_chars p h c hc with rfl | rfl | h
  · decide
  · decide
  · exact (isDigit_props c h).2.2.2.1

theorem lineBody_split (p : Int × List Int) (h : Small p) :
    (getlines ',' (trim (lineBody p)) []).map Prod.fst = fields p := by
  rw [trim_noSpace _ (lineBody_noSpace p h)]
  refine getlines_intercalate ',' (fields p) (fun t ht => ⟨(fields_chars p h t ht).1, fun hc => ?_⟩)
  rcases (fields_chars p h t ht).2 ',' hc with h | h
  · exact absurd h (by decide)
  · exact absurd h (by decide)

/-- The samples of a file, given the labels of its lines. -/
def loadedPoints : Nat → List (Int × List Int) → List ℚ → List LPt
  | n, p :: ps, y :: ys => ⟨p.2.map (fun k : Int => (k : ℚ)), y, n + 1⟩ :: loadedPoints (n + 1) ps ys
  | _, _, _ => []

theorem readLines_class (dim : Nat) : ∀ (ps : List (Int × List Int)) (n : Nat) (cl cl' : Classes) (labels : List Int),
    (∀ p ∈ ps, Small p ∧ p.2.length = dim) →
    processAll cl (ps.map (fun p => showDouble p.1)) = .ok (cl', labels) →
    readLines false true ',' dim (ps.map lineBody) n cl =
      .ok (loadedPoints n ps (labels.map (fun c : Int => (c : ℚ))), cl')
  | [], n, cl, cl', labels, _, h => by
    simp only [List.map_nil, processAll, Res_pure, Except.ok.injEq, Prod.mk.injEq] at h
    obtain ⟨rfl, rfl⟩ := h
    simp [readLines, loadedPoints]
  | p :: ps, n, cl, cl', labels, hp, h => by
    obtain ⟨hs, hd⟩ := hp p (by simp)
    simp only [List.map_cons, processAll] at h
    cases hc : processClass cl (showDouble p.1) with
    | error e => rw [hc] at h; simp at h
    | ok q =>
      obtain ⟨cl1, c⟩ := q
      rw [hc, Res_bind_ok] at h
      simp only at h
      cases hq : processAll cl1 (ps.map (fun p => showDouble p.1)) with
      | error e => rw [hq] at h; simp at h
      | ok q =>
        obtain ⟨cl2, cs⟩ := q
        rw [hq] at h
        simp only [Res_bind_ok, Res_pure, Except.ok.injEq, Prod.mk.injEq] at h
        obtain ⟨rfl, rfl⟩ := h
        have ih := readLines_class dim ps (n + 1) cl1 cl2 cs (fun x hx => hp x (by simp [hx])) hq
        have hsplit := lineBody_split p hs
        have hitems : readItems false true (getlines ',' (trim (lineBody p)) []) 0 (List.replicate dim 0) 0 cl =
            .ok (p.2.map (fun k : Int => (k : ℚ)), (c : ℚ), cl1) := by
          generalize getlines ',' (trim (lineBody p)) [] = items at hsplit
          cases items with
          | nil => simp [fields] at hsplit
          | cons it items =>
            obtain ⟨item, eof⟩ := it
            simp only [List.map_cons, fields, List.cons.injEq] at hsplit
            obtain ⟨rfl, hrest⟩ := hsplit
            simp only [readItems, Bool.false_eq_true, if_false, ne_eq, not_true_eq_false, decide_false, if_true, hc,
              Res_bind_ok]
            have hf := (List.forall₂_cons.1 (fields_numeral p hs)).2
            rw [← hrest] at hf
            have := readItems_fields true p.2 items [] (List.replicate dim 0) c cl1 hf (by simp [hd])
            simpa using this
        simp only [List.map_cons, readLines, hitems, Res_bind_ok, ih, Res_pure, loadedPoints]

theorem readLines_regression (dim : Nat) (cl : Classes) : ∀ (ps : List (Int × List Int)) (n : Nat),
    (∀ p ∈ ps, Small p ∧ p.2.length = dim) →
    readLines false false ',' dim (ps.map lineBody) n cl =
      .ok (loadedPoints n ps (ps.map (fun p => (p.1 : ℚ))), cl)
  | [], n, _ => by simp [readLines, loadedPoints]
  | p :: ps, n, hp => by
    obtain ⟨hs, hd⟩ := hp p (by simp)
    have ih := readLines_regression dim cl ps (n + 1) (fun x hx => hp x (by simp [hx]))
    have hsplit := lineBody_split p hs
    have hitems : readItems false false (getlines ',' (trim (lineBody p)) []) 0 (List.replicate dim 0) 0 cl =
        .ok (p.2.map (fun k : Int => (k : ℚ)), (p.1 : ℚ), cl) := by
      generalize getlines ',' (trim (lineBody p)) [] = items at hsplit
      cases items with
      | nil => simp [fields] at hsplit
      | cons it items =>
        obtain ⟨item, eof⟩ := it
        simp only [List.map_cons, fields, List.cons.injEq] at hsplit
        obtain ⟨rfl, hrest⟩ := hsplit
        obtain ⟨hf1, hf⟩ := List.forall₂_cons.1 (fields_numeral p hs)
        simp only [readItems, Bool.false_eq_true, if_false, ne_eq, not_true_eq_false, decide_false,
          atod_numeral hf1]
        rw [← hrest] at hf
        have := readItems_fields false p.2 items [] (List.replicate dim 0) (p.1 : ℚ) cl hf (by simp [hd])
        simpa using this
    simp only [List.map_cons, readLines, hitems, Res_bind_ok, ih, Res_pure, loadedPoints]

theorem loadCsv_written (cls : Bool) (ps : List (Int × List Int)) (dim : Nat) (hne : ps ≠ []) (hd : dim ≠ 0)
    (hp : ∀ p ∈ ps, Small p ∧ p.2.length = dim) (pts : List LPt) (cl : Classes)
    (hr : readLines false cls ',' dim (ps.map lineBody) 0 Classes.none = .ok (pts, cl)) :
    loadCsv false cls (writeCsv ps) =
      .ok (some ⟨pts, dim, (List.range dim).map (· + 1), cl⟩) := by
  have hnn : ∀ p ∈ ps, p.2 ≠ [] := by
    intro p hp' h
    have := (hp p hp').2
    rw [h] at this
    exact hd (by simpa using this.symm)
  have hlines : (getlines '\n' (writeCsv ps) []).map Prod.fst = ps.map lineBody := by
    have hw : writeCsv ps = ((ps.map lineBody).map (fun l => l ++ ['\n'])).flatten := by
      rw [writeCsv, List.map_map]
      congr 1
      exact List.map_congr_left (fun p hp' => writeLine_eq p (hnn p hp'))
    rw [hw]
    apply getlines_lines
    intro l hl
    obtain ⟨p, hp', rfl⟩ := List.mem_map.1 hl
    intro hc
    have := lineBody_noSpace p (hp p hp').1 _ hc
    exact absurd this (by decide)
  have hdelim : fileDelim (ps.map lineBody) = ',' := by
    cases ps with
    | nil => exact absurd rfl hne
    | cons p ps =>
      have hs := (hp p (by simp)).1
      have hn := hnn p (by simp)
      simp only [List.map_cons, fileDelim]
      rw [trim_noSpace _ (lineBody_noSpace p hs)]
      obtain ⟨y, x⟩ := p
      cases x with
      | nil => exact absurd rfl hn
      | cons a x =>
        simp only [lineBody, fields, List.map_cons, intercalate_cons₂]
        apply guessDelim_comma
        intro c hc
        rcases (numeral_chars (showDouble_numeral _ hs.1)).2 c hc with rfl | h
        · decide
        · rintro rfl; exact absurd h (by decide)
  simp only [loadCsv, hlines, hdelim]
  rw [firstPass_const ',' dim (ps.map lineBody) 0 0 (Or.inl rfl) (by
    intro l hl
    obtain ⟨p, hp', rfl⟩ := List.mem_map.1 hl
    have := congrArg List.length (lineBody_split p (hp p hp').1)
    rw [List.length_map] at this
    rw [this]
    simp [fields, (hp p hp').2])]
  rw [if_neg (by simpa using hne)]
  simp only
  rw [if_neg (by omega), Int.toNat_natCast, hr, Res_bind_ok]
  rfl

end MLTK.Text
