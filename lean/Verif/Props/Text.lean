import Verif.Lemmas.Text
/-!
# Text: tokens, numbers, class names
-/
namespace MLTK.Props
open MLTK.Text MLTK.Spec
open MLTK.Data (Res_bind_ok Res_bind_error Res_pure)

/-! ## C20: tokenizing -/

/-- The tokens are the maximal delimiter-free non-empty pieces of the text, in order. -/
theorem C20_tokens_are_the_pieces (s : List Char) (d : Char) (ts : List (List Char)) :
    Pieces d s ts ↔ ts = tokenize s d :=
  ⟨fun h => pieces_inj h _ (tokenize_pieces s d), fun h => h ▸ tokenize_pieces s d⟩

/-- No token is empty or contains a delimiter. -/
theorem C20_tokens_clean (s : List Char) (d : Char) : ∀ t ∈ tokenize s d, t ≠ [] ∧ d ∉ t :=
  pieces_mem (tokenize_pieces s d)

/-- Joining the tokens gives the text without its delimiters. -/
theorem C20_tokens_join (s : List Char) (d : Char) : (tokenize s d).flatten = s.filter (· ≠ d) :=
  pieces_flatten (tokenize_pieces s d)

example : tokenize "::ab:c::".toList ':' = ["ab".toList, "c".toList] := by decide

/-! ## C21: integers -/

/-- `itos` gives the canonical numeral of every `int` but the least one. -/
theorem C21_itos_canonical (n : Int) (h1 : -2 ^ 31 < n) (h2 : n < 2 ^ 31) (s : List Char) :
    itos n = .ok s ↔ IsNumeral n s := by
  obtain ⟨t, ht, hn⟩ := itos_numeral n h1 h2
  constructor
  · intro h; rw [ht] at h; cases h; exact hn
  · intro h; rw [ht, isNumeral_unique hn h]

/-- `stoin` reads back what `itos` writes. -/
theorem C21_round_trip (n : Int) (h1 : -2 ^ 31 < n) (h2 : n < 2 ^ 31) :
    ∃ s, itos n = .ok s ∧ stoin s = .ok n := by
  obtain ⟨t, ht, hn⟩ := itos_numeral n h1 h2
  exact ⟨t, ht, stoin_numeral n h1 h2 t hn⟩

/-- The least `int` overflows in `itos`. -/
theorem C21_int_min : itos (-2 ^ 31) = .error .overflow := by decide

example : itos (-2147483647) = .ok "-2147483647".toList ∧ stoin "-2147483647".toList = .ok (-2147483647) := by
  decide

/-! ## C22: decimals -/

/-- A decimal without exponent, after white space and followed by anything that does not continue it, is read
as the number it denotes.  Missing from C22: exponents. -/
theorem C22_decimal_partial (ws s rest : List Char) (v : ℚ) (hws : ∀ c ∈ ws, IsBlank c) (hs : Decimal s v)
    (hr : ∀ c, rest.head? = some c → ¬ ('0' ≤ c ∧ c ≤ '9') ∧ c ≠ '.') : atod (ws ++ s ++ rest) = v := by
  refine atod_decimal ws s rest v hws hs (fun c hc => ?_)
  obtain ⟨h1, h2⟩ := hr c hc
  refine ⟨?_, fun h => absurd h h2⟩
  by_contra hd
  apply h1
  simp only [Bool.not_eq_false, isDigit, Bool.and_eq_true, decide_eq_true_eq] at hd
  constructor
  · show ('0' : Char).val ≤ c.val
    rw [UInt32.le_iff_toNat_le]; exact hd.1
  · show c.val ≤ ('9' : Char).val
    rw [UInt32.le_iff_toNat_le]; exact hd.2

/-- The exponent of a number is ignored: `atod` returns the mantissa. -/
theorem C22_exponent_ignored_partial (m e : List Char) (v : ℚ) (hm : Decimal m v) : atod (m ++ 'e' :: e) = v := by
  have := C22_decimal_partial [] m ('e' :: e) v (by simp) hm (by
    intro c hc; simp at hc; subst hc; decide)
  simpa using this

/-- `is_number` accepts "1e3", which denotes 1000, but `atod` reads it as 1. -/
theorem C22_exponent_refuted : ∃ s v, isNumber s = true ∧ Denotes s v ∧ atod s ≠ v := by
  have hd : Decimal ['1'] 1 := ⟨[], 1, [1], [], [], SignText.none, by simp, by simp, by simp, Or.inr ⟨rfl, rfl⟩,
    by decide, by norm_num [digitsValue]⟩
  refine ⟨['1', 'e', '3'], 1000, by decide, Or.inr ⟨['1'], [], 1, 1, [3], hd, SignText.none, by simp, by simp,
    by decide, by norm_num [digitsValue]⟩, ?_⟩
  have h := C22_exponent_ignored_partial ['1'] ['3'] 1 hd
  intro h'
  have : (1 : ℚ) = 1000 := h.symm.trans h'
  norm_num at this

/-- "-12.50" denotes −12.5. -/
example : Decimal "-12.50".toList (-25/2) :=
  ⟨['-'], -1, [1, 2], [5, 0], ['.'], SignText.minus, by decide, by decide, by decide, Or.inl rfl, by decide,
    by norm_num [digitsValue]⟩

/-- Every string a number denotes is accepted by `is_number`. -/
theorem C22_numbers_accepted (s : List Char) (v : ℚ) (h : Denotes s v) : isNumber s = true := by
  have hdig : ∀ (ks : List Nat), (∀ k ∈ ks, k < 10) → ∀ c ∈ ks.map digitChar, isDigit c = true := by
    intro ks hk c hc
    obtain ⟨k, hk', rfl⟩ := List.mem_map.1 hc
    exact isDigit_digitChar (hk k hk')
  have hsg : ∀ sg sv, SignText sg sv → ∀ c ∈ sg, c = '-' ∨ c = '+' := by
    intro sg sv h c hc
    cases h <;> simp at hc <;> simp [hc]
  have hdec : ∀ s v, Decimal s v → s ≠ [] ∧ ∀ c ∈ s, isDigit c = true ∨ c = '.' ∨ c = '-' ∨ c = '+' := by
    rintro s v ⟨sg, sv, is, fs, point, h0, h1, h2, h3, h4, rfl, -⟩
    refine ⟨?_, fun c hc => ?_⟩
    · intro h
      apply h3
      have h5 : is.map digitChar = [] ∧ fs.map digitChar = [] := by
        simp only [List.append_eq_nil_iff] at h
        exact ⟨h.1.1.2, h.2⟩
      simpa using h5
    · simp only [List.mem_append] at hc
      rcases hc with ((h | h) | h) | h
      · rcases hsg _ _ h0 c h with h | h <;> simp [h]
      · exact Or.inl (hdig is h1 c h)
      · rcases h4 with rfl | ⟨rfl, -⟩
        · simp at h; simp [h]
        · simp at h
      · exact Or.inl (hdig fs h2 c h)
  have goal : ∀ s : List Char, s ≠ [] →
      (∀ c ∈ s, isDigit c = true ∨ c = '.' ∨ c = '-' ∨ c = '+' ∨ c = 'e') → isNumber s = true := by
    intro s h1 h2
    simp only [isNumber, Bool.and_eq_true, decide_eq_true_eq, List.all_eq_true, Bool.or_eq_true]
    refine ⟨h1, fun c hc => ?_⟩
    rcases h2 c hc with h | h | h | h | h <;> simp [h]
  rcases h with h | ⟨m, sg, mv, sv, es, h1, h2, h3, h4, rfl, -⟩
  · obtain ⟨a, b⟩ := hdec s v h
    exact goal s a (fun c hc => by rcases b c hc with h | h | h | h <;> simp [h])
  · obtain ⟨a, b⟩ := hdec m mv h1
    refine goal _ (by simp) (fun c hc => ?_)
    simp only [List.mem_append] at hc
    rcases hc with ((h | h) | h) | h
    · rcases b c h with h | h | h | h <;> simp [h]
    · simp at h; simp [h]
    · rcases hsg _ _ h2 c h with h | h <;> simp [h]
    · exact Or.inl (hdig es h4 c h)

/-! ## C16: class names -/

/-- A name without white space. -/
def squeeze (s : List Char) : List Char := s.filter (fun c => !isSpace c)

/-- A name with a character that cannot occur in a number. -/
def Textual (s : List Char) : Prop :=
  ∃ c ∈ s, ¬ IsBlank c ∧ ¬ ('0' ≤ c ∧ c ≤ '9') ∧ c ≠ '.' ∧ c ≠ '-' ∧ c ≠ '+' ∧ c ≠ 'e'

theorem textual_squeeze {s : List Char} (h : Textual s) : squeeze s ≠ [] ∧ isNumber (squeeze s) = false := by
  obtain ⟨c, hc, h1, h2, h3, h4, h5, h6⟩ := h
  have hmem : c ∈ squeeze s := by
    simp only [squeeze, List.mem_filter]
    refine ⟨hc, ?_⟩
    cases hs : isSpace c with
    | false => rfl
    | true => exact absurd ((isSpace_iff c).1 hs) h1
  refine ⟨List.ne_nil_of_mem hmem, ?_⟩
  by_contra hn
  simp only [Bool.not_eq_false, isNumber, Bool.and_eq_true, decide_eq_true_eq, List.all_eq_true, Bool.or_eq_true] at hn
  rcases hn.2 c hmem with (((h | h) | h) | h) | h
  · apply h2
    simp only [isDigit, Bool.and_eq_true, decide_eq_true_eq] at h
    constructor
    · show ('0' : Char).val ≤ c.val
      rw [UInt32.le_iff_toNat_le]; exact h.1
    · show c.val ≤ ('9' : Char).val
      rw [UInt32.le_iff_toNat_le]; exact h.2
  · exact h3 h
  · exact h4 h
  · exact h5 h
  · exact h6 h

theorem findIdx_append_mem {α : Type} [DecidableEq α] (l m : List α) (a : α) (h : a ∈ l) :
    (l ++ m).findIdx (fun x => decide (x = a)) = l.findIdx (fun x => decide (x = a)) := by
  induction l with
  | nil => simp at h
  | cons b l ih =>
    by_cases hb : b = a
    · simp [List.findIdx_cons, hb]
    · have : a ∈ l := by
        rcases List.mem_cons.1 h with h | h
        · exact absurd h.symm hb
        · exact h
      simp [List.findIdx_cons, hb, ih this]

/-- Labels of textual names: one plus the place of the name among the names collected at the end. -/
theorem processAll_text : ∀ (ss : List (List Char)) (st : Classes), (∀ s ∈ ss, Textual s) →
    (∀ t ∈ st.names, isNumber t = false ∧ ∀ c ∈ t, isSpace c = false) →
    ∃ st' ext, processAll st ss = .ok (st',
        ss.map (fun s => (st'.names.findIdx (fun x => decide (x = squeeze s)) : Int) + 1)) ∧
      st'.names = st.names ++ ext ∧ ∀ s ∈ ss, squeeze s ∈ st'.names := by
  intro ss
  induction ss with
  | nil => intro st _ _; exact ⟨st, [], rfl, by simp, by simp⟩
  | cons s ss ih =>
    intro st hs hn
    obtain ⟨h1, h2⟩ := textual_squeeze (hs s (by simp))
    have hp := processClass_text st s h1 h2 hn
    simp only at hp
    have hsq : s.filter (fun c => !isSpace c) = squeeze s := rfl
    rw [hsq] at hp
    generalize hN : (if s ∈ st.names then st.names else st.names ++ [squeeze s]) = N at hp
    have hmem : squeeze s ∈ N := by
      rw [← hN]
      by_cases h : s ∈ st.names
      · rw [if_pos h]
        have : squeeze s = s := filter_noSpace (hn s h).2
        rw [this]; exact h
      · rw [if_neg h]; simp
    obtain ⟨ext1, he1⟩ : ∃ e, N = st.names ++ e := by
      rw [← hN]
      by_cases h : s ∈ st.names
      · exact ⟨[], by rw [if_pos h]; simp⟩
      · exact ⟨[squeeze s], by rw [if_neg h]⟩
    have hN' : ∀ t ∈ N, isNumber t = false ∧ ∀ c ∈ t, isSpace c = false := by
      intro t ht
      rw [← hN] at ht
      by_cases h : s ∈ st.names
      · rw [if_pos h] at ht; exact hn t ht
      · rw [if_neg h] at ht
        rcases List.mem_append.1 ht with ht | ht
        · exact hn t ht
        · simp only [List.mem_singleton] at ht
          subst ht
          exact ⟨h2, fun c hc => by simp [squeeze] at hc; exact hc.2⟩
    obtain ⟨st', ext, e1, e2, e3⟩ := ih (record st N (((N.findIdx (fun x => decide (x = squeeze s)) : Nat) : Int) + 1))
      (fun x hx => hs x (by simp [hx])) hN'
    have hnm : (record st N (((N.findIdx (fun x => decide (x = squeeze s)) : Nat) : Int) + 1)).names = N := rfl
    rw [hnm] at e2
    refine ⟨st', ext1 ++ ext, ?_, by rw [e2, he1, List.append_assoc], ?_⟩
    · simp only [processAll, hp, Res_bind_ok, e1, Res_pure, List.map_cons]
      rw [e2, findIdx_append_mem _ _ _ hmem]
    · intro t ht
      rcases List.mem_cons.1 ht with rfl | ht
      · rw [e2]; exact List.mem_append_left _ hmem
      · exact e3 t ht

/-- If every class name is textual, equal names (up to white space) get equal labels and different names different
labels.  Missing from C16: numbers among the names. -/
theorem C16_text_names_partial (names : List (List Char)) (h : ∀ s ∈ names, Textual s) :
    ∃ st labels, processAll Classes.none names = .ok (st, labels) ∧ Faithful (names.map squeeze) labels := by
  obtain ⟨st, ext, h1, -, h3⟩ := processAll_text names Classes.none h (by simp [Classes.none])
  refine ⟨st, _, h1, by simp, fun i j hi hj => ?_⟩
  simp only [List.length_map] at hi hj
  simp only [List.getElem?_map, List.getElem?_eq_getElem hi, List.getElem?_eq_getElem hj, Option.map_some,
    Option.some.injEq]
  constructor
  · intro he; rw [he]
  · intro he
    have h4 := h3 _ (List.getElem_mem hi)
    have h5 := h3 _ (List.getElem_mem hj)
    have he' : st.names.findIdx (fun x => decide (x = squeeze names[i])) =
        st.names.findIdx (fun x => decide (x = squeeze names[j])) := by omega
    have key : ∀ a ∈ st.names, st.names[st.names.findIdx (fun x => decide (x = a))]? = some a := by
      intro a ha
      have hlt : st.names.findIdx (fun x => decide (x = a)) < st.names.length :=
        List.findIdx_lt_length_of_exists ⟨a, ha, by simp⟩
      rw [List.getElem?_eq_getElem hlt]
      have := List.findIdx_getElem (w := hlt) (p := fun x => decide (x = a))
      simpa using this
    have := key _ h4
    rw [he', key _ h5] at this
    simpa using this.symm

/-- "Every name other than 1 and −1 that occurs after a −1 has occurred before." -/
def NoLateNames (ks : List Int) : Prop :=
  ∀ i, i < ks.length → (∃ j, j < i ∧ ks[j]? = some (-1)) →
    ks[i]? = some 1 ∨ ks[i]? = some (-1) ∨ ∃ j, j < i ∧ ks[j]? = ks[i]?

/-- The same with the names already seen. -/
def lateFree : List Int → List Int → Prop
  | _, [] => True
  | seen, k :: ks => (-1 ∈ seen → k = 1 ∨ k = -1 ∨ k ∈ seen) ∧ lateFree (seen ++ [k]) ks

theorem lateFree_iff : ∀ (ks seen : List Int), lateFree seen ks ↔
    ∀ i, seen.length ≤ i → i < (seen ++ ks).length → (∃ j, j < i ∧ (seen ++ ks)[j]? = some (-1)) →
    (seen ++ ks)[i]? = some 1 ∨ (seen ++ ks)[i]? = some (-1) ∨ ∃ j, j < i ∧ (seen ++ ks)[j]? = (seen ++ ks)[i]? := by
  intro ks
  induction ks with
  | nil => intro seen; simp only [lateFree, true_iff]; intro i h1 h2; simp at h2; omega
  | cons k ks ih =>
    intro seen
    have happ : seen ++ k :: ks = (seen ++ [k]) ++ ks := by simp
    have hmem : ∀ a : Int, (∃ j, j < seen.length ∧ (seen ++ k :: ks)[j]? = some a) ↔ a ∈ seen := by
      intro a
      rw [List.mem_iff_getElem?]
      constructor
      · rintro ⟨j, h1, h2⟩
        rw [List.getElem?_append_left h1] at h2
        exact ⟨j, h2⟩
      · rintro ⟨j, h2⟩
        have h1 : j < seen.length := by
          by_contra h
          rw [List.getElem?_eq_none (by omega)] at h2
          simp at h2
        exact ⟨j, h1, by rw [List.getElem?_append_left h1]; exact h2⟩
    have hk : (seen ++ k :: ks)[seen.length]? = some k := by simp
    simp only [lateFree, ih (seen ++ [k])]
    rw [← happ]
    constructor
    · rintro ⟨h1, h2⟩ i hi hi2 hj
      rcases Nat.eq_or_lt_of_le hi with rfl | hlt
      · rw [hk, hmem]
        rw [hmem] at hj
        rcases h1 hj with h | h | h
        · simp [h]
        · simp [h]
        · exact Or.inr (Or.inr h)
      · exact h2 i (by simp; omega) hi2 hj
    · intro h
      refine ⟨fun hm => ?_, fun i hi hi2 hj => h i (by simp at hi; omega) hi2 hj⟩
      have := h seen.length le_rfl (by simp) ((hmem _).2 hm)
      rw [hk, hmem] at this
      simpa using this

theorem processAll_ints : ∀ (ks : List Int) (ss : List (List Char)) (st : Classes) (seen : List Int),
    List.Forall₂ IsNumeral ks ss → (∀ k ∈ ks, -2 ^ 31 ≤ k ∧ k < 2 ^ 31) →
    (∀ k s, IsNumeral k s → (s ∈ st.names ↔ k ∈ seen)) →
    ∃ st' labels, processAll st ss = .ok (st', labels) ∧ labels.length = ks.length ∧
      (labels = ks ↔ lateFree seen ks) := by
  intro ks
  induction ks with
  | nil =>
    intro ss st seen hf _ _
    cases hf
    exact ⟨st, [], rfl, rfl, by simp [lateFree]⟩
  | cons k ks ih =>
    intro ss st seen hf hr hinv
    cases hf with
    | @cons _ s _ ss' hs hss =>
      obtain ⟨r1, r2⟩ := hr k (by simp)
      have hp := processClass_numeral st s k hs r1 r2
      simp only at hp
      have hin := hinv k s hs
      have hm := hinv (-1) _ numeral_mone
      simp only [hin, hm] at hp
      generalize hc : (if k ∈ seen then k else if k = -1 then -1 else if -1 ∈ seen then 1 else k) = c at hp
      obtain ⟨st', labels, e1, e2, e3⟩ := ih ss'
        (record st (if k ∈ seen then st.names else st.names ++ [s]) c) (seen ++ [k]) hss
        (fun x hx => hr x (by simp [hx])) (by
          intro k' s' hs'
          show s' ∈ (if k ∈ seen then st.names else st.names ++ [s]) ↔ _
          have h1 := hinv k' s' hs'
          have h2 : s' = s ↔ k' = k :=
            ⟨fun h => isNumeral_inj hs' (h ▸ hs), fun h => isNumeral_unique hs' (h ▸ hs)⟩
          by_cases h : k ∈ seen
          · rw [if_pos h, h1]
            simp only [List.mem_append, List.mem_singleton]
            constructor
            · exact Or.inl
            · rintro (h3 | rfl)
              · exact h3
              · exact h
          · rw [if_neg h]
            simp only [List.mem_append, List.mem_singleton, h1, h2])
      refine ⟨st', c :: labels, ?_, by simp [e2], ?_⟩
      · simp only [processAll, hp, Res_bind_ok, e1, Res_pure]
      · simp only [List.cons.injEq, lateFree, e3]
        refine and_congr ?_ Iff.rfl
        rw [← hc]
        by_cases h1 : k ∈ seen
        · simp [h1]
        · by_cases h2 : k = -1
          · simp [h2]
          · by_cases h3 : -1 ∈ seen
            · simp [h1, h2, h3, eq_comm]
            · simp [h1, h2, h3]

/-- If every class name is an integer numeral, the labels are these integers exactly when no name other than 1 and −1
appears for the first time after a −1.  Missing from C16: other sequences, where the labels differ from the names
(see the refutations). -/
theorem C16_integer_names_partial (ks : List Int) (names : List (List Char)) (h : List.Forall₂ IsNumeral ks names)
    (hr : ∀ k ∈ ks, -2 ^ 31 ≤ k ∧ k < 2 ^ 31) :
    ∃ st labels, processAll Classes.none names = .ok (st, labels) ∧ (labels = ks ↔ NoLateNames ks) := by
  obtain ⟨st, labels, h1, -, h3⟩ := processAll_ints ks names Classes.none [] h hr (by simp [Classes.none])
  refine ⟨st, labels, h1, h3.trans ?_⟩
  rw [lateFree_iff]
  simp only [List.nil_append, List.length_nil, Nat.zero_le, true_imp_iff, NoLateNames]

/-- For integer names without late names, labels are faithful. -/
theorem C16_integer_faithful_partial (ks : List Int) (names : List (List Char)) (h : List.Forall₂ IsNumeral ks names)
    (hr : ∀ k ∈ ks, -2 ^ 31 ≤ k ∧ k < 2 ^ 31) (hl : NoLateNames ks) :
    ∃ st labels, processAll Classes.none names = .ok (st, labels) ∧ Faithful names labels := by
  obtain ⟨st, labels, h1, h2⟩ := C16_integer_names_partial ks names h hr
  have h3 := h2.2 hl
  subst h3
  refine ⟨st, labels, h1, h.length_eq.symm, fun i j hi hj => ?_⟩
  have hi' : i < labels.length := by rw [h.length_eq]; exact hi
  have hj' : j < labels.length := by rw [h.length_eq]; exact hj
  have h4 := h.get hi' hi
  have h5 := h.get hj' hj
  simp only [List.get_eq_getElem] at h4 h5
  simp only [List.getElem?_eq_getElem hi, List.getElem?_eq_getElem hj, List.getElem?_eq_getElem hi',
    List.getElem?_eq_getElem hj', Option.some.injEq]
  exact ⟨fun he => isNumeral_inj h4 (he ▸ h5), fun he => isNumeral_unique h4 (he ▸ h5)⟩

/-- "−1", "2", "2": the same name gets two labels. -/
theorem C16_equal_names_refuted : ∃ names st labels, processAll Classes.none names = .ok (st, labels) ∧
    ∃ i j, i < names.length ∧ j < names.length ∧ names[i]? = names[j]? ∧ labels[i]? ≠ labels[j]? :=
  ⟨[['-', '1'], ['2'], ['2']], ⟨[['-', '1'], ['2']], [-1, 1, 2], [1, 1, 1]⟩, [-1, 1, 2], by decide,
    1, 2, by decide, by decide, by decide, by decide⟩

/-- "cat", "1": different names get the same label. -/
theorem C16_different_names_refuted : ∃ names st labels, processAll Classes.none names = .ok (st, labels) ∧
    ∃ i j, i < names.length ∧ j < names.length ∧ names[i]? ≠ names[j]? ∧ labels[i]? = labels[j]? :=
  ⟨[['c', 'a', 't'], ['1']], ⟨[['c', 'a', 't'], ['1']], [1], [2]⟩, [1, 1], by decide,
    0, 1, by decide, by decide, by decide, by decide⟩

/-- "1.2", "1.7": different numbers get the same label. -/
theorem C16_fractional_names_refuted : ∃ names st labels, processAll Classes.none names = .ok (st, labels) ∧
    ∃ i j, i < names.length ∧ j < names.length ∧ names[i]? ≠ names[j]? ∧ labels[i]? = labels[j]? :=
  ⟨[['1', '.', '2'], ['1', '.', '7']], ⟨[['1', '.', '2'], ['1', '.', '7']], [1], [2]⟩, [1, 1], by decide,
    0, 1, by decide, by decide, by decide, by decide⟩

example : ∀ s ∈ ["Iris setosa".toList, "virginica".toList], Textual s := by
  intro s hs
  simp only [List.mem_cons, List.not_mem_nil, or_false] at hs
  rcases hs with rfl | rfl
  · exact ⟨'I', by decide, by unfold IsBlank; decide⟩
  · exact ⟨'v', by decide, by unfold IsBlank; decide⟩

example : NoLateNames [2, -1, 1, 2, -1] := by
  have := (lateFree_iff [2, -1, 1, 2, -1] []).1 (by simp [lateFree])
  intro i hi hj
  exact this i (Nat.zero_le _) hi hj

/-! ## C74: class counts while loading -/

theorem findIdx_mem_get {α : Type} [DecidableEq α] {l : List α} {a : α} (h : a ∈ l) :
    l[l.findIdx (fun x => decide (x = a))]? = some a := by
  have hlt : l.findIdx (fun x => decide (x = a)) < l.length := List.findIdx_lt_length_of_exists ⟨a, h, by simp⟩
  rw [List.getElem?_eq_getElem hlt]
  have := List.findIdx_getElem (w := hlt) (p := fun x => decide (x = a))
  simpa using this

/-- The counts of a class table agree with the labels `cs` given so far. -/
def Counts (st : Classes) (cs : List Int) : Prop :=
  st.labels.Nodup ∧ st.dist = st.labels.map (fun c => cs.count c) ∧ ∀ c, c ∈ st.labels ↔ c ∈ cs

theorem counts_record {st : Classes} {cs : List Int} (h : Counts st cs) (names : List (List Char)) (c : Int) :
    Counts (record st names c) (cs ++ [c]) := by
  obtain ⟨h1, h2, h3⟩ := h
  have hcount : ∀ (L : List Int), L.Nodup → c ∈ L → (L.map (fun x => cs.count x)).set (L.findIdx (fun x => decide (x = c)))
      ((L.map (fun x => cs.count x)).getD (L.findIdx (fun x => decide (x = c))) 0 + 1) =
      L.map (fun x => (cs ++ [c]).count x) := by
    intro L hnd hc
    have hg := findIdx_mem_get hc
    apply List.ext_getElem?
    intro i
    rw [List.getElem?_set]
    simp only [List.getD_eq_getElem?_getD, List.getElem?_map, hg, Option.map_some, Option.getD_some, List.length_map]
    by_cases hi : L.findIdx (fun x => decide (x = c)) = i
    · rw [if_pos hi]
      rw [hi] at hg
      have hlt : i < L.length := by
        by_contra hh
        rw [List.getElem?_eq_none (by omega)] at hg
        simp at hg
      rw [hg, hi, if_pos hlt]
      simp
    · rw [if_neg hi]
      cases hL : L[i]? with
      | none => rfl
      | some x =>
        have hx : x ≠ c := by
          rintro rfl
          apply hi
          have hlt1 : L.findIdx (fun y => decide (y = x)) < L.length :=
            List.findIdx_lt_length_of_exists ⟨x, hc, by simp⟩
          exact (List.nodup_iff_injective_getElem.1 hnd |> fun inj => by
            have hlt2 : i < L.length := by
              by_contra hh
              rw [List.getElem?_eq_none (by omega)] at hL
              simp at hL
            have e : L[L.findIdx (fun y => decide (y = x))] = L[i] := by
              rw [List.getElem?_eq_getElem hlt1] at hg
              rw [List.getElem?_eq_getElem hlt2] at hL
              simp only [Option.some.injEq] at hg hL
              rw [hg, hL]
            have := @inj ⟨_, hlt1⟩ ⟨i, hlt2⟩ e
            simpa using this)
        simp [List.count_append, List.count_singleton, Ne.symm hx]
  by_cases hin : c ∈ st.labels
  · refine ⟨by simpa [record, hin] using h1, ?_, ?_⟩
    · simp only [record, hin, if_true, h2]
      exact hcount st.labels h1 hin
    · intro x
      simp only [record, hin, if_true, List.mem_append, List.mem_singleton, ← h3]
      constructor
      · exact Or.inl
      · rintro (h | rfl)
        · exact h
        · exact hin
  · have hnd : (st.labels ++ [c]).Nodup := by
      rw [List.nodup_append]
      refine ⟨h1, by simp, ?_⟩
      intro a ha b hb
      simp only [List.mem_singleton] at hb
      rintro rfl
      exact hin (hb ▸ ha)
    refine ⟨by simpa [record, hin] using hnd, ?_, ?_⟩
    · simp only [record, hin, if_false, h2]
      have h0 : cs.count c = 0 := List.count_eq_zero.2 (fun h => hin ((h3 c).2 h))
      have := hcount (st.labels ++ [c]) hnd (by simp)
      rw [List.map_append, List.map_singleton, h0] at this
      exact this
    · intro x
      simp only [record, hin, if_false, List.mem_append, List.mem_singleton, ← h3]

theorem processAll_counts : ∀ (ss : List (List Char)) (st st' : Classes) (cs0 labels : List Int),
    (∀ s ∈ ss, squeeze s ≠ []) → Counts st cs0 → processAll st ss = .ok (st', labels) → Counts st' (cs0 ++ labels) := by
  intro ss
  induction ss with
  | nil =>
    intro st st' cs0 labels _ h hr
    simp only [processAll, Res_pure, Except.ok.injEq, Prod.mk.injEq] at hr
    obtain ⟨rfl, rfl⟩ := hr
    simpa using h
  | cons s ss ih =>
    intro st st' cs0 labels hs h hr
    simp only [processAll] at hr
    cases hp : processClass st s with
    | error e => rw [hp] at hr; simp at hr
    | ok p =>
      obtain ⟨st1, c⟩ := p
      rw [hp, Res_bind_ok] at hr
      simp only at hr
      cases hq : processAll st1 ss with
      | error e => rw [hq] at hr; simp at hr
      | ok q =>
        obtain ⟨st2, cs⟩ := q
        rw [hq] at hr
        simp only [Res_bind_ok, Res_pure, Except.ok.injEq, Prod.mk.injEq] at hr
        obtain ⟨rfl, rfl⟩ := hr
        have h1 : Counts st1 (cs0 ++ [c]) := by
          rcases processClass_inv hp with ⟨h', -, -⟩ | ⟨-, names, rfl⟩
          · exact absurd h' (hs s (by simp))
          · exact counts_record h names c
        have := ih st1 st2 (cs0 ++ [c]) cs (fun x hx => hs x (by simp [hx])) h1 hq
        simpa using this

/-- After loading class names none of which is blank, the class list holds each label given exactly once, and the
class distribution counts how many samples got each label. -/
theorem C74_distribution_counts_partial (names : List (List Char)) (st : Classes) (labels : List Int)
    (hb : ∀ s ∈ names, ∃ c ∈ s, ¬ IsBlank c) (h : processAll Classes.none names = .ok (st, labels)) :
    st.labels.Nodup ∧ (∀ c, c ∈ st.labels ↔ c ∈ labels) ∧ st.dist = st.labels.map (fun c => labels.count c) := by
  have := processAll_counts names Classes.none st [] labels (fun s hs => by
    obtain ⟨c, hc, hn⟩ := hb s hs
    refine List.ne_nil_of_mem (a := c) ?_
    simp only [squeeze, List.mem_filter]
    refine ⟨hc, ?_⟩
    cases hsp : isSpace c with
    | false => rfl
    | true => exact absurd ((isSpace_iff c).1 hsp) hn)
    ⟨by simp [Classes.none], by simp [Classes.none], by simp [Classes.none]⟩ h
  obtain ⟨a, b, c⟩ := this
  exact ⟨a, by simpa using c, by simpa using b⟩

/-- A blank class name is labelled 0 without being counted. -/
theorem C74_blank_name_refuted : ∃ names st labels, processAll Classes.none names = .ok (st, labels) ∧
    0 ∈ labels ∧ 0 ∉ st.labels :=
  ⟨[['a'], [' ']], ⟨[['a']], [1], [1]⟩, [1, 0], by decide, by decide, by decide⟩

example : processAll Classes.none ["a".toList, "b".toList, "a".toList] =
    .ok (⟨["a".toList, "b".toList], [1, 2], [2, 1]⟩, [1, 2, 1]) := by decide

end MLTK.Props
