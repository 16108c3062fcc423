import Verif.Model.Crash
import Verif.Lemmas.Crash
import Verif.Props.Csv
/-!
# C249: a program that stops while it writes a file
-/
namespace MLTK.Props
open MLTK.Text MLTK.Spec
open MLTK.Data (Res_bind_ok Res_bind_error Res_pure)

private theorem writeCsv_lines (ps : List (Int × List Int)) (h : ∀ p ∈ ps, p.2 ≠ []) :
    writeCsv ps = ((ps.map lineBody).map (fun l => l ++ ['\n'])).flatten := by
  rw [writeCsv, List.map_map]
  congr 1
  exact List.map_congr_left (fun p hp => writeLine_eq p (h p hp))

private theorem lineBody_noEnd (p : Int × List Int) (h : Small p) : '\n' ∉ lineBody p := fun hc =>
  absurd (lineBody_noSpace p h _ hc) (by decide)

private theorem count_writeCsv : ∀ (ps : List (Int × List Int)), (∀ p ∈ ps, p.2 ≠ [] ∧ Small p) → (writeCsv ps).count '\n' = ps.length
  | [], _ => rfl
  | p :: ps, h => by
    have e : writeCsv (p :: ps) = writeLine p ++ writeCsv ps := by simp [writeCsv]
    rw [e, writeLine_eq p (h p (by simp)).1, List.count_append, List.count_append,
      List.count_eq_zero_of_not_mem (lineBody_noEnd p (h p (by simp)).2), count_writeCsv ps (fun q hq => h q (by simp [hq]))]
    simp [Nat.add_comm]

private theorem delim_lines (p : Int × List Int) (hs : Small p) (hn : p.2 ≠ []) (rest : List (List Char)) :
    fileDelim (lineBody p :: rest) = ',' := by
  simp only [fileDelim]
  rw [trim_noSpace _ (lineBody_noSpace p hs)]
  obtain ⟨y, x⟩ := p
  cases x with
  | nil => exact absurd rfl hn
  | cons a x =>
    simp only [lineBody, fields, List.map_cons, intercalate_cons₂]
    apply guessDelim_comma
    intro c hc
    rcases (numeral_chars (showDouble_numeral _ hs.1)).2 c hc with rfl | h
    · decide
    · rintro rfl; exact absurd h (by decide)

private theorem pieces_count (p : Int × List Int) (hs : Small p) : (getlines ',' (trim (lineBody p)) []).length = p.2.length + 1 := by
  have := congrArg List.length (lineBody_split p hs)
  rw [List.length_map] at this
  rw [this]
  simp [fields]

private theorem firstPass_start (n : Nat) (a : List Char) (ls : List (List Char)) (ha : (getlines ',' (trim a) []).length = n + 1) :
    firstPass ',' (a :: ls) 0 0 = firstPass ',' ls n 1 := by
  have e : ((getlines ',' (trim a) []).length : Int) - 1 = n := by rw [ha]; push_cast; ring
  simp only [firstPass, e]
  rw [if_neg (by simp)]

private theorem tdiv_small (x : Int) (j : Nat) (h : x.natAbs < 10 ^ 6) : (x.tdiv (10 ^ j)).natAbs < 10 ^ 6 := by
  rw [Int.natAbs_tdiv]
  exact lt_of_le_of_lt (Nat.div_le_self _ _) h

/-- How the items of a line are read, when its label is the one of `p` and its features are read as these numbers. -/
private theorem items_read (cls : Bool) (label : List Char) (ks : List Int) (texts : List (List Char))
    (items items' : List (List Char × Bool)) (texts' : List (List Char)) (dim : Nat) (hd : ks.length = dim)
    (hi : items.map Prod.fst = label :: texts) (hi' : items'.map Prod.fst = label :: texts')
    (h : List.Forall₂ (fun (k : Int) t => isNumber t = true ∧ atod t = (k : ℚ)) ks texts)
    (h' : List.Forall₂ (fun (k : Int) t => isNumber t = true ∧ atod t = (k : ℚ)) ks texts') (cl : Classes) :
    readItems false cls items 0 (List.replicate dim 0) 0 cl = readItems false cls items' 0 (List.replicate dim 0) 0 cl := by
  rcases items with - | ⟨⟨i, e⟩, items⟩
  · simp at hi
  rcases items' with - | ⟨⟨i', e'⟩, items'⟩
  · simp at hi'
  simp only [List.map_cons, List.cons.injEq] at hi hi'
  obtain ⟨rfl, rfl⟩ := hi
  obtain ⟨rfl, rfl⟩ := hi'
  have r := fun y cl => readItems_reads cls ks items [] (List.replicate dim 0) y cl h (by simp [hd])
  have r' := fun y cl => readItems_reads cls ks items' [] (List.replicate dim 0) y cl h' (by simp [hd])
  simp only [List.length_nil, Nat.zero_add, List.nil_append] at r r'
  simp only [readItems, Bool.false_eq_true, if_false, ne_eq, not_true_eq_false, decide_false, Nat.zero_add, r, r']

/-- What a file is read as that holds whole lines (at least one) and the beginning of another. -/
private theorem load_cut (cls : Bool) (dim : Nat) (hd : dim ≠ 0) (pre : List (Int × List Int)) (y : Int) (xs : List Int) (x : Int)
    (t : List Char) (hpre : pre ≠ []) (hp : ∀ p ∈ pre ++ [(y, xs ++ [x])], Small p ∧ p.2.length = dim)
    (ht : t <+: lineBody (y, xs ++ [x])) (hne : t ≠ []) :
    loadCsv false cls (writeCsv pre ++ t) = .ok none ∨
    ∃ j : Nat, loadCsv false cls (writeCsv pre ++ t) = loadCsv false cls (writeCsv (pre ++ [(y, xs ++ [x.tdiv (10 ^ j)])])) := by
  have hp1 : ∀ p ∈ pre, Small p ∧ p.2.length = dim := fun p h => hp p (List.mem_append_left _ h)
  obtain ⟨hs, hl⟩ := hp (y, xs ++ [x]) (by simp)
  have nonempty : ∀ p : Int × List Int, p.2.length = dim → p.2 ≠ [] := by
    intro p h h0; rw [h0] at h; exact hd (by simpa using h.symm)
  have hnt : '\n' ∉ t := fun hc => lineBody_noEnd _ hs (ht.subset hc)
  have hnl : ∀ l ∈ pre.map lineBody, '\n' ∉ l := by
    intro l hl'
    obtain ⟨p, hp', rfl⟩ := List.mem_map.1 hl'
    exact lineBody_noEnd p (hp1 p hp').1
  have hlines : (getlines '\n' (writeCsv pre ++ t) []).map Prod.fst = pre.map lineBody ++ [t] := by
    rw [writeCsv_lines pre (fun p h => nonempty p (hp1 p h).2)]
    exact getlines_cut '\n' t hnt hne _ hnl
  have htrim : trim t = t := trim_noSpace t (fun c hc => lineBody_noSpace _ hs c (ht.subset hc))
  have hcount : ∀ a ∈ pre.map lineBody, (getlines ',' (trim a) []).length = dim + 1 := by
    intro a ha
    obtain ⟨p, hp', rfl⟩ := List.mem_map.1 ha
    rw [pieces_count p (hp1 p hp').1, (hp1 p hp').2]
  obtain ⟨p0, pre', rfl⟩ := List.exists_cons_of_ne_nil hpre
  have h0 := hp1 p0 (by simp)
  have hdelim : ∀ rest, fileDelim (lineBody p0 :: rest) = ',' := delim_lines p0 h0.1 (nonempty p0 h0.2)
  have hfields : fields (y, xs ++ [x]) = (showDouble y :: xs.map showDouble) ++ [showDouble x] := by simp [fields]
  have hxs : xs.length + 1 = dim := by simpa using hl
  have hcomma : ∀ s ∈ (showDouble y :: xs.map showDouble) ++ [showDouble x], s ≠ [] ∧ ',' ∉ s := by
    intro s hs'
    rw [← hfields] at hs'
    refine ⟨(fields_chars _ hs s hs').1, fun hc => ?_⟩
    rcases (fields_chars _ hs s hs').2 ',' hc with h | h <;> exact absurd h (by decide)
  have hbody : lineBody (y, xs ++ [x]) = List.intercalate [','] ((showDouble y :: xs.map showDouble) ++ [showDouble x]) := by
    rw [lineBody, hfields]
  rw [hbody] at ht
  rcases cut_line ',' _ _ t hcomma ht with hlt | ⟨u, hu0, hu, htu⟩
  · left
    simp only [loadCsv, hlines, List.map_cons, List.cons_append, hdelim]
    rw [firstPass_start dim _ _ (hcount _ (by simp)),
      firstPass_refused dim hd t (by rw [htrim]; simp only [List.length_cons, List.length_map] at hlt; omega) _ 1
        (fun a ha => hcount a (by simp only [List.map_cons, List.mem_cons]; exact Or.inr ha))]
    rfl
  · right
    obtain ⟨hu1, j, hu2⟩ := cut_numeral (showDouble_numeral x (hs.2 x (by simp))) hu hu0
    refine ⟨j, ?_⟩
    have hs' : Small (y, xs ++ [x.tdiv (10 ^ j)]) := by
      refine ⟨hs.1, fun v hv => ?_⟩
      rcases List.mem_append.1 hv with h | h
      · exact hs.2 v (List.mem_append_left _ h)
      · rw [List.mem_singleton.1 h]
        exact tdiv_small x j (hs.2 x (by simp))
    have hlines' : (getlines '\n' (writeCsv (p0 :: pre' ++ [(y, xs ++ [x.tdiv (10 ^ j)])])) []).map Prod.fst =
        (p0 :: pre').map lineBody ++ [lineBody (y, xs ++ [x.tdiv (10 ^ j)])] := by
      rw [writeCsv_lines _ (by
        intro p h
        rcases List.mem_append.1 h with h | h
        · exact nonempty p (hp1 p h).2
        · rw [List.mem_singleton.1 h]; simp), getlines_lines]
      · simp
      · intro l hl'
        obtain ⟨p, hp', rfl⟩ := List.mem_map.1 hl'
        rcases List.mem_append.1 hp' with h | h
        · exact lineBody_noEnd p (hp1 p h).1
        · rw [List.mem_singleton.1 h]; exact lineBody_noEnd _ hs'
    have hsplit' := lineBody_split _ hs'
    have hsplit : (getlines ',' (trim t) []).map Prod.fst = showDouble y :: (xs.map showDouble ++ [u]) := by
      rw [htrim, htu]
      refine getlines_intercalate ',' _ (fun s h => ?_)
      rcases List.mem_append.1 h with h | h
      · exact hcomma s (List.mem_append_left _ h)
      · rw [List.mem_singleton.1 h]
        exact ⟨hu0, fun hc => (hcomma (showDouble x) (by simp)).2 (hu.subset hc)⟩
    have hfirst : ∀ l : List Char, (getlines ',' (trim l) []).length = dim + 1 →
        firstPass ',' (lineBody p0 :: (pre'.map lineBody ++ [l])) 0 0 = some ((dim : Int), pre'.length + 2) := by
      intro l hl'
      rw [firstPass_const ',' dim _ 0 0 (Or.inl rfl) (by
        intro a ha
        rcases List.mem_cons.1 ha with rfl | ha
        · exact hcount _ (by simp)
        · rcases List.mem_append.1 ha with h | h
          · exact hcount a (by simp only [List.map_cons, List.mem_cons]; exact Or.inr h)
          · rw [List.mem_singleton.1 h]; exact hl')]
      simp
    have hxsr : List.Forall₂ (fun (k : Int) t => isNumber t = true ∧ atod t = (k : ℚ)) xs (xs.map showDouble) := by
      rw [List.forall₂_map_right_iff, List.forall₂_same]
      intro v hv
      have := showDouble_numeral v (hs.2 v (List.mem_append_left _ hv))
      exact ⟨numeral_isNumber this, atod_numeral this⟩
    have hv := showDouble_numeral _ (tdiv_small x j (hs.2 x (by simp)))
    have hread : ∀ cl, readItems false cls (getlines ',' (trim t) []) 0 (List.replicate dim 0) 0 cl =
        readItems false cls (getlines ',' (trim (lineBody (y, xs ++ [x.tdiv (10 ^ j)]))) []) 0 (List.replicate dim 0) 0 cl := by
      intro cl
      refine items_read cls (showDouble y) (xs ++ [x.tdiv (10 ^ j)]) _ _ _ ((xs ++ [x.tdiv (10 ^ j)]).map showDouble) dim
        (by simpa using hxs) hsplit hsplit' ?_ ?_ cl
      · exact List.rel_append hxsr (List.Forall₂.cons ⟨hu1, hu2⟩ List.Forall₂.nil)
      · rw [List.map_append]
        exact List.rel_append hxsr (List.Forall₂.cons ⟨numeral_isNumber hv, atod_numeral hv⟩ List.Forall₂.nil)
    simp only [List.cons_append] at hlines'
    simp only [loadCsv, hlines, List.map_cons, List.cons_append, hdelim, hlines']
    rw [hfirst _ (by
        have := congrArg List.length hsplit
        rw [List.length_map] at this
        rw [this]
        simp; omega),
      hfirst _ (by rw [pieces_count _ hs']; simp; omega)]
    have hr := readLines_last cls dim _ _ hread (lineBody p0 :: pre'.map lineBody) 0 Classes.none
    simp only [List.cons_append] at hr
    simp only [Int.toNat_natCast, hr]

/-- **C249 (partial)** Whatever a file held before: if the program stops while it writes a dataset of integer values below a million in size as
CSV, and at least one line has reached the file, then `load` refuses the file, or does exactly what it would do with a file written to
the end for the first samples of the dataset.  No line that has reached the file is lost, and at most one is added to them.  Only the last feature of
the last sample may differ from what was written: digits at its end may be missing.
Missing from C249: a crash before the first line is complete, and that the loss is noticed (see the refutations). -/
theorem C249_prefix_partial (classification : Bool) (ps : List (Int × List Int)) (dim : Nat) (h : SmallData ps dim)
    (old : Option (List Char)) (k : Nat) (file : List Char) (hf : fileAfterCrash old (writeCsv ps) (.after k) = some file)
    (hk : '\n' ∈ file) :
    loadCsv false classification file = .ok none ∨
    ∃ qs, Beginning ps qs ∧ SmallData qs dim ∧ file.count '\n' ≤ qs.length ∧ qs.length ≤ file.count '\n' + 1 ∧
      loadCsv false classification file = loadCsv false classification (writeCsv qs) := by
  obtain rfl : (writeCsv ps).take k = file := by simpa [fileAfterCrash] using hf
  obtain ⟨h1, h2, h3⟩ := h
  have nonempty : ∀ p : Int × List Int, p.2.length = dim → p.2 ≠ [] := by
    intro p h h0; rw [h0] at h; exact h2 (by simpa using h.symm)
  have hsm : ∀ p ∈ ps, p.2 ≠ [] ∧ Small p := fun p hp => ⟨nonempty p (h3 p hp).1, (h3 p hp).2⟩
  have hlast : ∀ p ∈ ps, ∃ (xs : List Int) (x : Int), p = (p.1, xs ++ [x]) := fun p hp => by
    refine ⟨p.2.dropLast, p.2.getLast (hsm p hp).1, ?_⟩
    rw [List.dropLast_append_getLast]
  have whole : ∀ pre post : List (Int × List Int), ps = pre ++ post → pre ≠ [] →
      ∃ qs, Beginning ps qs ∧ SmallData qs dim ∧ (writeCsv pre).count '\n' ≤ qs.length ∧ qs.length ≤ (writeCsv pre).count '\n' + 1 ∧
        loadCsv false classification (writeCsv pre) = loadCsv false classification (writeCsv qs) := by
    intro pre post e hne
    have hc := count_writeCsv pre (fun p hp => hsm p (by rw [e]; exact List.mem_append_left _ hp))
    refine ⟨pre, ?_, ⟨hne, h2, fun p hp => h3 p (by rw [e]; exact List.mem_append_left _ hp)⟩, by rw [hc], by rw [hc]; omega, rfl⟩
    obtain ⟨xs, x, hx⟩ := hlast (pre.getLast hne) (by rw [e]; exact List.mem_append_left _ (List.getLast_mem hne))
    refine ⟨pre.dropLast, post, (pre.getLast hne).1, xs, x, 0, ?_, ?_⟩
    · rw [← hx, e]
      conv_lhs => rw [← List.dropLast_append_getLast hne]
      simp
    · rw [pow_zero, Int.tdiv_one, ← hx, List.dropLast_append_getLast]
  rcases cut_file ps _ (fun p hp => (hsm p hp).1) (List.take_prefix k (writeCsv ps)) with he | ⟨pre, p, post, t, e, ht, he⟩
  · rw [he]
    exact Or.inr (whole ps [] (by simp) h1)
  · rw [he] at hk ⊢
    have hpm : p ∈ ps := by rw [e]; simp
    have hnt : '\n' ∉ t := fun hc => lineBody_noEnd p (hsm p hpm).2 (ht.subset hc)
    have hpre : pre ≠ [] := by
      rintro rfl
      rcases List.mem_append.1 hk with h | h
      · simp [writeCsv] at h
      · exact hnt h
    by_cases hne : t = []
    · subst hne
      rw [List.append_nil]
      exact Or.inr (whole pre (p :: post) e hpre)
    · obtain ⟨xs, x, hx⟩ := hlast p hpm
      rw [hx] at ht e
      have hall : ∀ q ∈ pre ++ [(p.1, xs ++ [x])], Small q ∧ q.2.length = dim := by
        intro q hq
        have : q ∈ ps := by rw [e]; simp only [List.mem_append, List.mem_cons] at hq ⊢; tauto
        exact ⟨(hsm q this).2, (h3 q this).1⟩
      rcases load_cut classification dim h2 pre p.1 xs x t hpre hall ht hne with h | ⟨j, h⟩
      · exact Or.inl h
      · right
        have hc : (writeCsv pre ++ t).count '\n' = pre.length := by
          rw [List.count_append, List.count_eq_zero_of_not_mem hnt, Nat.add_zero]
          exact count_writeCsv pre (fun q hq => hsm q (by rw [e]; exact List.mem_append_left _ hq))
        refine ⟨_, ⟨pre, post, p.1, xs, x, j, e, rfl⟩, ⟨by simp, h2, fun q hq => ?_⟩, by rw [hc]; simp, by rw [hc]; simp, h⟩
        rcases List.mem_append.1 hq with h' | h'
        · have := hall q (List.mem_append_left _ h')
          exact ⟨this.2, this.1⟩
        · rw [List.mem_singleton.1 h']
          obtain ⟨a, b⟩ := hall (p.1, xs ++ [x]) (by simp)
          refine ⟨by simpa using b, a.1, fun v hv => ?_⟩
          rcases List.mem_append.1 hv with h'' | h''
          · exact a.2 v (List.mem_append_left _ h'')
          · rw [List.mem_singleton.1 h'']
            exact tdiv_small x j (a.2 x (by simp))

/-- **C249 (partial)** For a regression dataset, in terms of what is loaded: the features, labels and ids are those of the first samples that were
written, but for digits missing at the end of the last feature of the last one. -/
theorem C249_regression_partial (ps : List (Int × List Int)) (dim : Nat) (h : SmallData ps dim)
    (old : Option (List Char)) (k : Nat) (file : List Char) (hf : fileAfterCrash old (writeCsv ps) (.after k) = some file)
    (hk : '\n' ∈ file) :
    loadCsv false false file = .ok none ∨
    ∃ qs r, Beginning ps qs ∧ loadCsv false false file = .ok (some r) ∧ r.dim = dim ∧
      r.points.map LPt.x = qs.map (fun p => p.2.map (fun k : Int => (k : ℚ))) ∧
      r.points.map LPt.y = qs.map (fun p => (p.1 : ℚ)) ∧ r.points.map LPt.id = List.range' 1 qs.length := by
  rcases C249_prefix_partial false ps dim h old k file hf hk with h | ⟨qs, h1, h2, -, -, h3⟩
  · exact Or.inl h
  · obtain ⟨r, e1, e2, -, e3, e4, e5⟩ := C19_regression_round_trip_partial qs dim h2
    exact Or.inr ⟨qs, r, h1, h3.trans e1, e2, e3, e4, e5⟩

/-- **C249 (refuted)** The loss of whole samples is never noticed: for every dataset and every number `m` of its samples there is a moment at which a
crash leaves a file that `load` accepts, with the first `m` samples and no others. -/
theorem C249_lost_samples_refuted (ps : List (Int × List Int)) (dim : Nat) (h : SmallData ps dim) (m : Nat) (hm : 0 < m)
    (hm' : m ≤ ps.length) (old : Option (List Char)) : ∃ k file r, fileAfterCrash old (writeCsv ps) (.after k) = some file ∧
      loadCsv false false file = .ok (some r) ∧ r.points.length = m ∧
      r.points.map LPt.x = (ps.take m).map (fun p => p.2.map (fun k : Int => (k : ℚ))) := by
  obtain ⟨h1, h2, h3⟩ := h
  have hs : SmallData (ps.take m) dim := by
    refine ⟨fun h => ?_, h2, fun p hp => h3 p (List.mem_of_mem_take hp)⟩
    have := congrArg List.length h
    rw [List.length_take, Nat.min_eq_left hm', List.length_nil] at this
    omega
  obtain ⟨r, e1, -, -, e3, -, e5⟩ := C19_regression_round_trip_partial _ dim hs
  have e : writeCsv ps = writeCsv (ps.take m) ++ writeCsv (ps.drop m) := by
    simp only [writeCsv]
    rw [← List.flatten_append, ← List.map_append, List.take_append_drop]
  refine ⟨(writeCsv (ps.take m)).length, writeCsv (ps.take m), r, ?_, e1, ?_, e3⟩
  · rw [fileAfterCrash, e, List.take_left]
  · have := congrArg List.length e5
    simpa [List.length_take, Nat.min_eq_left hm'] using this

/-- **C249 (refuted)** What the file held before is gone as soon as it is opened, whatever it was: a crash before the first character is written
leaves a file that `load` accepts as a dataset without samples. -/
theorem C249_old_file_refuted (old : Option (List Char)) (ps : List (Int × List Int)) (classification : Bool) :
    ∃ file, fileAfterCrash old (writeCsv ps) (.after 0) = some file ∧
      loadCsv false classification file = .ok (some ⟨[], 0, [], Classes.none⟩) := by
  refine ⟨[], by simp [fileAfterCrash], ?_⟩
  cases classification <;> decide +kernel

/-- **C249 (refuted)** A number that was cut is read as another number, and a file whose only line was cut is read as a dataset of a smaller
dimension: the samples 1,20,345 and 2,67,890, after a crash, can be loaded with 8 for 890, or as one sample with the single feature 2. -/
theorem C249_cut_number_refuted : ∃ f g, fileAfterCrash none (writeCsv [(1, [20, 345]), (2, [67, 890])]) (.after 15) = some f ∧
    fileAfterCrash none (writeCsv [(1, [20, 345]), (2, [67, 890])]) (.after 3) = some g ∧
    loadCsv false false f = .ok (some ⟨[⟨[20, 345], 1, 1⟩, ⟨[67, 8], 2, 2⟩], 2, [1, 2], Classes.none⟩) ∧
    loadCsv false false g = .ok (some ⟨[⟨[2], 1, 1⟩], 1, [1], Classes.none⟩) :=
  ⟨"1,20,345\n2,67,8".toList, "1,2".toList, by decide +kernel, by decide +kernel, by decide +kernel, by decide +kernel⟩

/-- A cut in the middle of a line is noticed. -/
example : SmallData [(1, [20, 345]), (2, [67, 890])] 2 ∧
    fileAfterCrash none (writeCsv [(1, [20, 345]), (2, [67, 890])]) (.after 13) = some "1,20,345\n2,67".toList ∧
    '\n' ∈ "1,20,345\n2,67".toList ∧ loadCsv false false "1,20,345\n2,67".toList = .ok none :=
  ⟨⟨by simp, by simp, by decide⟩, by decide +kernel, by decide +kernel, by decide +kernel⟩

end MLTK.Props
