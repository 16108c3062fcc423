import Verif.Model.Crash
import Verif.Lemmas.CrashData
import Verif.Props.Readers
/-!
# C250: a program that stops while it writes a `.data` file
-/
namespace MLTK.Props
open MLTK.Text MLTK.Spec
open MLTK.Data (Res_bind_ok Res_bind_error Res_pure)

/-- The line of a sample, without its end. -/
private def dataBody (fnames : List Int) (p : Int × List Int) : List Char :=
  List.intercalate [' '] (showDouble p.1 :: List.zipWith (fun f v => showInt f ++ ':' :: showDouble v) fnames p.2)

private theorem dataBody_row (fnames : List Int) (p : Int × List Int) (hp : Small p) (hne : p.2 ≠ [])
    (hl : p.2.length = fnames.length) :
    writeDataLine fnames p = dataBody fnames p ++ ['\n'] ∧ IsDataLine (dataRowOf fnames p) (dataBody fnames p) := by
  have e : writeDataLine fnames p = dataBody fnames p ++ ['\n'] := by
    obtain ⟨y, x⟩ := p
    cases x with
    | nil => exact absurd rfl hne
    | cons a x =>
      cases fnames with
      | nil => simp at hl
      | cons f fnames => simp only [writeDataLine, dataBody, List.zipWith_cons_cons, intercalate_cons₂]
  obtain ⟨line, h1, h2⟩ := writeDataLine_row fnames p hp hne hl
  refine ⟨e, ?_⟩
  rw [e] at h1
  have := List.append_inj_left' h1 rfl
  rwa [this]

private theorem row_fst (fnames : List Int) (p : Int × List Int) (hl : p.2.length = fnames.length) :
    (dataRowOf fnames p).cells.map Prod.fst = fnames ∧ (dataRowOf fnames p).cells.map Prod.snd = p.2.map (fun k : Int => (k : ℚ)) ∧
      (dataRowOf fnames p).cells.length = p.2.length := by
  refine ⟨?_, ?_, by simp [dataRowOf, hl]⟩
  · simp only [dataRowOf, List.map_zipWith]
    apply List.ext_getElem (by simp [hl])
    intro i h1 h2
    simp
  · simp only [dataRowOf, List.map_zipWith]
    apply List.ext_getElem (by simp [hl])
    intro i h1 h2
    simp

private theorem label_word (y : Int) (h : y.natAbs < 10 ^ 6) : Word (showDouble y) := by
  have hn := showDouble_numeral y h
  refine ⟨(numeral_chars hn).1, fun c hc => ⟨fun hb => ?_, ?_⟩⟩
  · have := numeral_noSpace hn c hc
    rw [(isSpace_iff c).2 hb] at this; cases this
  · rintro rfl; exact (numeral_noColon hn).1 hc

private theorem body_good (fnames : List Int) (hr : ∀ f ∈ fnames, 0 ≤ f ∧ f < 2 ^ 31) (p : Int × List Int) (hp : Small p)
    (hne : p.2 ≠ []) (hl : p.2.length = fnames.length) : GoodLine fnames.length (dataRowOf fnames p) (dataBody fnames p) := by
  refine ⟨(dataBody_row fnames p hp hne hl).2, label_word p.1 hp.1, by rw [(row_fst fnames p hl).2.2, hl], fun c hc => ?_⟩
  have : c.1 ∈ fnames := by
    rw [← (row_fst fnames p hl).1]
    exact List.mem_map_of_mem hc
  have := hr _ this
  constructor <;> omega

private theorem cell_text (f v : Int) (hv : v.natAbs < 10 ^ 6) : IsCell (f, (v : ℚ)) (showInt f ++ ':' :: showDouble v) :=
  ⟨showInt f, showDouble v, showInt_numeral f, dec_int (showDouble_numeral v hv), rfl⟩

private theorem body_chars (fnames : List Int) (p : Int × List Int) (hp : Small p) : ∀ c ∈ dataBody fnames p, c ≠ '\n' := by
  intro c hc
  rcases mem_intercalate _ _ _ hc with rfl | ⟨t, ht, h1⟩
  · decide
  · rcases List.mem_cons.1 ht with rfl | ht
    · rintro rfl
      exact absurd (numeral_noSpace (showDouble_numeral _ hp.1) _ h1) (by decide)
    · obtain ⟨i, hi, rfl⟩ := List.mem_iff_getElem.1 ht
      rw [List.length_zipWith] at hi
      rw [List.getElem_zipWith] at h1
      rintro rfl
      exact absurd ((cell_clean (cell_text fnames[i] p.2[i] (hp.2 _ (List.getElem_mem _)))).2.2 _ h1) (by decide)

private theorem data_file (fnames : List Int) (ps : List (Int × List Int))
    (h : ∀ p ∈ ps, Small p ∧ p.2 ≠ [] ∧ p.2.length = fnames.length) : writeData fnames ps = fileOf (ps.map (dataBody fnames)) := by
  rw [writeData, fileOf, List.map_map]
  congr 1
  exact List.map_congr_left (fun p hp => (dataBody_row fnames p (h p hp).1 (h p hp).2.1 (h p hp).2.2).1)

private theorem count_data (fnames : List Int) : ∀ (ps : List (Int × List Int)), (∀ p ∈ ps, Small p) →
    (fileOf (ps.map (dataBody fnames))).count '\n' = ps.length
  | [], _ => rfl
  | p :: ps, h => by
    have e : fileOf ((p :: ps).map (dataBody fnames)) = (dataBody fnames p ++ ['\n']) ++ fileOf (ps.map (dataBody fnames)) := by
      simp [fileOf]
    rw [e, List.count_append, List.count_append,
      List.count_eq_zero_of_not_mem (fun hc => body_chars fnames p (h p (by simp)) _ hc rfl), count_data fnames ps (fun q hq => h q (by simp [hq]))]
    simp [Nat.add_comm]

/-- What a file is read as that holds whole lines (at least one) and the beginning of another. -/
private theorem load_data_cut (ty : DType) (fs : List Int) (f : Int) (hr : ∀ g ∈ fs ++ [f], 0 ≤ g ∧ g < 2 ^ 31)
    (pre : List (Int × List Int)) (hpre : pre ≠ []) (y : Int) (xs : List Int) (x : Int)
    (hp : ∀ p ∈ pre ++ [(y, xs ++ [x])], Small p ∧ p.2.length = fs.length + 1) (t : List Char)
    (ht : t <+: dataBody (fs ++ [f]) (y, xs ++ [x])) (hne : t ≠ []) (cl : Classes) (labels : List Int)
    (hall : processAll Classes.none (pre.map (fun p => showDouble p.1)) = .ok (cl, labels)) :
    loadData ty (fileOf (pre.map (dataBody (fs ++ [f]))) ++ t) = .ok none ∨
    ∃ v' y' cl' ty' cl1 c1, processClass cl (showDouble y) = .ok (cl1, c1) ∧
      (v' ≠ 0 → y' = (c1 : ℚ) ∧ ∃ i : Nat, v' = ((x.tdiv (10 ^ i) : Int) : ℚ)) ∧
      loadData ty (fileOf (pre.map (dataBody (fs ++ [f]))) ++ t) =
      .ok (some ⟨dataPoints 0 (pre.map (dataRowOf (fs ++ [f]))) labels ++ [⟨xs.map (fun k : Int => (k : ℚ)) ++ [v'], y', pre.length + 1⟩],
        (fs.length + 1 : Nat), fs ++ [f], cl', ty'⟩) := by
  have hp1 : ∀ p ∈ pre, Small p ∧ p.2.length = (fs ++ [f]).length := fun p h => by
    simpa using hp p (List.mem_append_left _ h)
  have nonempty : ∀ p ∈ pre, p.2 ≠ [] := by
    intro p h h0
    have := (hp1 p h).2
    rw [h0] at this; simp at this
  obtain ⟨hs, hl⟩ := hp (y, xs ++ [x]) (by simp)
  have hxl : xs.length = fs.length := by simpa using hl
  have hgood : List.Forall₂ (GoodLine (fs.length + 1)) (pre.map (dataRowOf (fs ++ [f]))) (pre.map (dataBody (fs ++ [f]))) := by
    rw [List.forall₂_map_left_iff, List.forall₂_map_right_iff, List.forall₂_same]
    intro p h
    have := body_good (fs ++ [f]) hr p (hp1 p h).1 (nonempty p h) (hp1 p h).2
    simpa using this
  -- the texts of the cut line
  have hbody : dataBody (fs ++ [f]) (y, xs ++ [x]) = List.intercalate [' ']
      ((showDouble y :: List.zipWith (fun f v => showInt f ++ ':' :: showDouble v) fs xs) ++ [showInt f ++ ':' :: showDouble x]) := by
    rw [dataBody]
    congr 1
    show showDouble y :: List.zipWith _ (fs ++ [f]) (xs ++ [x]) = _
    rw [List.zipWith_append hxl.symm]
    rfl
  have hcells : List.Forall₂ IsCell (List.zipWith (fun f v => (f, ((v : Int) : ℚ))) fs xs)
      (List.zipWith (fun f v => showInt f ++ ':' :: showDouble v) fs xs) := by
    rw [List.forall₂_iff_get]
    refine ⟨by simp, fun i h1 h2 => ?_⟩
    simp only [List.get_eq_getElem, List.getElem_zipWith]
    exact cell_text _ _ (hs.2 _ (List.mem_append_left _ (List.getElem_mem _)))
  have hy := showDouble_numeral y hs.1
  have hclean : ∀ s ∈ (showDouble y :: List.zipWith (fun f v => showInt f ++ ':' :: showDouble v) fs xs) ++
      [showInt f ++ ':' :: showDouble x], s ≠ [] ∧ ' ' ∉ s ∧ ∀ c ∈ s, isSpace c = false := by
    intro s h
    rcases List.mem_append.1 h with h | h
    · rcases List.mem_cons.1 h with rfl | h
      · exact ⟨(numeral_chars hy).1, fun hc => absurd (numeral_noSpace hy _ hc) (by decide), numeral_noSpace hy⟩
      · obtain ⟨i, hi, rfl⟩ := List.mem_iff_getElem.1 h
        exact cell_clean (hcells.get (by rw [hcells.length_eq]; exact hi) hi)
    · rw [List.mem_singleton.1 h]
      exact cell_clean (cell_text f x (hs.2 x (by simp)))
  have hnt : '\n' ∉ t := fun hc => body_chars _ _ hs _ (ht.subset hc) rfl
  have hlines : (getlines '\n' (fileOf (pre.map (dataBody (fs ++ [f]))) ++ t) []).map Prod.fst = pre.map (dataBody (fs ++ [f])) ++ [t] := by
    refine getlines_cut '\n' t hnt hne _ (fun l h hc => ?_)
    obtain ⟨p, h', rfl⟩ := List.mem_map.1 h
    exact body_chars _ _ (hp1 p h').1 _ hc rfl
  have hhead : ∀ c, t.head? = some c → isSpace c = false := by
    intro c hc
    obtain ⟨w, hw⟩ := ht
    rw [hbody] at hw
    obtain ⟨a, as, ha⟩ := List.exists_cons_of_ne_nil (numeral_chars hy).1
    have hac : isSpace a = false := numeral_noSpace hy a (by rw [ha]; simp)
    have : (t ++ w).head? = some a := by
      rw [hw]
      have e2 : ∃ r, (showDouble y :: List.zipWith (fun f v => showInt f ++ ':' :: showDouble v) fs xs) ++ [showInt f ++ ':' :: showDouble x] =
          showDouble y :: r ∧ r ≠ [] := ⟨_, rfl, by simp⟩
      obtain ⟨r, hr', hr0⟩ := e2
      obtain ⟨b, bs, rfl⟩ := List.exists_cons_of_ne_nil hr0
      rw [hr', intercalate_cons₂, ha]
      rfl
    rcases t with - | ⟨b, t⟩
    · exact absurd rfl hne
    · simp at hc this
      rw [← hc, this]; exact hac
  have htp : trim t <+: List.intercalate [' ']
      ((showDouble y :: List.zipWith (fun f v => showInt f ++ ':' :: showDouble v) fs xs) ++ [showInt f ++ ':' :: showDouble x]) := by
    rw [← hbody]; exact (trim_prefix hhead).trans ht
  obtain ⟨p0, pre', rfl⟩ := List.exists_cons_of_ne_nil hpre
  simp only [List.map_cons] at hgood
  obtain ⟨hg0, hg1⟩ := List.forall₂_cons.1 hgood
  -- the first reading
  have hstart : firstPassData (((p0 :: pre').map (dataBody (fs ++ [f]))) ++ [t]) 0 0 (ty, false) =
      firstPassData [t] ((fs.length + 1 : Nat) : Int) (0 + 1 + (pre'.map (dataRowOf (fs ++ [f]))).length)
        (if pre'.map (dataRowOf (fs ++ [f])) = [] ∨ (ty, false).2 = true then (ty, false) else (.classification, true)) := by
    rw [← firstPassData_skip (fs.length + 1) (by omega) [t] _ _ (0 + 1) (ty, false) hg1 (by omega)]
    obtain ⟨ts, k1, k2, k3⟩ := dataLine_words hg0
    have hf : ((getlines ' ' (trim (dataBody (fs ++ [f]) p0)) []).map Prod.fst).filter (fun x => decide (x ≠ [])) =
        (dataRowOf (fs ++ [f]) p0).label :: ts := by
      rw [k2, List.filter_eq_self]
      intro t ht
      simpa using k3 t ht
    have hlen : ((((dataRowOf (fs ++ [f]) p0).label :: ts).length : Nat) : Int) - 1 = ((fs.length + 1 : Nat) : Int) := by
      have := k1.length_eq
      have := hg0.2.2.1
      simp only [List.length_cons]
      omega
    simp only [List.map_cons, List.cons_append]
    conv_lhs => rw [firstPassData]
    simp only [hf, hlen, lt_irrefl, if_false, ne_eq, not_true_eq_false, and_false]
  have hlen : (((p0 :: pre').map (dataRowOf (fs ++ [f]))).length) = (p0 :: pre').length := by simp
  rcases cut_line ' ' _ _ (trim t) (fun s h => ⟨(hclean s h).1, (hclean s h).2.1⟩) htp with hlt | ⟨u, hu0, hu, htu⟩
  · left
    have hshort : (((getlines ' ' (trim t) []).map Prod.fst).filter (fun x => decide (x ≠ []))).length < fs.length + 2 := by
      refine lt_of_le_of_lt (List.length_filter_le _ _) ?_
      simp only [List.length_map, List.length_cons, List.length_zipWith, hxl, min_self] at hlt ⊢
      omega
    simp only [loadData, hlines, hstart]
    simp only [firstPassData]
    rw [if_pos (⟨by omega, by omega⟩)]
    rfl
  · right
    have hwords : (getlines ' ' (trim t) []).map Prod.fst =
        (showDouble y :: List.zipWith (fun f v => showInt f ++ ':' :: showDouble v) fs xs) ++ [u] := by
      rw [htu]
      refine getlines_intercalate ' ' _ (fun s h => ?_)
      rcases List.mem_append.1 h with h | h
      · have := hclean s (List.mem_append_left _ h); exact ⟨this.1, this.2.1⟩
      · rw [List.mem_singleton.1 h]
        exact ⟨hu0, fun hc => (hclean _ (List.mem_append_right _ (by simp))).2.1 (hu.subset hc)⟩
    have hfilter : ((getlines ' ' (trim t) []).map Prod.fst).filter (fun x => decide (x ≠ [])) =
        (showDouble y :: List.zipWith (fun f v => showInt f ++ ':' :: showDouble v) fs xs) ++ [u] := by
      rw [hwords, List.filter_eq_self]
      intro s h
      rcases List.mem_append.1 h with h | h
      · simpa using (hclean s (List.mem_append_left _ h)).1
      · rw [List.mem_singleton.1 h]; simpa using hu0
    -- the name has no point
    have hdetect : ∃ q qs, (getlines ':' (trim u) []).map Prod.fst = q :: qs ∧ '.' ∉ q := by
      have hus : ∀ c ∈ u, isSpace c = false := fun c hc => (hclean _ (List.mem_append_right _ (by simp))).2.2 c (hu.subset hc)
      rw [trim_noSpace u hus]
      have hf := showInt_numeral f
      rcases prefix_append_iff hu with h | ⟨r, rfl, h⟩
      · rw [getlines_last ':' u (fun hc => (numeral_noColon hf).1 (h.subset hc)) hu0]
        exact ⟨u, [], rfl, fun hc => (numeral_noColon hf).2 (h.subset hc)⟩
      · rcases r with - | ⟨c, r⟩
        · rw [List.append_nil] at hu0 ⊢
          rw [getlines_last ':' _ (numeral_noColon hf).1 hu0]
          exact ⟨_, [], rfl, (numeral_noColon hf).2⟩
        · rw [List.cons_prefix_cons] at h
          obtain ⟨rfl, -⟩ := h
          rw [getlines_piece ':' _ r (numeral_noColon hf).1]
          exact ⟨_, _, rfl, (numeral_noColon hf).2⟩
    obtain ⟨q, qs, hq, hqd⟩ := hdetect
    have hfirst : ∃ n ty', firstPassData (((p0 :: pre').map (dataBody (fs ++ [f]))) ++ [t]) 0 0 (ty, false) =
        some (((fs.length + 1 : Nat) : Int), n, ty') ∧ ty'.isClass = true := by
      rw [hstart]
      have hl1 : ((showDouble y :: List.zipWith (fun f v => showInt f ++ ':' :: showDouble v) fs xs).length) = fs.length + 1 := by
        simp [hxl]
      have hdet : ∀ st : DType × Bool, (List.zip (List.range ((showDouble y :: List.zipWith (fun f v => showInt f ++ ':' :: showDouble v) fs xs) ++ [u]).length)
          ((showDouble y :: List.zipWith (fun f v => showInt f ++ ':' :: showDouble v) fs xs) ++ [u])).foldl
            (detectItem ((fs.length + 1 : Nat) : Int)) st = if st.2 then st else (.classification, true) := by
        intro st
        rw [List.length_append, hl1, List.length_singleton, List.range_succ, List.zip_append (by simp [hl1]), List.foldl_append,
          detect_noop _ (List.zip (List.range (fs.length + 1)) _)]
        · simp only [List.zip_cons_cons, List.zip_nil_right, List.foldl_cons, List.foldl_nil, detectItem, hq, hqd, if_false]
          cases st.2 <;> simp
        · intro p hp
          have := (List.of_mem_zip hp).1
          have : p.1 < fs.length + 1 := by simpa using this
          omega
      have hlen2 : ((((showDouble y :: List.zipWith (fun f v => showInt f ++ ':' :: showDouble v) fs xs) ++ [u]).length : Nat) : Int) - 1 =
          ((fs.length + 1 : Nat) : Int) := by
        rw [List.length_append, hl1]; simp
      have hn : 0 + 1 + (pre'.map (dataRowOf (fs ++ [f]))).length > 0 := by omega
      simp only [firstPassData, hfilter, hdet, hlen2, hn, if_true, ne_eq, not_true_eq_false, false_and, if_false]
      refine ⟨_, _, rfl, ?_⟩
      by_cases h0 : pre'.map (dataRowOf (fs ++ [f])) = []
      · simp only [h0, true_or, if_true, Bool.false_eq_true, if_false]; rfl
      · simp only [h0, Bool.false_eq_true, or_self, if_false, if_true]; rfl
    obtain ⟨n, ty', hfp, hty'⟩ := hfirst
    -- the second reading
    have hrows := readDataLines_ok (fs.length + 1) ((p0 :: pre').map (dataRowOf (fs ++ [f]))) ((p0 :: pre').map (dataBody (fs ++ [f]))) 0
      Classes.none cl labels ((List.range (fs.length + 1)).map (fun (i : Nat) => (i : Int) + 1))
      (by simpa only [List.map_cons] using hgood) (by simp) (by rw [List.map_map]; exact hall)
    have hnames : (((p0 :: pre').map (dataRowOf (fs ++ [f]))).getLast?.map (fun r => r.cells.map Prod.fst)).getD
        ((List.range (fs.length + 1)).map (fun (i : Nat) => (i : Int) + 1)) = fs ++ [f] := by
      rw [List.getLast?_map, List.getLast?_eq_some_getLast (by simp : p0 :: pre' ≠ [])]
      simp only [Option.map_some, Option.getD_some]
      exact (row_fst (fs ++ [f]) _ (hp1 _ (List.getLast_mem _)).2).1
    rw [hnames] at hrows
    obtain ⟨cl1, c1, hpc⟩ : ∃ cl1 c1, processClass cl (showDouble y) = .ok (cl1, c1) :=
      ⟨_, _, processClass_numeral cl _ y hy (by have := hs.1; omega) (by have := hs.1; omega)⟩
    have hrange := hr f (by simp)
    obtain ⟨v', y', cl', j, hcut, hkept⟩ := readDataItem_cut f x (showInt f) (showDouble x) u hrange.1 hrange.2 (showInt_numeral f)
      (showDouble_numeral x (hs.2 x (by simp))) hu hu0 (xs.map (fun k : Int => (k : ℚ))) fs (c1 : ℚ) cl1 (by simp [hxl])
    have hitems : ((getlines ' ' (trim t) []).map Prod.fst).foldlM (readDataItem true)
        ⟨List.replicate (fs.length + 1) 0, 0, cl, fs ++ [f], 0⟩ = .ok ⟨xs.map (fun k : Int => (k : ℚ)) ++ [v'], y', cl', fs ++ [f], j⟩ := by
      rw [hwords, List.cons_append, List.foldlM_cons, readDataItem, trim_clean (numeral_noSpace hy)]
      simp only [(numeral_noColon hy).1, not_false_eq_true, if_true, hpc, Res_bind_ok, Res_pure]
      rw [List.foldlM_append]
      have hm := cells_more true (List.zipWith (fun f v => (f, ((v : Int) : ℚ))) fs xs) _ [] [0] [] [f] (List.replicate fs.length 0) fs
        (c1 : ℚ) cl1 hcells (by
          intro c hc
          obtain ⟨i, hi, rfl⟩ := List.mem_iff_getElem.1 hc
          rw [List.getElem_zipWith]
          have := hr _ (List.mem_append_left [f] (List.getElem_mem (by simp at hi; omega : i < fs.length)))
          constructor <;> simp only <;> omega) rfl (by simp [hxl]) (by simp [hxl])
      have z1 : (List.zipWith (fun f v => (f, ((v : Int) : ℚ))) fs xs).map Prod.fst = fs := (row_fst fs (y, xs) hxl).1
      have z2 : (List.zipWith (fun f v => (f, ((v : Int) : ℚ))) fs xs).map Prod.snd = xs.map (fun k : Int => (k : ℚ)) :=
        (row_fst fs (y, xs) hxl).2.1
      rw [z1, z2] at hm
      simp only [List.nil_append, List.length_nil, Nat.zero_add, List.length_zipWith, hxl, min_self] at hm
      rw [List.replicate_succ', hm, Res_bind_ok, List.foldlM_cons]
      simp only [List.length_map, hxl] at hcut
      rw [hcut]
      rfl
    have hread := readDataLines_append (fs.length + 1) t _ _ 0 Classes.none cl _ _ _ hrows hitems
    refine ⟨v', y', cl', if cl'.labels.length = 2 then .binClassification else .multiClassification, cl1, c1, hpc,
      fun h => ⟨(hkept h).1, (hkept h).2.2⟩, ?_⟩
    simp only [loadData, hlines, hfp]
    rw [if_neg (by omega), hty', Int.toNat_natCast, hread, Res_bind_ok]
    simp only [Res_pure, List.length_map, Nat.zero_add, List.length_cons]

/-- **C250 (partial)** Whatever a file held before: if the program stops while it writes a dataset of integer values below a million in size, with
feature names that are not negative, as a `.data` file, and at least one line has reached the file (two, if the dataset it is loaded into is
declared to be a regression), then `load` refuses the file, or loads `m` samples, where `m` is the number of lines that have reached the file or
one more.  Feature names, dimension and ids are right; all samples but the last have the features that were written, and the labels too (if
no label other than 1 and -1 occurs for the first time after a -1); of the last one all features but the last are right.  If that one is not read as 0, it is the number that was written, but for digits missing at
its end, and the label is right too.
Missing from C250: the label of the last sample if its last feature is read as 0, a crash before the first line is complete, and that the loss is noticed
(see the refutations). -/
theorem C250_prefix_partial (ty : DType) (ps : List (Int × List Int)) (dim : Nat) (h : SmallData ps dim) (fnames : List Int)
    (hf : fnames.length = dim) (hr : ∀ f ∈ fnames, 0 ≤ f ∧ f < 2 ^ 31) (old : Option (List Char)) (k : Nat) (file : List Char)
    (hfile : fileAfterCrash old (writeData fnames ps) (.after k) = some file) (hk : 1 ≤ file.count '\n')
    (hty : 2 ≤ file.count '\n' ∨ ty ≠ .regression) :
    loadData ty file = .ok none ∨
    ∃ m r, file.count '\n' ≤ m ∧ m ≤ file.count '\n' + 1 ∧ m ≤ ps.length ∧ loadData ty file = .ok (some r) ∧ r.dim = dim ∧
      r.fnames = fnames ∧ r.points.map LPt.id = List.range' 1 m ∧
      (r.points.map LPt.x).take (m - 1) = (ps.take (m - 1)).map (fun p => p.2.map (fun k : Int => (k : ℚ))) ∧
      r.points.map (fun p => p.x.dropLast) = (ps.take m).map (fun p => (p.2.map (fun k : Int => (k : ℚ))).dropLast) ∧
      (NoLateNames (ps.map Prod.fst) → (r.points.map LPt.y).take (m - 1) = (ps.take (m - 1)).map (fun p => (p.1 : ℚ))) ∧
      (∀ q p v, r.points.getLast? = some q → (ps.take m).getLast? = some p → q.x.getLast? = some v → v ≠ 0 →
        (NoLateNames (ps.map Prod.fst) → q.y = (p.1 : ℚ)) ∧ ∃ (x : Int) (i : Nat), p.2.getLast? = some x ∧ v = ((x.tdiv (10 ^ i) : Int) : ℚ)) := by
  obtain rfl : (writeData fnames ps).take k = file := by simpa [fileAfterCrash] using hfile
  have h' := h
  obtain ⟨h1, h2, h3⟩ := h
  have hsm : ∀ p ∈ ps, Small p ∧ p.2 ≠ [] ∧ p.2.length = fnames.length := by
    intro p hp
    refine ⟨(h3 p hp).2, fun h0 => ?_, by rw [(h3 p hp).1, hf]⟩
    have := (h3 p hp).1
    rw [h0] at this
    exact h2 (by simpa using this.symm)
  have nolate : ∀ pre post : List (Int × List Int), ps = pre ++ post → NoLateNames (ps.map Prod.fst) → NoLateNames (pre.map Prod.fst) := by
    intro pre post e hn i hi
    rw [List.length_map] at hi
    have hj : ∀ j, j < pre.length → (pre.map Prod.fst)[j]? = (ps.map Prod.fst)[j]? := fun j hj => by
      rw [e, List.map_append, List.getElem?_append_left (by simpa using hj)]
    rintro ⟨j, h4, h5⟩
    have := hn i (by rw [e]; simp; omega) ⟨j, h4, by rw [← hj j (by omega)]; exact h5⟩
    rw [hj i hi]
    rcases this with h | h | ⟨a, h, h6⟩
    · exact Or.inl h
    · exact Or.inr (Or.inl h)
    · exact Or.inr (Or.inr ⟨a, h, by rw [hj a (by omega)]; exact h6⟩)
  have whole : ∀ pre post : List (Int × List Int), ps = pre ++ post → pre ≠ [] → (2 ≤ pre.length ∨ ty ≠ .regression) →
      ∃ r, loadData ty (writeData fnames pre) = .ok (some r) ∧ r.dim = dim ∧ r.fnames = fnames ∧
        r.points.map LPt.id = List.range' 1 pre.length ∧
        (r.points.map LPt.x).take (pre.length - 1) = (ps.take (pre.length - 1)).map (fun p => p.2.map (fun k : Int => (k : ℚ))) ∧
        r.points.map (fun p => p.x.dropLast) = (ps.take pre.length).map (fun p => (p.2.map (fun k : Int => (k : ℚ))).dropLast) ∧
        (NoLateNames (ps.map Prod.fst) → (r.points.map LPt.y).take (pre.length - 1) = (ps.take (pre.length - 1)).map (fun p => (p.1 : ℚ))) ∧
        (∀ q p v, r.points.getLast? = some q → (ps.take pre.length).getLast? = some p → q.x.getLast? = some v → v ≠ 0 →
          (NoLateNames (ps.map Prod.fst) → q.y = (p.1 : ℚ)) ∧ ∃ (x : Int) (i : Nat), p.2.getLast? = some x ∧ v = ((x.tdiv (10 ^ i) : Int) : ℚ)) := by
    intro pre post e hne ht
    obtain ⟨r, e1, e2, e3, e4, e5, e6, -⟩ := C110_round_trip_partial ty pre dim
      ⟨hne, h2, fun p hp => h3 p (by rw [e]; exact List.mem_append_left _ hp)⟩ fnames hf (fun f hf' => ⟨by have := hr f hf'; omega, (hr f hf').2⟩) ht
    have htake : ps.take pre.length = pre := by rw [e, List.take_left]
    have htake' : ps.take (pre.length - 1) = pre.take (pre.length - 1) := by
      rw [e, List.take_append_of_le_length (by omega)]
    refine ⟨r, e1, e2, e3, e5, ?_, ?_, fun hn => ?_, fun q p v hq hp hv _ => ?_⟩
    · rw [e4, htake', List.map_take]
    · have := congrArg (List.map List.dropLast) e4
      rw [List.map_map, List.map_map] at this
      rw [htake]
      exact this
    · rw [e6.2 (nolate pre post e hn), htake', List.map_take]
    · rw [htake] at hp
      have g1 := congrArg List.getLast? e4
      rw [List.getLast?_map, List.getLast?_map, hq, hp] at g1
      simp only [Option.map_some, Option.some.injEq] at g1
      refine ⟨fun hn => ?_, ?_⟩
      · have g2 := congrArg List.getLast? (e6.2 (nolate pre post e hn))
        rw [List.getLast?_map, List.getLast?_map, hq, hp] at g2
        simpa using g2
      · rw [g1, List.getLast?_map] at hv
        obtain ⟨x, hx, rfl⟩ := Option.map_eq_some_iff.1 hv
        exact ⟨x, 0, hx, by simp⟩
  rw [data_file fnames ps hsm] at hk hty ⊢
  rcases cut_lines _ _ (List.take_prefix k (fileOf (ps.map (dataBody fnames)))) with he | ⟨pre0, l, post0, t, e, ht, he⟩
  · rw [he] at hk hty ⊢
    rw [count_data fnames ps (fun p hp => (hsm p hp).1)] at hk hty ⊢
    obtain ⟨r, w⟩ := whole ps [] (by simp) h1 hty
    rw [← data_file fnames ps hsm]
    exact Or.inr ⟨ps.length, r, le_refl _, by omega, le_refl _, w⟩
  · obtain ⟨pre, rest, rfl, rfl, e2⟩ := List.map_eq_append_iff.1 e
    obtain ⟨p, post, rfl, rfl, rfl⟩ := List.map_eq_cons_iff.1 e2
    have hpm := hsm p (by simp)
    have hpres : ∀ q ∈ pre, Small q ∧ q.2 ≠ [] ∧ q.2.length = fnames.length := fun q hq => hsm q (List.mem_append_left _ hq)
    have hnt : '\n' ∉ t := fun hc => body_chars _ _ hpm.1 _ (ht.subset hc) rfl
    have hcount : (fileOf (pre.map (dataBody fnames)) ++ t).count '\n' = pre.length := by
      rw [List.count_append, List.count_eq_zero_of_not_mem hnt, Nat.add_zero, count_data fnames pre (fun q hq => (hpres q hq).1)]
    rw [he, hcount] at hk hty
    rw [he, hcount]
    have hpre : pre ≠ [] := by rintro rfl; simp at hk
    by_cases hne : t = []
    · subst hne
      obtain ⟨r, w⟩ := whole pre (p :: post) rfl hpre hty
      rw [List.append_nil, ← data_file fnames pre hpres]
      exact Or.inr ⟨pre.length, r, le_refl _, by omega, by simp, w⟩
    · obtain ⟨y, x0⟩ := p
      obtain ⟨xs, x, rfl⟩ : ∃ xs x, x0 = xs ++ [x] := by
        rcases List.eq_nil_or_concat x0 with h0 | ⟨xs, x, h0⟩
        · exact absurd h0 hpm.2.1
        · exact ⟨xs, x, by simpa using h0⟩
      obtain ⟨fs, f, rfl⟩ : ∃ fs f, fnames = fs ++ [f] := by
        rcases List.eq_nil_or_concat fnames with h0 | ⟨fs, f, h0⟩
        · rw [h0] at hf; exact absurd hf.symm h2
        · exact ⟨fs, f, by simpa using h0⟩
      have hfa : List.Forall₂ IsNumeral (pre.map Prod.fst) (pre.map (fun p => showDouble p.1)) := by
        rw [List.forall₂_map_left_iff, List.forall₂_map_right_iff, List.forall₂_same]
        exact fun q hq => showDouble_numeral _ (hpres q hq).1.1
      obtain ⟨cl, labels, b1, c2, c3⟩ := processAll_ints _ _ Classes.none [] hfa (by
        intro k hk
        obtain ⟨q, hq, rfl⟩ := List.mem_map.1 hk
        have := (hpres q hq).1.1
        constructor <;> omega) (by simp [Classes.none])
      have hl : labels.length = (pre.map (dataRowOf (fs ++ [f]))).length := by simpa using c2
      rcases load_data_cut ty fs f hr pre hpre y xs x (by
        intro q hq
        have : q ∈ pre ++ (y, xs ++ [x]) :: post := by simp only [List.mem_append, List.mem_cons] at hq ⊢; tauto
        refine ⟨(hsm q this).1, by simpa using (hsm q this).2.2⟩) t ht hne cl labels b1 with w | ⟨v', y', cl', ty', cl1, c1, hpc, hkept, w⟩
      · exact Or.inl w
      · obtain ⟨d1, d2, d3⟩ := dataPoints_x 0 (pre.map (dataRowOf (fs ++ [f]))) labels hl
        have d1' : (dataPoints 0 (pre.map (dataRowOf (fs ++ [f]))) labels).map LPt.x = pre.map (fun p => p.2.map (fun k : Int => (k : ℚ))) := by
          rw [d1, List.map_map]
          exact List.map_congr_left (fun q hq => (row_fst _ q (hpres q hq).2.2).2.1)
        have dl : (dataPoints 0 (pre.map (dataRowOf (fs ++ [f]))) labels).length = pre.length := by
          have := congrArg List.length d1'
          simpa using this
        refine Or.inr ⟨pre.length + 1, _, by omega, le_refl _, by simp, w, by rw [← hf]; simp, rfl, ?_, ?_, ?_, fun hn => ?_,
          fun q p v hq hp hv h0 => ?_⟩
        · simp only [List.map_append, List.map_cons, List.map_nil, d3]
          rw [List.range'_concat]
          simp [Nat.add_comm]
        · simp only [List.map_append, d1', Nat.add_sub_cancel]
          rw [List.take_left' (by simp), List.take_left' rfl]
        · have e5 : (pre ++ (y, xs ++ [x]) :: post).take (pre.length + 1) = pre ++ [(y, xs ++ [x])] := by
            rw [List.take_append]
            simp
          have := congrArg (List.map List.dropLast) d1'
          rw [List.map_map, List.map_map] at this
          rw [e5, List.map_append, List.map_append]
          congr 1
          simp
        · have hlab : labels = pre.map Prod.fst := by
            rw [c3, lateFree_iff]
            have := nolate pre _ rfl hn
            simpa only [List.nil_append, List.length_nil, Nat.zero_le, true_imp_iff, NoLateNames] using this
          simp only [List.map_append, d2, Nat.add_sub_cancel]
          rw [List.take_left' (by simpa using c2), List.take_left' rfl, hlab, List.map_map]
          rfl
        · have e5 : (pre ++ (y, xs ++ [x]) :: post).take (pre.length + 1) = pre ++ [(y, xs ++ [x])] := by
            rw [List.take_append]
            simp
          rw [e5, List.getLast?_concat] at hp
          rw [List.getLast?_concat] at hq
          cases hp
          cases hq
          simp only [List.getLast?_concat, Option.some.injEq] at hv
          subst hv
          obtain ⟨k1, i, k2⟩ := hkept h0
          refine ⟨fun hn => ?_, x, i, by simp, k2⟩
          obtain ⟨st', labels', l1, l2, l3⟩ := processAll_ints ((pre ++ [(y, xs ++ [x])]).map Prod.fst)
            ((pre ++ [(y, xs ++ [x])]).map (fun p => showDouble p.1)) Classes.none [] (by
              rw [List.forall₂_map_left_iff, List.forall₂_map_right_iff, List.forall₂_same]
              intro q hq
              exact showDouble_numeral _ (hsm q (by simp only [List.mem_append, List.mem_cons] at hq ⊢; tauto)).1.1) (by
              intro k hk
              obtain ⟨q, hq, rfl⟩ := List.mem_map.1 hk
              have := (hsm q (by simp only [List.mem_append, List.mem_cons] at hq ⊢; tauto)).1.1
              constructor <;> omega) (by simp [Classes.none])
          have hsn := processAll_snoc (showDouble y) cl1 c1 _ _ _ _ b1 hpc
          rw [List.map_append] at l1
          simp only [List.map_cons, List.map_nil] at l1
          rw [hsn] at l1
          simp only [Except.ok.injEq, Prod.mk.injEq] at l1
          have hl3 := l3.2 (by
            rw [lateFree_iff]
            have := nolate (pre ++ [(y, xs ++ [x])]) post (by simp) hn
            simpa only [List.nil_append, List.length_nil, Nat.zero_le, true_imp_iff, NoLateNames] using this)
          rw [← l1.2, List.map_append] at hl3
          have := List.append_inj_right' hl3 rfl
          simp only [List.map_cons, List.map_nil, List.cons.injEq, and_true] at this
          rw [k1, this]

/-- **C250 (refuted)** A name that was cut is read as a label: of the samples with labels 1 and 2 and two features each, the second, cut in the
second name, is loaded with label 7, and without its second feature. -/
theorem C250_label_refuted : ∃ file, fileAfterCrash none (writeData [1, 7] [(1, [20, 345]), (2, [67, 890])]) (.after 21) = some file ∧
    (loadData .classification file).map (Option.map DLoaded.points) = .ok (some [⟨[20, 345], 1, 1⟩, ⟨[67, 0], 7, 2⟩]) :=
  ⟨"1 1:20 7:345\n2 1:67 7".toList, by decide +kernel, by decide +kernel⟩

/-- **C250 (refuted)** A negative name that was cut down to its sign ends the program that loads the file. -/
theorem C250_sign_refuted : ∃ file, fileAfterCrash none (writeData [1, -7] [(1, [20, 345]), (2, [67, 890])]) (.after 22) = some file ∧
    loadData .classification file = .error .exception :=
  ⟨"1 1:20 -7:345\n2 1:67 -".toList, by decide +kernel, by decide +kernel⟩

example : SmallData [(1, [20, 345]), (2, [67, 890])] 2 ∧ NoLateNames ([(1, [20, 345]), (2, [67, 890])].map (Prod.fst : Int × List Int → Int)) ∧
    fileAfterCrash (some "old".toList) (writeData [1, 7] [(1, [20, 345]), (2, [67, 890])]) (.after 23) = some "1 1:20 7:345\n2 1:67 7:8".toList ∧
    "1 1:20 7:345\n2 1:67 7:8".toList.count '\n' = 1 := by
  refine ⟨⟨by simp, by simp, by decide⟩, ?_, by decide +kernel, by decide +kernel⟩
  have := (lateFree_iff [1, 2] []).1 (by simp [lateFree])
  intro i hi hj
  exact this i (Nat.zero_le _) hi hj

end MLTK.Props
