import Verif.Model.Visual
import Verif.Spec.Visual
import Verif.Lemmas.Text
import Verif.Lemmas.Csv
import Verif.Lemmas.Features
import Verif.Lemmas.Data
/-!
# Lemmas about the visualization
-/
namespace MLTK.Vis
open MLTK.Spec
open MLTK.Data (Res_bind_ok Res_bind_error Res_pure)

/-! ### the files -/

theorem classPath_eq (folder n : Str) : classPath folder n = plotFile folder n := rfl

theorem plotFile_inj {folder a b : Str} (h : plotFile folder a = plotFile folder b) : a = b := by
  simpa [plotFile] using h

theorem openAll_ok (folder : Str) : ∀ (names : List Str) (fs : Files), names.Nodup → (∀ n ∈ names, '/' ∉ n) →
    (openAll folder names fs).2.1 = names.map (fun n => some (plotFile folder n, 0)) ∧
    (openAll folder names fs).2.2 = names.map (plotFile folder) ∧
    (∀ n ∈ names, (openAll folder names fs).1 (plotFile folder n) = some []) ∧
    (∀ p, p ∉ names.map (plotFile folder) → (openAll folder names fs).1 p = fs p)
  | [], fs, _, _ => by simp [openAll]
  | n :: ns, fs, hnd, hs => by
    have h1 : '/' ∉ n := hs n (by simp)
    obtain ⟨a, b, c, d⟩ := openAll_ok folder ns (Function.update fs (classPath folder n) (some []))
      (List.nodup_cons.1 hnd).2 (fun m hm => hs m (by simp [hm]))
    simp only [openAll, h1, if_false]
    refine ⟨by rw [a]; rfl, by rw [b]; rfl, ?_, ?_⟩
    · intro m hm
      rcases List.mem_cons.1 hm with rfl | hm
      · rw [d _ (by
          intro hmem
          obtain ⟨k, hk, he⟩ := List.mem_map.1 hmem
          rw [plotFile_inj he] at hk
          exact (List.nodup_cons.1 hnd).1 hk), classPath_eq, Function.update_self]
      · exact c m hm
    · intro p hp
      simp only [List.map_cons, List.mem_cons, not_or] at hp
      rw [d p hp.2, classPath_eq, Function.update_of_ne hp.1]

theorem rowText_eq {K : Type} (shw : K → Str) (x : List K) (h : x ≠ []) : rowText shw x = fileLine (x.map shw) := by
  simp [rowText, h, fileLine]

theorem writeAt_end (c t : Str) : writeAt c c.length t = c ++ t := by simp [writeAt]

theorem findIdx_get (classes : List Int) (y : Int) (h : y ∈ classes) :
    classes.findIdx (fun c => decide (c = y)) < classes.length ∧
    classes[classes.findIdx (fun c => decide (c = y))]? = some y := by
  have h1 : classes.findIdx (fun c => decide (c = y)) < classes.length :=
    List.findIdx_lt_length_of_exists ⟨y, h, by simp⟩
  refine ⟨h1, ?_⟩
  have := List.findIdx_getElem (w := h1)
  rw [List.getElem?_eq_getElem h1]
  simpa using this

theorem nodup_idx {α : Type} {l : List α} (h : l.Nodup) {i j : Nat} {a : α} (hi : l[i]? = some a) (hj : l[j]? = some a) :
    i = j := by
  obtain ⟨h1, e1⟩ := List.getElem?_eq_some_iff.1 hi
  obtain ⟨h2, e2⟩ := List.getElem?_eq_some_iff.1 hj
  exact (List.Nodup.getElem_inj_iff h).1 (e1.trans e2.symm)

theorem writeRows_ok {K : Type} (shw : K → Str) (folder : Str) (classes : List Int) (names : List Str)
    (hlen : names.length = classes.length) (hcn : classes.Nodup) (hnn : names.Nodup) :
    ∀ (rows : List (List K × Int)) (fs : Files) (contents : List Str), (∀ r ∈ rows, r.2 ∈ classes ∧ r.1 ≠ []) →
    contents.length = names.length →
    (∀ (i : Nat) n c, names[i]? = some n → contents[i]? = some c → fs (plotFile folder n) = some c) →
    ∃ fs', writeRows shw classes names rows fs
        (List.zipWith (fun n (c : Str) => some (plotFile folder n, c.length)) names contents) = .ok fs' ∧
      (∀ (i : Nat) n k c, names[i]? = some n → classes[i]? = some k → contents[i]? = some c →
        fs' (plotFile folder n) = some (c ++ linesOfClass shw rows k)) ∧
      ∀ p, p ∉ names.map (plotFile folder) → fs' p = fs p
  | [], fs, contents, _, hcl, hfs => by
    refine ⟨fs, rfl, ?_, fun _ _ => rfl⟩
    intro i n k c h1 _ h3
    rw [hfs i n c h1 h3]; simp [linesOfClass]
  | r :: rest, fs, contents, hr, hcl, hfs => by
    obtain ⟨hy, hne⟩ := hr r (by simp)
    obtain ⟨hlt, hget⟩ := findIdx_get classes r.2 hy
    set pos := classes.findIdx (fun c => decide (c = r.2)) with hpos
    have hln : pos < names.length := by omega
    have hlc : pos < contents.length := by omega
    obtain ⟨n, hn⟩ : ∃ n, names[pos]? = some n := ⟨_, List.getElem?_eq_getElem hln⟩
    obtain ⟨c, hc⟩ : ∃ c, contents[pos]? = some c := ⟨_, List.getElem?_eq_getElem hlc⟩
    set line := rowText shw r.1 with hline
    have hstream : vget (List.zipWith (fun n (c : Str) => some (plotFile folder n, c.length)) names contents) pos =
        .ok (some (plotFile folder n, c.length)) := by
      rw [vget_eq_ok, List.getElem?_zipWith, hn, hc]
    have hemit : emit fs (some (plotFile folder n, c.length)) line =
        (Function.update fs (plotFile folder n) (some (c ++ line)), some (plotFile folder n, (c ++ line).length)) := by
      simp [emit, hfs pos n c hn hc, writeAt_end]
    have hset : vset (List.zipWith (fun n (c : Str) => some (plotFile folder n, c.length)) names contents) pos
        (some (plotFile folder n, (c ++ line).length)) =
        .ok (List.zipWith (fun n (c : Str) => some (plotFile folder n, c.length)) names (contents.set pos (c ++ line))) := by
      have hl2 : pos < (List.zipWith (fun n (c : Str) => some (plotFile folder n, c.length)) names contents).length := by
        rw [List.length_zipWith]; omega
      rw [vset, if_pos hl2]
      congr 1
      apply List.ext_getElem?
      intro i
      by_cases hi : pos = i
      · subst hi
        rw [List.getElem?_set_self hl2, List.getElem?_zipWith, List.getElem?_set_self hlc, hn]
      · rw [List.getElem?_set_ne hi, List.getElem?_zipWith, List.getElem?_zipWith, List.getElem?_set_ne hi]
    have hfs2 : ∀ (i : Nat) n' c', names[i]? = some n' → (contents.set pos (c ++ line))[i]? = some c' →
        Function.update fs (plotFile folder n) (some (c ++ line)) (plotFile folder n') = some c' := by
      intro i n' c' h1 h2
      rw [List.getElem?_set] at h2
      by_cases hi : pos = i
      · subst hi
        rw [if_pos rfl, if_pos hlc] at h2
        rw [hn] at h1
        obtain rfl := Option.some.inj h1
        rw [Function.update_self]; exact h2
      · rw [if_neg hi] at h2
        have hnn' : n' ≠ n := by
          rintro rfl
          exact hi (nodup_idx hnn hn h1)
        rw [Function.update_of_ne (fun h => hnn' (plotFile_inj h))]
        exact hfs i n' c' h1 h2
    obtain ⟨fs', he, hmain, hframe⟩ := writeRows_ok shw folder classes names hlen hcn hnn rest _ _
      (fun r' hr' => hr r' (by simp [hr'])) (by rw [List.length_set]; exact hcl) hfs2
    refine ⟨fs', ?_, ?_, ?_⟩
    · rw [writeRows, ← hpos, (vget_eq_ok).2 hn, Res_bind_ok, hstream, Res_bind_ok, ← hline]
      simp only [hemit, hset, Res_bind_ok, he]
    · intro i n' k c' h1 h2 h3
      by_cases hi : pos = i
      · subst hi
        rw [hget] at h2
        obtain rfl := Option.some.inj h2
        rw [hc] at h3
        obtain rfl := Option.some.inj h3
        rw [hmain pos n' r.2 (c ++ line) h1 hget (by rw [List.getElem?_set, if_pos rfl, if_pos hlc])]
        simp [linesOfClass, hline, rowText_eq shw r.1 hne]
      · rw [hmain i n' k c' h1 h2 (by rw [List.getElem?_set, if_neg hi]; exact h3)]
        have hk : r.2 ≠ k := by
          intro hk
          exact hi (nodup_idx hcn hget (hk ▸ h2))
        simp [linesOfClass, hk]
    · intro p hp
      rw [hframe p hp, Function.update_of_ne]
      rintro rfl
      exact hp (List.mem_map.2 ⟨n, List.mem_of_getElem? hn, rfl⟩)

/-! ### labels -/

theorem tokenize_first {tok rest : Str} {d : Char} (h1 : tok ≠ []) (h2 : d ∉ tok) (h3 : rest = [] ∨ rest.head? = some d) :
    Text.tokenize (tok ++ rest) d = tok :: Text.tokenize rest d := by
  have := Pieces.cons (d := d) [] tok rest _ (by simp) h1 h2 h3 (Text.tokenize_pieces rest d)
  exact Text.pieces_inj (Text.tokenize_pieces _ _) _ this

theorem tokenize_lead {tok : Str} {d : Char} (h1 : tok ≠ []) (h2 : d ∉ tok) :
    Text.tokenize (d :: tok) d = [tok] := by
  have := Pieces.cons (d := d) [d] tok [] [] (by simp) h1 h2 (Or.inl rfl) (Pieces.nil [] (by simp))
  have h := Text.pieces_inj (Text.tokenize_pieces ([d] ++ tok ++ []) d) _ this
  simpa using h

theorem second_token {base n : Str} (hb : base ≠ []) (hb1 : '/' ∉ base) (hn : n ≠ []) (hn1 : '/' ∉ n) :
    vget (Text.tokenize (base ++ '/' :: n) '/') 1 = .ok n := by
  rw [tokenize_first hb hb1 (Or.inr rfl), tokenize_lead hn hn1]; rfl

theorem labelOf_ok {base n rest : Str} {decision : Bool} {sep : Char} (hsep : sep = if decision then '_' else '.')
    (hb : base ≠ []) (hb1 : '/' ∉ base) (hb2 : sep ∉ base)
    (hn : n ≠ []) (hn1 : '/' ∉ n) (hn2 : sep ∉ n) (hr : rest.head? = some sep) (hs : sep ≠ '/') :
    labelOf decision (base ++ '/' :: n ++ rest) = .ok n := by
  rw [labelOf, ← hsep, tokenize_first (by simp) (by simp [hb2, hn2, hs]) (Or.inr hr)]
  exact second_token hb hb1 hn hn1

theorem folder_chars (k : Nat) : ∃ base : Str, folderName k = base ++ ['/'] ∧ base ≠ [] ∧ '/' ∉ base ∧ '.' ∉ base ∧ '_' ∉ base := by
  refine ⟨"plottemp".toList ++ Text.natChars k, rfl, by simp, ?_⟩
  obtain ⟨ks, h1, -, h3, -⟩ := Text.natChars_spec k
  have hd : ∀ c : Char, (c.toNat < 48 ∨ 57 < c.toNat) → c ∉ ks.map digitChar := by
    intro c hc hm
    obtain ⟨j, hj, rfl⟩ := List.mem_map.1 hm
    exact Text.digitChar_ne (h3 j hj) _ hc rfl
  rw [h1]
  refine ⟨?_, ?_, ?_⟩ <;>
  · intro hm
    rcases List.mem_append.1 hm with h | h
    · revert h; decide
    · exact hd _ (by decide) h

/-- Sorting by keys that are all different gives the list with increasing keys. -/
theorem sortBy_ok (key : Str → Res Int) (g : Int × Str → Str) (l : List Str) (order : List (Int × Str))
    (hp : l.Perm (order.map g)) (hk : ∀ p ∈ order, key (g p) = .ok p.1) (hs : order.Pairwise (fun a b => a.1 < b.1)) :
    sortBy key l = .ok (order.map g) := by
  unfold sortBy
  split
  · rename_i hlt
    congr 1
    match l, hlt, hp with
    | [], _, hp => exact (List.nil_perm.1 hp).symm
    | [a], _, hp => exact List.singleton_perm.1 hp
  · have hkey : ∀ a ∈ l, ∃ p ∈ order, g p = a := fun a ha => List.mem_map.1 (hp.mem_iff.1 ha)
    let kv : Str → Int := fun a => match key a with
      | .ok k => k
      | .error _ => 0
    have hkv : ∀ a ∈ l, key a = .ok (kv a) := by
      intro a ha
      obtain ⟨p, hpo, rfl⟩ := hkey a ha
      simp [kv, hk p hpo]
    have hm : l.mapM (fun a => do let k ← key a; pure (k, a)) = (.ok (l.map (fun a => (kv a, a))) : Res _) := by
      apply Feat.mapM_ok
      intro a ha
      rw [hkv a ha]; rfl
    rw [hm, Res_bind_ok]
    have hperm : (l.map (fun a => (kv a, a))).Perm (order.map (fun p => (p.1, g p))) := by
      have := hp.map (fun a => (kv a, a))
      rw [List.map_map] at this
      refine this.trans (List.Perm.of_eq ?_)
      apply List.map_congr_left
      intro p hpo
      simp [kv, hk p hpo]
    have heq : (l.map (fun a => (kv a, a))).insertionSort (fun a b => a.1 ≤ b.1) = order.map (fun p => (p.1, g p)) := by
      refine List.Perm.eq_of_pairwise (le := fun a b : Int × Str => a.1 ≤ b.1) ?_ ?_ ?_ ((List.perm_insertionSort _ _).trans hperm)
      · intro a b ha hb h1 h2
        have ha' := hperm.mem_iff.1 ((List.perm_insertionSort _ _).mem_iff.1 ha)
        obtain ⟨p, hpo, rfl⟩ := List.mem_map.1 ha'
        obtain ⟨q, hqo, rfl⟩ := List.mem_map.1 hb
        have hpq : p.1 = q.1 := le_antisymm h1 h2
        have : p = q := by
          by_contra hne
          rcases List.pairwise_iff_getElem.1 hs with hs'
          obtain ⟨i, hi, rfl⟩ := List.getElem_of_mem hpo
          obtain ⟨j, hj, rfl⟩ := List.getElem_of_mem hqo
          rcases lt_trichotomy i j with h | h | h
          · exact absurd (hs' i j hi hj h) (by rw [hpq]; exact lt_irrefl _)
          · subst h; exact hne rfl
          · exact absurd (hs' j i hj hi h) (by rw [hpq]; exact lt_irrefl _)
        rw [this]
      · exact List.pairwise_insertionSort _ _
      · rw [List.pairwise_map]
        exact hs.imp (fun h => le_of_lt h)
    rw [heq, Res_pure, List.map_map]
    rfl

theorem keyOf_ok (classes : List Int) (names : List Str) (hlen : names.length = classes.length) (hnn : names.Nodup)
    (p : Int × Str) (hp : p ∈ classes.zip names) : keyOf classes names p.2 = .ok p.1 := by
  obtain ⟨i, hi, he⟩ := List.getElem_of_mem hp
  have hc : classes[i]? = some p.1 := by
    have hi' : i < classes.length := by rw [List.length_zip] at hi; omega
    rw [List.getElem?_eq_getElem hi', ← he]; simp
  have hn : names[i]? = some p.2 := by
    have hi' : i < names.length := by rw [List.length_zip] at hi; omega
    rw [List.getElem?_eq_getElem hi', ← he]; simp
  have hmem : p.2 ∈ names := List.mem_of_getElem? hn
  have h1 : names.findIdx (fun c => decide (c = p.2)) < names.length :=
    List.findIdx_lt_length_of_exists ⟨p.2, hmem, by simp⟩
  have h2 : names[names.findIdx (fun c => decide (c = p.2))]? = some p.2 := by
    have := List.findIdx_getElem (w := h1)
    rw [List.getElem?_eq_getElem h1]
    simpa using this
  rw [keyOf, nodup_idx hnn h2 hn, hc]

theorem sortLabels_ok (classes : List Int) (names : List Str) (decision : Bool) (path : Str → Str) (files : List Str)
    (order : List (Int × Str)) (hlen : names.length = classes.length) (hnn : names.Nodup)
    (hlab : ∀ n ∈ names, labelOf decision (path n) = .ok n) (hfiles : files.Perm (names.map path))
    (hord : ByClass classes names order) :
    sortLabels classes names decision files = .ok (order.map Prod.snd, order.map (fun p => path p.2)) := by
  have hzip : (classes.zip names).map Prod.snd = names := List.map_snd_zip (by omega)
  have hsnd : (order.map Prod.snd).Perm names := by
    have := hord.1.map Prod.snd
    rwa [hzip] at this
  have hmem : ∀ p ∈ order, p.2 ∈ names := fun p hp => hsnd.mem_iff.1 (List.mem_map_of_mem hp)
  have hkey : ∀ p ∈ order, keyOf classes names p.2 = .ok p.1 :=
    fun p hp => keyOf_ok classes names hlen hnn p (hord.1.mem_iff.1 hp)
  have hf2 : files.Perm (order.map (fun p => path p.2)) := by
    refine hfiles.trans ?_
    have := (hsnd.map path).symm
    rwa [List.map_map] at this
  let lab : Str → Str := fun f => match labelOf decision f with
    | .ok n => n
    | .error _ => []
  have hl : files.mapM (labelOf decision) = .ok (files.map lab) := by
    apply Feat.mapM_ok
    intro f hf
    obtain ⟨n, hn, rfl⟩ := List.mem_map.1 (hfiles.mem_iff.1 hf)
    simp [lab, hlab n hn]
  have hperm : (files.map lab).Perm (order.map Prod.snd) := by
    have := hf2.map lab
    rw [List.map_map] at this
    refine this.trans (List.Perm.of_eq ?_)
    apply List.map_congr_left
    intro p hp
    simp [lab, hlab p.2 (hmem p hp)]
  rw [sortLabels, hl, Res_bind_ok, sortBy_ok _ Prod.snd _ order hperm hkey hord.2, Res_bind_ok,
    sortBy_ok _ (fun p => path p.2) _ order hf2 ?_ hord.2, Res_bind_ok, Res_pure]
  intro p hp
  rw [hlab p.2 (hmem p hp), Res_bind_ok, hkey p hp]

theorem byClass_exists (classes : List Int) (names : List Str) (hlen : names.length = classes.length) (hcn : classes.Nodup) :
    ∃ order, ByClass classes names order := by
  refine ⟨(classes.zip names).insertionSort (fun a b => a.1 ≤ b.1), List.perm_insertionSort _ _, ?_⟩
  have h1 := List.pairwise_insertionSort (fun a b : Int × Str => a.1 ≤ b.1) (classes.zip names)
  have h2 : ((classes.zip names).insertionSort (fun a b => a.1 ≤ b.1)).Pairwise (fun a b => a.1 ≠ b.1) := by
    rw [← List.pairwise_map (f := Prod.fst) (R := fun a b => a ≠ b)]
    have : (((classes.zip names).insertionSort (fun a b => a.1 ≤ b.1)).map Prod.fst).Perm classes := by
      have := (List.perm_insertionSort (fun a b : Int × Str => a.1 ≤ b.1) (classes.zip names)).map Prod.fst
      rwa [List.map_fst_zip (by omega)] at this
    exact this.nodup_iff.2 hcn
  exact (h1.and h2).imp (fun h => lt_of_le_of_ne h.1 h.2)

theorem validFile_class (n : Str) : validFile (n ++ ['.', 'p', 'l', 't']) = true := by
  have h1 : ¬ (n ++ ['.', 'p', 'l', 't']).length < 4 := by simp
  rw [validFile, if_neg h1]
  simp [types]

/-- The files of the classes, listed in any order with the entries `.` and `..`. -/
theorem tempFiles_perm (folder : Str) (names listing : List Str)
    (h : listing.Perm ([['.'], ['.', '.']] ++ names.map (· ++ ['.', 'p', 'l', 't']))) :
    (tempFiles folder listing).Perm (names.map (plotFile folder)) := by
  have h1 := (h.filter validFile).map (folder ++ ·)
  refine h1.trans (List.Perm.of_eq ?_)
  have hf : (names.map (· ++ ['.', 'p', 'l', 't'])).filter validFile = names.map (· ++ ['.', 'p', 'l', 't']) := by
    apply List.filter_eq_self.2
    intro a ha
    obtain ⟨n, -, rfl⟩ := List.mem_map.1 ha
    exact validFile_class n
  rw [List.filter_append, hf]
  have h2 : List.filter validFile [['.'], ['.', '.']] = [] := by decide
  rw [h2, List.nil_append, List.map_map]
  apply List.map_congr_left
  intro n _
  simp [plotFile]

/-! ### plots -/

theorem intercalate_snoc (sep : Str) : ∀ (l : List Str) (a : Str),
    List.intercalate sep (l ++ [a]) = (l.map (· ++ sep)).flatten ++ a
  | [], a => by simp [List.intercalate]
  | [b], a => by simp [List.intercalate]
  | b :: b' :: l, a => by
    have ih := intercalate_snoc sep (b' :: l) a
    simp only [List.intercalate] at ih ⊢
    simp only [List.cons_append, List.intersperse_cons₂, List.flatten_cons, List.map_cons] at ih ⊢
    simp only [ih, List.append_assoc]

theorem vget_map {α β : Type} (f : α → β) (l : List α) (i : Nat) (a : α) (h : l[i]? = some a) :
    vget (l.map f) i = .ok (f a) := by
  rw [vget_eq_ok, List.getElem?_map, h]; rfl

theorem titled_ok (order : List (Int × Str)) (path : Str → Str) (dims tail : Str) (i : Nat) (p : Int × Str)
    (h : order[i]? = some p) :
    titledClause (order.map (fun p => path p.2)) (order.map Prod.snd) dims (" with points".toList ++ tail) i =
      .ok (drawFile (path p.2) dims p.2 ++ tail) := by
  rw [titledClause, vget_map _ _ _ _ h, Res_bind_ok, vget_map _ _ _ _ h, Res_bind_ok, Res_pure]
  congr 1
  simp [drawFile]

/-- The loop that draws every class. -/
theorem clauses_titled (order : List (Int × Str)) (folder dims extra : Str) (hne : order ≠ []) :
    clauses order.length
      (titledClause (order.map (fun p => plotFile folder p.2)) (order.map Prod.snd) dims " with points, ".toList)
      (titledClause (order.map (fun p => plotFile folder p.2)) (order.map Prod.snd) dims (" with points".toList ++ extra)) =
      .ok (drawClasses folder dims order ++ extra) := by
  obtain ⟨init, last, rfl⟩ : ∃ init last, order = init ++ [last] := by
    rcases List.eq_nil_or_concat order with h | ⟨l, b, h⟩
    · exact absurd h hne
    · exact ⟨l, b, by simpa using h⟩
  rw [List.length_append, List.length_singleton, clauses]
  have h1 : (List.range init.length).mapM
      (titledClause ((init ++ [last]).map (fun p => plotFile folder p.2)) ((init ++ [last]).map Prod.snd) dims " with points, ".toList) =
      .ok ((List.range init.length).map (fun i => match init[i]? with
        | some p => drawFile (plotFile folder p.2) dims p.2 ++ ", ".toList
        | none => [])) := by
    apply Feat.mapM_ok
    intro i hi
    have hi' : i < init.length := List.mem_range.1 hi
    have hget : init[i]? = some init[i] := List.getElem?_eq_getElem hi'
    have hget2 : (init ++ [last])[i]? = some init[i] := by rw [List.getElem?_append_left hi']; exact hget
    rw [hget]
    exact titled_ok (init ++ [last]) (plotFile folder) dims ", ".toList i init[i] hget2
  have h2 : (List.range init.length).map (fun i => match init[i]? with
        | some p => drawFile (plotFile folder p.2) dims p.2 ++ ", ".toList
        | none => []) = init.map (fun p => drawFile (plotFile folder p.2) dims p.2 ++ ", ".toList) := by
    apply List.ext_getElem?
    intro i
    rw [List.getElem?_map, List.getElem?_map]
    by_cases hi : i < init.length
    · rw [List.getElem?_range hi, Option.map_some, List.getElem?_eq_getElem hi, Option.map_some]
    · rw [List.getElem?_eq_none (by simpa using hi), List.getElem?_eq_none (by simpa using hi)]; rfl
  rw [h1, Res_bind_ok, h2, titled_ok (init ++ [last]) (plotFile folder) dims extra init.length last (by simp), Res_bind_ok, Res_pure]
  congr 1
  rw [drawClasses, List.map_append, List.map_singleton, intercalate_snoc, List.map_map, List.append_assoc]
  rfl

theorem fetch_text (c : Cfg) : (fetchConfigs c).1 =
    Preamble.text ⟨c.save, c.fmt, c.outName, c.terminal, c.title, c.xr, c.yr, c.zr, c.xl, c.yl, c.zl⟩ := by
  simp only [fetchConfigs, Preamble.text, opt, optStmt]
  congr 7
  by_cases hs : c.save = true
  · simp [hs]
  · by_cases ht : c.terminal = []
    · simp [hs, ht]
    · simp [hs, ht]

theorem prepareScript_eq (s : Str) : prepareScript s = onLines s := rfl

section
variable {K : Type} [Field K] [LinearOrder K] [FloorRing K]

theorem rangeText_eq (tx : Txt K) (r : K × K) : rangeText tx r = interval tx.fix r := rfl

theorem column_ok (d : VData K) (x dim : Nat) (h : ∀ r ∈ d.rows, r.1.length = dim) (hx : x < dim) :
    d.column x = .ok (d.rows.map (fun r => r.1.getD x 0)) := by
  apply Feat.mapM_ok
  intro r hr
  have : x < r.1.length := by rw [h r hr]; exact hx
  simp [this]

theorem colNo_ok (x : Nat) (h : x + 1 < 2 ^ 31) : ∃ s, colNo x = .ok s ∧ IsNumeral ((x : Int) + 1) s :=
  Text.itos_numeral _ (by omega) (by omega)

theorem itos_nat (x : Nat) (h : x < 2 ^ 31) : ∃ s, Text.itos x = .ok s ∧ IsNumeral (x : Int) s :=
  Text.itos_numeral _ (by omega) (by omega)

end
end MLTK.Vis
