import Verif.Spec.Print
import Verif.Lemmas.Csv
import Verif.Lemmas.Clustering
/-!
# C183: printed points, datasets and confusion matrices
-/
namespace MLTK.Props
open MLTK.Print MLTK.Spec
open MLTK.Data (Res_bind_ok Res_bind_error Res_pure)
variable {K : Type}

private theorem join_snoc (str : K → Str) (l : List K) (a : K) :
    l.flatMap (fun v => str v ++ [',', ' ']) ++ str a = List.intercalate [',', ' '] ((l ++ [a]).map str) := by
  induction l with
  | nil => simp [List.intercalate]
  | cons b l ih =>
    rw [List.flatMap_cons, List.append_assoc, ih]
    cases l <;> simp [List.intercalate, List.intersperse]

private theorem opening_eq (id : Nat) :
    opening id = (if id = 0 then [] else Nat.toDigits 10 id ++ [':']) ++ ['['] := by
  unfold opening Text.natChars
  cases id <;> simp

/-- C183: a point with at least one component is printed with its number (unless that is 0), and then
all its components in order and its label, if it has one. -/
theorem C183_point (str : K → Str) (p : PPoint K) (h : p.x ≠ []) :
    point str p = .ok (pointLine str p) := by
  obtain ⟨id, x, y⟩ := p
  obtain ⟨l, a, rfl⟩ : ∃ l a, x = l ++ [a] := ⟨_, _, (List.dropLast_append_getLast h).symm⟩
  have hv : vget (l ++ [a]) ((l ++ [a]).length - 1) = .ok a := by simp
  have hl : leading str (l ++ [a]) = l.flatMap (fun v => str v ++ [',', ' ']) := by simp [leading]
  unfold point
  rw [hv, Res_bind_ok]
  cases y with
  | none =>
    simp only [hl, pointLine, shownNumbers, Option.toList, List.append_nil, opening_eq]
    rw [List.append_assoc _ _ (str a), join_snoc]
    rfl
  | some b =>
    simp only [hl, pointLine, shownNumbers, Option.toList, opening_eq]
    rw [← join_snoc]
    simp only [List.flatMap_append, List.flatMap_cons, List.flatMap_nil, List.append_nil, List.append_assoc]
    rfl

example : point Text.natChars { id := 12, x := [3, 45], y := some 1 } =
    .ok ['1', '2', ':', '[', '3', ',', ' ', '4', '5', ',', ' ', '1', ']'] := by decide

/-- C183 is false of the code: printing a point without components reads outside its array. -/
theorem C183_empty_refuted (str : K → Str) (id : Nat) (y : Option K) :
    point str { id := id, x := [], y := y } = .error .outOfBounds := rfl

/-- C183 is false of the code: a point with a label and an unlabelled point with one more component are
printed alike, whatever the numbers look like. -/
theorem C183_label_refuted (str : K → Str) (id : Nat) (a b : K) :
    point str { id := id, x := [a], y := some b } = point str { id := id, x := [a, b], y := none } ∧
    ({ id := id, x := [a], y := some b } : PPoint K) ≠ { id := id, x := [a, b], y := none } := by
  refine ⟨?_, fun e => by simp at e⟩
  rw [C183_point _ _ (by simp), C183_point _ _ (by simp)]
  simp [pointLine, shownNumbers]

private theorem token_split {d : Char} {a b r r' : Str} (ha : d ∉ a) (hb : d ∉ b)
    (h : a ++ d :: r = b ++ d :: r') : a = b ∧ r = r' := by
  induction a generalizing b with
  | nil =>
    cases b with
    | nil => simpa using h
    | cons c b => simp at h; exact absurd (by simp [h.1]) hb
  | cons c a ih =>
    cases b with
    | nil => simp at h; exact absurd (by simp [← h.1]) ha
    | cons c' b =>
      simp only [List.cons_append, List.cons.injEq] at h
      obtain ⟨e1, e2⟩ := ih (fun hm => ha (by simp [hm])) (fun hm => hb (by simp [hm])) h.2
      exact ⟨by rw [h.1, e1], e2⟩

private theorem natChars_no (n : Nat) (c : Char) (hc : c ∉ (List.range 10).map Spec.digitChar) :
    c ∉ Text.natChars n := by
  obtain ⟨ks, h1, -, h3, -⟩ := Text.natChars_spec n
  rw [h1]
  intro hm
  obtain ⟨k, hk, rfl⟩ := List.mem_map.mp hm
  exact hc (List.mem_map.mpr ⟨k, List.mem_range.mpr (h3 k hk), rfl⟩)

private theorem digitChar_inj {k l : Nat} (hk : k < 10) (hl : l < 10)
    (h : Spec.digitChar k = Spec.digitChar l) : k = l := by
  have : ∀ k < 10, ∀ l < 10, Spec.digitChar k = Spec.digitChar l → k = l := by decide
  exact this k hk l hl h

private theorem map_digit_inj : ∀ (a b : List Nat), (∀ k ∈ a, k < 10) → (∀ k ∈ b, k < 10) →
    a.map Spec.digitChar = b.map Spec.digitChar → a = b
  | [], [], _, _, _ => rfl
  | [], _ :: _, _, _, h => by simp at h
  | _ :: _, [], _, _, h => by simp at h
  | x :: a, y :: b, ha, hb, h => by
    simp only [List.map_cons, List.cons.injEq] at h
    rw [digitChar_inj (ha x (by simp)) (hb y (by simp)) h.1,
      map_digit_inj a b (fun k hk => ha k (by simp [hk])) (fun k hk => hb k (by simp [hk])) h.2]

private theorem natChars_inj {n m : Nat} (h : Text.natChars n = Text.natChars m) : n = m := by
  obtain ⟨ks, h1, -, h3, -, h5⟩ := Text.natChars_spec n
  obtain ⟨ls, g1, -, g3, -, g5⟩ := Text.natChars_spec m
  rw [← h5, ← g5, map_digit_inj ks ls h3 g3 (by rw [← h1, ← g1, h])]

private theorem natChars_ne (n : Nat) : Text.natChars n ≠ [] := by
  obtain ⟨ks, h1, h2, -⟩ := Text.natChars_spec n
  rw [h1]; simpa using h2

private theorem opening_split {n m : Nat} {r r' : Str} (h : opening n ++ r = opening m ++ r') :
    n = m ∧ r = r' := by
  have hb : ∀ k, '[' ∉ (if k = 0 then ([] : Str) else Nat.toDigits 10 k ++ [':']) := by
    intro k hm
    split at hm
    · simp at hm
    · rcases List.mem_append.mp hm with hm | hm
      · exact natChars_no k '[' (by decide) hm
      · simp at hm
  rw [opening_eq, opening_eq, List.append_assoc, List.append_assoc, List.singleton_append,
    List.singleton_append] at h
  obtain ⟨e, er⟩ := token_split (hb n) (hb m) h
  refine ⟨?_, er⟩
  by_cases hn : n = 0 <;> by_cases hm : m = 0
  · rw [hn, hm]
  · rw [if_pos hn, if_neg hm] at e; simp at e
  · rw [if_neg hn, if_pos hm] at e; simp at e
  · rw [if_neg hn, if_neg hm] at e
    exact natChars_inj (List.append_cancel_right e)

private theorem join_inj (str : K → Str) (hs : ∀ v, ',' ∉ str v) (hi : Function.Injective str) :
    ∀ (a b : List K) (u w : K), a.flatMap (fun v => str v ++ [',', ' ']) ++ str u =
      b.flatMap (fun v => str v ++ [',', ' ']) ++ str w → a = b ∧ u = w
  | [], [], u, w, h => ⟨rfl, hi (by simpa using h)⟩
  | [], y :: b, u, w, h => by
    refine absurd ?_ (hs u)
    simp only [List.flatMap_nil, List.nil_append] at h
    rw [h]; simp
  | x :: a, [], u, w, h => by
    refine absurd ?_ (hs w)
    simp only [List.flatMap_nil, List.nil_append] at h
    rw [← h]; simp
  | x :: a, y :: b, u, w, h => by
    simp only [List.flatMap_cons, List.append_assoc, List.cons_append, List.nil_append] at h
    obtain ⟨e1, e2⟩ := token_split (hs x) (hs y) h
    obtain ⟨e3, e4⟩ := join_inj str hs hi a b u w (by simpa using e2)
    exact ⟨by rw [hi e1, e3], e4⟩

/-- C183, reading back: if different numbers have different texts (which holds for numbers of up to six
significant digits) and no text contains a comma, two points with at least one component that are both
labelled or both unlabelled and are printed alike have the same number, components and label.

Missing for the full claim: a labelled against an unlabelled point, points without components (see the
`_refuted` theorems), and numbers whose texts coincide. -/
theorem C183_readable_partial (str : K → Str) (hi : Function.Injective str) (hs : ∀ v, ',' ∉ str v)
    (p q : PPoint K) (hp : p.x ≠ []) (hq : q.x ≠ []) (hl : p.y.isSome = q.y.isSome)
    (h : point str p = point str q) : p = q := by
  rw [C183_point _ _ hp, C183_point _ _ hq, Except.ok.injEq] at h
  obtain ⟨id, x, y⟩ := p
  obtain ⟨id', x', y'⟩ := q
  obtain ⟨l, a, rfl⟩ : ∃ l a, x = l ++ [a] := ⟨_, _, (List.dropLast_append_getLast hp).symm⟩
  obtain ⟨l', a', rfl⟩ : ∃ l' a', x' = l' ++ [a'] := ⟨_, _, (List.dropLast_append_getLast hq).symm⟩
  unfold pointLine at h
  rw [← opening_eq, ← opening_eq] at h
  have h := List.append_cancel_right h
  obtain ⟨rfl, hr⟩ := opening_split h
  cases y with
  | none =>
    cases y' with
    | some _ => simp at hl
    | none =>
      simp only [shownNumbers, Option.toList, List.append_nil] at hr
      rw [← join_snoc, ← join_snoc] at hr
      obtain ⟨rfl, rfl⟩ := join_inj str hs hi _ _ _ _ hr
      rfl
  | some b =>
    cases y' with
    | none => simp at hl
    | some b' =>
      simp only [shownNumbers, Option.toList] at hr
      rw [← join_snoc, ← join_snoc] at hr
      obtain ⟨e, rfl⟩ := join_inj str hs hi _ _ _ _ hr
      rw [e]

/-- Numbers of at most six digits are printed in full, so the hypotheses are met. -/
example : Function.Injective (fun v : Fin 1000000 => Text.natChars v.val) ∧
    ∀ v : Fin 1000000, ',' ∉ Text.natChars v.val :=
  ⟨fun _ _ h => Fin.ext (natChars_inj h), fun v => natChars_no _ _ (by decide)⟩

/-- C183: a dataset whose points all have components is printed as one line per point, in order. -/
theorem C183_dataset (str : K → Str) (ps : List (PPoint K)) (h : ∀ p ∈ ps, p.x ≠ []) :
    dataset str ps = .ok (ps.flatMap (fun p => pointLine str p ++ ['\n'])) := by
  induction ps with
  | nil => rfl
  | cons p ps ih =>
    unfold dataset
    rw [C183_point _ _ (h p (by simp)), Res_bind_ok, ih (fun q hq => h q (by simp [hq])), Res_bind_ok,
      Res_pure, List.flatMap_cons]
    simp

example : dataset Text.natChars [{ id := 0, x := [3], y := none }, { id := 2, x := [4], y := some 1 }] =
    .ok ['[', '3', ']', '\n', '2', ':', '[', '4', ',', ' ', '1', ']', '\n'] := by decide

private theorem cells_ok (row : List Nat) :
    cells row row.length = .ok (row.flatMap (fun v => Text.natChars v ++ ['\t'])) := by
  have : (List.range row.length).mapM (fun j => (do
      pure (Text.natChars (← vget row j) ++ ['\t']) : Res Str)) =
      .ok (row.map (fun v => Text.natChars v ++ ['\t'])) := by
    have e : row.map (fun v => Text.natChars v ++ ['\t']) = (List.range row.length).map
        (fun j => Text.natChars (row.getD j 0) ++ ['\t']) := by
      apply List.ext_getElem
      · simp
      · intro i h1 h2
        simp only [List.length_map] at h1
        simp [h1]
    rw [e]
    refine Feat.mapM_ok _ _ _ (fun j hj => ?_)
    have hj := List.mem_range.mp hj
    rw [KMeans.vget_lt _ _ hj, Res_bind_ok, Res_pure]
    simp [hj]
  unfold cells
  rw [this, Res_bind_ok, Res_pure, List.flatMap_def]

private theorem cells_inj : ∀ (a b : List Nat) (u w : Str), a.length = b.length →
    a.flatMap (fun v => Text.natChars v ++ ['\t']) ++ u =
      b.flatMap (fun v => Text.natChars v ++ ['\t']) ++ w → a = b ∧ u = w
  | [], [], u, w, _, h => ⟨rfl, by simpa using h⟩
  | [], y :: b, u, w, hl, h => by simp at hl
  | x :: a, [], u, w, hl, h => by simp at hl
  | x :: a, y :: b, u, w, hl, h => by
    simp only [List.flatMap_cons, List.append_assoc, List.cons_append, List.nil_append] at h
    obtain ⟨e1, e2⟩ := token_split (natChars_no x _ (by decide)) (natChars_no y _ (by decide)) h
    obtain ⟨e3, e4⟩ := cells_inj a b u w (by simpa using hl) e2
    exact ⟨by rw [natChars_inj e1, e3], e4⟩

/-- The heading of row and column `i`. -/
private def headText (classes : List Int) (names : List Str) (showNames : Bool) (i : Nat) : Str :=
  if showNames then names.getD i [] else intChars (classes.getD i 0)

private def rowText (classes : List Int) (names : List Str) (m : List (List Nat)) (showNames : Bool)
    (i : Nat) : Str :=
  headText classes names showNames i ++ [' ', '|', ' '] ++
    (m.getD i []).flatMap (fun v => Text.natChars v ++ ['\t']) ++ ['\n']

private theorem heading_ok (classes : List Int) (names : List Str) (showNames : Bool) (i : Nat)
    (hi : i < classes.length) (hn : showNames = true → classes.length ≤ names.length) :
    heading classes names showNames i = .ok (headText classes names showNames i) := by
  unfold heading headText
  cases showNames with
  | false =>
    rw [if_neg (by simp), if_neg (by simp), KMeans.vget_lt _ _ hi, Res_bind_ok, Res_pure]
    simp [hi]
  | true =>
    have hi' : i < names.length := by have := hn rfl; omega
    rw [if_pos rfl, if_pos rfl, KMeans.vget_lt _ _ hi']
    simp [hi']

private theorem row_ok (classes : List Int) (names : List Str) (m : List (List Nat)) (showNames : Bool)
    (i : Nat) (hi : i < classes.length) (hn : showNames = true → classes.length ≤ names.length)
    (hm : SquareTable classes.length m) :
    tableRow classes names m showNames i = .ok (rowText classes names m showNames i) := by
  have hi' : i < m.length := by rw [hm.1]; exact hi
  have hr : m[i].length = classes.length := hm.2 _ (List.getElem_mem hi')
  unfold tableRow rowText
  rw [heading_ok _ _ _ _ hi hn, Res_bind_ok, KMeans.vget_lt _ _ hi', Res_bind_ok, ← hr, cells_ok,
    Res_bind_ok, Res_pure]
  simp [hi']

private theorem table_ok (classes : List Int) (names : List Str) (showNames : Bool)
    (hn : showNames = true → classes.length ≤ names.length) :
    ∃ pre : Str, (∀ m', SquareTable classes.length m' → table classes names m' showNames =
      .ok (pre ++ ((List.range classes.length).map (rowText classes names m' showNames)).flatten)) := by
  refine ⟨[' ', ' ', ' ', ' '] ++ ((List.range classes.length).map (fun i =>
      headText classes names showNames i ++ ['\t'])).flatten ++ ['\n'] ++ [' ', ' ', ' ', ' '] ++
    (List.replicate classes.length ['-', '-', '-', '-']).flatten ++ ['\n'], fun m' hm' => ?_⟩
  unfold table
  rw [Feat.mapM_ok _ (fun i => headText classes names showNames i ++ ['\t']) _ (fun i hi => by
      rw [heading_ok _ _ _ _ (List.mem_range.mp hi) hn, Res_bind_ok, Res_pure]), Res_bind_ok,
    Feat.mapM_ok _ (rowText classes names m' showNames) _ (fun i hi =>
      row_ok _ _ _ _ _ (List.mem_range.mp hi) hn hm'), Res_bind_ok, Res_pure]

private theorem rows_inj (classes : List Int) (names : List Str) (m m' : List (List Nat))
    (showNames : Bool) : ∀ (is : List Nat), (∀ i ∈ is, (m.getD i []).length = (m'.getD i []).length) →
    (is.map (rowText classes names m showNames)).flatten =
      (is.map (rowText classes names m' showNames)).flatten →
    ∀ i ∈ is, m.getD i [] = m'.getD i []
  | [], _, _ => nofun
  | i :: is, hl, h => by
    simp only [List.map_cons, List.flatten_cons, rowText, List.append_assoc] at h
    have h := List.append_cancel_left (List.append_cancel_left h)
    obtain ⟨e1, e2⟩ := cells_inj _ _ _ _ (hl i (by simp)) h
    have e2 := List.append_cancel_left e2
    have ih := rows_inj classes names m m' showNames is (fun j hj => hl j (by simp [hj])) (by
      simpa only [rowText, List.append_assoc] using e2)
    intro j hj
    rcases List.mem_cons.mp hj with rfl | hj
    · exact e1
    · exact ih j hj

/-- C183, the layout.  The table has a line with the headings, a rule and a line per class: its heading and the numbers
of its row.  A heading is the name of the class or the class as a decimal numeral. -/
theorem C183_layout_partial (classes : List Int) (names : List Str) (m : List (List Nat)) (showNames : Bool)
    (hn : showNames = true → classes.length ≤ names.length) (hm : SquareTable classes.length m) :
    ∃ (hs : List Str) (cs : List (List Str)), hs.length = classes.length ∧
      (∀ i (h : i < classes.length), (showNames = true → hs[i]? = names[i]?) ∧
        (showNames = false → ∃ t, hs[i]? = some t ∧ IsNumeral classes[i] t)) ∧
      List.Forall₂ (List.Forall₂ (fun (v : Nat) t => IsNumeral v t)) m cs ∧
      table classes names m showNames = .ok ("    ".toList ++ (hs.flatMap (fun h => h ++ ['\t'])) ++ ['\n'] ++ "    ".toList ++
        List.replicate (4 * classes.length) '-' ++ ['\n'] ++
        (List.zipWith (fun h c => h ++ " | ".toList ++ c.flatMap (fun t => t ++ ['\t']) ++ ['\n']) hs cs).flatten) := by
  refine ⟨(List.range classes.length).map (headText classes names showNames), m.map (fun r => r.map Text.natChars),
    by simp, ?_, ?_, ?_⟩
  · intro i h
    constructor
    · intro hs
      have hi' : i < names.length := by have := hn hs; omega
      simp [headText, hs, h, hi']
    · intro hs
      refine ⟨intChars classes[i], by simp [headText, hs, h], ?_⟩
      obtain ⟨ks, h1, h2, h3, h4, h5⟩ := Text.natChars_spec classes[i].natAbs
      refine ⟨ks, h2, h3, h4, h5, ?_⟩
      by_cases hc : classes[i] < 0 <;> simp [intChars, hc, h1]
  · rw [List.forall₂_map_right_iff]
    apply List.forall₂_same.2
    intro r _
    rw [List.forall₂_map_right_iff]
    apply List.forall₂_same.2
    intro v _
    obtain ⟨ks, h1, h2, h3, h4, h5⟩ := Text.natChars_spec v
    exact ⟨ks, h2, h3, h4, by simpa using h5, by simp [h1]⟩
  · unfold table
    rw [Feat.mapM_ok _ (fun i => headText classes names showNames i ++ ['\t']) _ (fun i hi => by
        rw [heading_ok _ _ _ _ (List.mem_range.mp hi) hn, Res_bind_ok, Res_pure]), Res_bind_ok,
      Feat.mapM_ok _ (rowText classes names m showNames) _ (fun i hi =>
        row_ok _ _ _ _ _ (List.mem_range.mp hi) hn hm), Res_bind_ok, Res_pure]
    congr 1
    have e1 : (List.replicate classes.length ['-', '-', '-', '-']).flatten = List.replicate (4 * classes.length) '-' := by
      rw [show ['-', '-', '-', '-'] = List.replicate 4 '-' from rfl, List.flatten_replicate_replicate, Nat.mul_comm]
    have e2 : (List.range classes.length).map (rowText classes names m showNames) =
        List.zipWith (fun h c => h ++ " | ".toList ++ c.flatMap (fun t => t ++ ['\t']) ++ ['\n'])
          ((List.range classes.length).map (headText classes names showNames)) (m.map (fun r => r.map Text.natChars)) := by
      apply List.ext_getElem
      · simp [hm.1]
      · intro i h1 h2
        have h3 : i < m.length := by rw [hm.1]; simpa using h1
        simp [rowText, List.flatMap_map, h3]
    rw [e1, e2, List.flatMap_map, ← List.flatMap_def]
    rfl

/-- C183: with as many rows and columns as classes (and, if names are to be shown, a name for each
class), the confusion matrix is printed, and nothing of it is lost: different matrices are printed
differently.

Missing for the full claim: fewer names than classes (`C183_names_refuted`) and matrices that have more
rows or columns than there are classes (`C183_cut_refuted`). -/
theorem C183_table_partial (classes : List Int) (names : List Str) (m m' : List (List Nat))
    (showNames : Bool) (hn : showNames = true → classes.length ≤ names.length)
    (hm : SquareTable classes.length m) (hm' : SquareTable classes.length m') :
    (∃ t, table classes names m showNames = .ok t) ∧
    (table classes names m showNames = table classes names m' showNames → m = m') := by
  obtain ⟨pre, hp⟩ := table_ok classes names showNames hn
  refine ⟨⟨_, hp m hm⟩, fun h => ?_⟩
  rw [hp m hm, hp m' hm', Except.ok.injEq] at h
  have h := List.append_cancel_left h
  have hlen : ∀ i ∈ List.range classes.length, (m.getD i []).length = (m'.getD i []).length := by
    intro i hi
    have hi := List.mem_range.mp hi
    have h1 : i < m.length := by rw [hm.1]; exact hi
    have h2 : i < m'.length := by rw [hm'.1]; exact hi
    simp only [List.getD_eq_getElem?_getD, List.getElem?_eq_getElem h1, List.getElem?_eq_getElem h2,
      Option.getD_some]
    rw [hm.2 _ (List.getElem_mem h1), hm'.2 _ (List.getElem_mem h2)]
  have hr := rows_inj classes names m m' showNames _ hlen h
  apply List.ext_getElem
  · rw [hm.1, hm'.1]
  · intro i h1 h2
    have := hr i (List.mem_range.mpr (by rw [← hm.1]; exact h1))
    simpa [h1, h2] using this

example : SquareTable 2 [[5, 1], [0, 12]] ∧ table [-1, 1] [] [[5, 1], [0, 12]] false =
    .ok ("    -1\t1\t\n    --------\n-1 | 5\t1\t\n1 | 0\t12\t\n").toList :=
  ⟨⟨rfl, by decide⟩, by decide +kernel⟩

/-- C183 is false of the code: if the names of the classes are asked for and one is missing, the table
reads outside the list of names. -/
theorem C183_names_refuted (classes : List Int) (names : List Str) (m : List (List Nat))
    (h : names.length < classes.length) : table classes names m true = .error .outOfBounds := by
  have key : ∀ (is : List Nat), (∃ i ∈ is, names.length ≤ i) → (is.mapM (fun i => do
      pure ((← heading classes names true i) ++ ['\t'])) : Res (List Str)) = .error .outOfBounds := by
    intro is
    induction is with
    | nil => rintro ⟨i, hi, -⟩; simp at hi
    | cons j is ih =>
      rintro ⟨i, hi, hle⟩
      rw [List.mapM_cons]
      unfold heading at ih ⊢
      simp only [if_true] at ih ⊢
      by_cases hj : j < names.length
      · have : i ∈ is := by
          rcases List.mem_cons.mp hi with rfl | h
          · omega
          · exact h
        rw [KMeans.vget_lt _ _ hj, Res_bind_ok, Res_pure, Res_bind_ok, ih ⟨i, this, hle⟩]
        rfl
      · have : vget names j = .error .outOfBounds := by
          unfold vget
          rw [List.getElem?_eq_none (by omega)]
        rw [this]; rfl
  unfold table
  rw [key _ ⟨names.length, List.mem_range.mpr h, Nat.le_refl _⟩]
  rfl

/-- C183 is false of the code: rows and columns beyond the number of classes are not shown. -/
theorem C183_cut_refuted :
    ∃ (classes : List Int) (m m' : List (List Nat)), SquareTable 2 m ∧ SquareTable 2 m' ∧ m ≠ m' ∧
      table classes [] m false = table classes [] m' false :=
  ⟨[1], [[3, 4], [5, 6]], [[3, 0], [0, 0]], ⟨rfl, by decide⟩, ⟨rfl, by decide⟩, by decide, by decide⟩

end MLTK.Props
