import Verif.Lemmas.Features
/-!
# C17: features, C18: sampling
-/
namespace MLTK.Props
open MLTK.Feat
open MLTK.Data (Res_bind_ok Res_bind_error Res_pure)

/-! ## C17 -/

/-- A dataset whose names, columns and dimension agree and whose feature names are non-negative and ascending: what
loading a file (names 1 … dim) produces. -/
def Aligned {T : Type} (d : Tbl T) : Prop :=
  d.dim = d.fnames.length ∧ (∀ r ∈ d.rows, r.length = d.dim) ∧ d.fnames.Pairwise (· < ·) ∧ ∀ n ∈ d.fnames, 0 ≤ n

/-- The value of feature `f` in a sample. -/
def value {T : Type} (names : List Int) (row : List T) (f : Int) : Option T := (names.zip row).lookup f

theorem value_cols {T : Type} (k : Int → Bool) (names : List Int) (row : List T) (f : Int)
    (hl : row.length = names.length) (hn : names.Pairwise (· < ·)) :
    value (names.filter k) (cols k names row) f = if k f then value names row f else none := by
  induction names generalizing row with
  | nil => simp [value]
  | cons n ns ih =>
    cases row with
    | nil => simp at hl
    | cons x xs =>
      have h2 := List.pairwise_cons.1 hn
      have := ih xs (by simpa using hl) h2.2
      rw [cols_cons, List.filter_cons]
      by_cases hk : k n = true
      · simp only [hk, if_true, value, List.zip_cons_cons, List.lookup_cons]
        by_cases hf : f = n
        · subst hf; simp [hk]
        · have hb : (f == n) = false := by simpa using hf
          simp only [hb]
          exact this
      · simp only [hk, if_false, Bool.false_eq_true, value, List.zip_cons_cons, List.lookup_cons]
        by_cases hf : f = n
        · subst hf
          have : value (ns.filter k) (cols k ns xs) f = none := by
            rw [this]; simp [hk]
          simp only [value] at this
          rw [this]; simp [hk]
        · have hb : (f == n) = false := by simpa using hf
          simp only [hb]
          exact this

/-- Removing features, none of them listed twice unless it does not exist, from an aligned dataset with more than one feature keeps exactly the columns and names not
listed, in order, in every sample, and keeps the dataset aligned (so removals can be chained).
Missing from C17: datasets with names out of order and lists with repetitions (see the refutations). -/
theorem C17_remove_partial {T : Type} (d : Tbl T) (feats : List Int) (hd : Aligned d) (h1 : d.fnames.length ≠ 1)
    (hnd : (feats.filter (· ∈ d.fnames)).Nodup) :
    ∃ d', removeFeatures d feats = .ok (d', true) ∧ Aligned d' ∧
      d'.fnames = d.fnames.filter (fun n => decide (n ∉ feats)) ∧
      d'.rows = d.rows.map (fun row => ((row.zip d.fnames).filter (fun p => decide (p.2 ∉ feats))).map Prod.fst) := by
  obtain ⟨hdim, hrows, hasc, hpos⟩ := hd
  have hal : Aligned (⟨d.rows.map (cols (fun n => decide (n ∉ feats)) d.fnames),
      d.fnames.filter (fun n => decide (n ∉ feats)),
      (d.fnames.filter (fun n => decide (n ∉ feats))).length⟩ : Tbl T) := by
    refine ⟨rfl, ?_, hasc.filter _, fun n hn => hpos n (List.mem_filter.1 hn).1⟩
    intro r hr
    obtain ⟨x, hx, rfl⟩ := List.mem_map.1 hr
    exact cols_length _ _ _ (by rw [hrows x hx, hdim])
  refine ⟨_, ?_, hal, rfl, rfl⟩
  by_cases he : feats = []
  · rw [removeFeatures, if_pos he]
    subst he
    simp only [List.not_mem_nil, not_false_eq_true, decide_true, List.filter_true, Res_pure]
    have : d.rows.map (cols (fun _ => true) d.fnames) = d.rows := by
      conv_rhs => rw [← List.map_id d.rows]
      apply List.map_congr_left
      intro r hr
      exact cols_all _ _ _ (by rw [hrows r hr, hdim]) (by simp)
    rw [this]
    cases d
    simp_all
  · rw [removeFeatures, if_neg he, if_neg h1]
    have hperm := sortInt_perm feats
    have hlt : ((sortInt feats).filter (fun f => decide (f > -1 ∧ f ∈ d.fnames))).Pairwise (· < ·) := by
      have a1 : ((sortInt feats).filter (fun f => decide (f > -1 ∧ f ∈ d.fnames))).Pairwise (· ≤ ·) :=
        (List.pairwise_insertionSort (· ≤ ·) feats).filter _
      have a2 : ((sortInt feats).filter (fun f => decide (f > -1 ∧ f ∈ d.fnames))).Nodup := by
        have a3 : ((sortInt feats).filter (fun f => decide (f ∈ d.fnames))).Nodup :=
          (hperm.filter _).nodup_iff.2 hnd
        refine List.Nodup.sublist ?_ a3
        have : (sortInt feats).filter (fun f => decide (f > -1 ∧ f ∈ d.fnames)) =
            ((sortInt feats).filter (fun f => decide (f ∈ d.fnames))).filter (fun f => decide (f > -1)) := by
          rw [List.filter_filter]
          apply List.filter_congr
          intro f _
          rw [Bool.decide_and]
        rw [this]
        exact List.filter_sublist
      exact (a1.and a2).imp (fun ⟨a, b⟩ => lt_of_le_of_ne a b)
    have hmem : ∀ n, n ∈ sortInt feats ↔ n ∈ feats := fun n => hperm.mem_iff
    have hex : (sortInt feats).mapM (existsName d.fnames d.dim) =
        Except.ok ((sortInt feats).map (fun f => decide (f > -1 ∧ f ∈ d.fnames))) := by
      apply mapM_ok
      intro f _
      rw [hdim, existsName_full]
    simp only [hex, Res_bind_ok]
    have hzip : (sortInt feats).zip ((sortInt feats).map (fun f => decide (f > -1 ∧ f ∈ d.fnames))) =
        (sortInt feats).map (fun f => (f, decide (f > -1 ∧ f ∈ d.fnames))) := by
      generalize sortInt feats = l
      induction l with
      | nil => rfl
      | cons a l ih => rw [List.map_cons, List.map_cons, List.zip_cons_cons, ih]
    have hflag : ∀ n, n ∈ flagged ((sortInt feats).map (fun f => (f, decide (f > -1 ∧ f ∈ d.fnames)))) ↔
        n ∈ feats ∧ n > -1 ∧ n ∈ d.fnames := by
      intro n
      simp only [flagged, List.mem_map, List.mem_filter]
      constructor
      · rintro ⟨p, ⟨⟨f, hf, rfl⟩, hp⟩, rfl⟩
        exact ⟨(hmem f).1 hf, by simpa using hp⟩
      · rintro ⟨ha, hb⟩
        exact ⟨(n, _), ⟨⟨n, (hmem n).2 ha, rfl⟩, by simpa using hb⟩, rfl⟩
    have hrw : d.rows.mapM (eraseLoop ((sortInt feats).map (fun f => (f, decide (f > -1 ∧ f ∈ d.fnames)))) d.fnames) =
        Except.ok (d.rows.map (cols (fun n => decide (n ∉ feats)) d.fnames)) := by
      apply mapM_ok
      intro r hr
      rw [eraseLoop_spec r _ d.fnames (by rw [hrows r hr, hdim]) hasc (by
        have : flagged ((sortInt feats).map (fun f => (f, decide (f > -1 ∧ f ∈ d.fnames)))) =
            (sortInt feats).filter (fun f => decide (f > -1 ∧ f ∈ d.fnames)) := by
          unfold flagged
          generalize sortInt feats = l
          induction l with
          | nil => rfl
          | cons a l ih =>
            rw [List.map_cons, List.filter_cons, List.filter_cons]
            by_cases ha : a > -1 ∧ a ∈ d.fnames
            · simp only [decide_eq_true ha, if_true, List.map_cons, ih]
            · simp only [decide_eq_false ha, Bool.false_eq_true, if_false, ih]
        rw [this]
        exact hlt) (fun f hf => ((hflag f).1 hf).2.2)]
      congr 1
      apply cols_congr
      intro n hn
      apply decide_eq_decide.2
      rw [hflag]
      constructor
      · intro h hm; exact h ⟨hm, by have := hpos n hn; omega, hn⟩
      · intro h hm; exact h hm.1
    rw [hzip, hrw, Res_bind_ok, hdim, eraseNames_spec _ d.fnames (hasc.imp (fun h => ne_of_lt h))]
    simp only [hmem, Res_pure]

/-- In the reduced samples every surviving feature keeps its value and the others have none. -/
theorem C17_remove_values_partial {T : Type} (d d' : Tbl T) (feats : List Int) (hd : Aligned d)
    (h1 : d.fnames.length ≠ 1) (hnd : (feats.filter (· ∈ d.fnames)).Nodup) (hr : removeFeatures d feats = .ok (d', true)) (i : Nat)
    (row row' : List T) (hi : d.rows[i]? = some row) (hi' : d'.rows[i]? = some row') (f : Int) :
    value d'.fnames row' f = if f ∈ feats then none else value d.fnames row f := by
  obtain ⟨d'', e1, -, e2, e3⟩ := C17_remove_partial d feats hd h1 hnd
  rw [e1] at hr
  cases hr
  rw [e3, List.getElem?_map, hi] at hi'
  simp only [Option.map_some, Option.some.injEq] at hi'
  rw [e2, ← hi']
  have hl := hd.2.1 row (List.mem_of_getElem? hi)
  have := value_cols (fun n => decide (n ∉ feats)) d.fnames row f (by rw [hl, hd.1]) hd.2.2.1
  rw [cols] at this
  rw [this]
  by_cases hf : f ∈ feats <;> simp [hf]

/-- Keeping a non-empty list of distinct existing features keeps exactly these columns and names, in order. -/
theorem C17_insert_partial {T : Type} (d : Tbl T) (ins : List Int) (hd : Aligned d) (hrows : d.rows ≠ [])
    (hne : ins ≠ []) (hnd : ins.Nodup) (hin : ∀ f ∈ ins, f ∈ d.fnames) :
    ∃ d', insertFeatures d ins = .ok d' ∧ Aligned d' ∧
      d'.fnames = d.fnames.filter (fun n => decide (n ∈ ins)) ∧
      d'.rows = d.rows.map (fun row => ((row.zip d.fnames).filter (fun p => decide (p.2 ∈ ins))).map Prod.fst) := by
  obtain ⟨hdim, hr, hasc, hpos⟩ := hd
  have hperm := sortInt_perm ins
  have hlt := sortInt_lt ins hnd
  have hmem : ∀ n, n ∈ sortInt ins ↔ n ∈ ins := fun n => hperm.mem_iff
  have hfn : d.fnames.Nodup := hasc.imp (fun h => ne_of_lt h)
  have hfil : d.fnames.filter (fun n => decide (n ∈ ins)) = sortInt ins := by
    have p1 : (d.fnames.filter (fun n => decide (n ∈ ins))).Pairwise (· < ·) := hasc.filter _
    apply List.Perm.eq_of_pairwise (le := (· < ·)) _ p1 hlt
    · rw [List.perm_ext_iff_of_nodup (hfn.filter _) (hlt.imp (fun h => ne_of_lt h))]
      intro a
      simp only [List.mem_filter, decide_eq_true_eq, hmem]
      exact ⟨fun h => h.2, fun h => ⟨hin a h, h⟩⟩
    · intro a b _ _ h1 h2; omega
  have hlen : ¬ ins.length > d.dim := by
    have := (List.filter_sublist (l := d.fnames) (p := fun n => decide (n ∈ ins))).length_le
    rw [hfil, hperm.length_eq] at this
    omega
  have hspec := insertRows_spec d (sortInt ins) hdim hasc hlt (fun f hf => hin f ((hmem f).1 hf)) d.rows hr
  refine ⟨⟨d.rows.map (cols (fun n => decide (n ∈ ins)) d.fnames), sortInt ins, ins.length⟩, ?_, ?_, hfil.symm, rfl⟩
  · rw [insertFeatures, if_neg hne, if_neg hlen, hspec, Res_bind_ok]
    simp only [if_neg hrows, hmem, Res_pure]
  · refine ⟨(hperm.length_eq).symm, ?_, hlt, fun n hn => hpos n (hin n ((hmem n).1 hn))⟩
    intro r hr'
    obtain ⟨x, hx, rfl⟩ := List.mem_map.1 hr'
    show (cols _ _ _).length = ins.length
    rw [cols_length _ _ _ (by rw [hr x hx, hdim]), hfil, hperm.length_eq]

/-- Selecting distinct existing features (numbered from 1) keeps exactly these columns, in order.  Missing: their
names. -/
theorem C17_select_partial {T : Type} (d : Tbl T) (feats : List Nat) (hd : Aligned d)
    (hnd : feats.Nodup) (h1 : ∀ f ∈ feats, 1 ≤ f) (hin : ∀ f ∈ feats, (f : Int) ∈ d.fnames) :
    ∃ d', selectFeatures d feats = .ok d' ∧
      d'.rows = d.rows.map (fun row =>
        ((row.zip d.fnames).filter (fun p => decide (∃ f ∈ feats, p.2 = (f : Int)))).map Prod.fst) ∧
      (d.rows ≠ [] → d'.dim = feats.length ∧ ∀ r ∈ d'.rows, r.length = feats.length) := by
  obtain ⟨hdim, hr, hasc, hpos⟩ := hd
  have hperm : (feats.insertionSort (· ≤ ·)).Perm feats := List.perm_insertionSort _ feats
  have hmem : ∀ n, n ∈ feats.insertionSort (· ≤ ·) ↔ n ∈ feats := fun n => hperm.mem_iff
  have hlt : (feats.insertionSort (· ≤ ·)).Pairwise (· < ·) := by
    have a1 : (feats.insertionSort (· ≤ ·)).Pairwise (· ≤ ·) := List.pairwise_insertionSort _ feats
    have a2 : (feats.insertionSort (· ≤ ·)).Nodup := hperm.nodup_iff.2 hnd
    exact (a1.and a2).imp (fun ⟨a, b⟩ => lt_of_le_of_ne a b)
  simp only [selectFeatures]
  generalize feats.insertionSort (· ≤ ·) = fs at hperm hmem hlt
  have hspec := fun (xs : List T) (hl : xs.length = d.fnames.length) => positions_spec d.fnames fs [] xs hl hasc hlt
    (fun f hf => h1 f ((hmem f).1 hf)) (fun f hf => hin f ((hmem f).1 hf))
  -- the positions do not depend on the sample
  obtain ⟨ps, e1, e2, -⟩ := positions_spec d.fnames fs ([] : List Unit) (List.replicate d.fnames.length ()) (by simp) hasc hlt
    (fun f hf => h1 f ((hmem f).1 hf)) (fun f hf => hin f ((hmem f).1 hf))
  simp only [List.length_nil] at e1
  rw [e1]
  simp only [Nat.sub_zero]
  have hrows : d.rows.mapM (fun x => (ps.take fs.length).mapM (vget x)) =
      Except.ok (d.rows.map (cols (fun n => decide (∃ f ∈ fs, n = (f : Int))) d.fnames)) := by
    apply mapM_ok
    intro x hx
    obtain ⟨ps', g1, -, g3, -⟩ := hspec x (by rw [hr x hx, hdim])
    simp only [List.length_nil] at g1
    rw [e1] at g1
    cases g1
    rw [← e2, List.take_length]
    simpa using g3
  rw [hrows, Res_bind_ok]
  refine ⟨_, rfl, ?_, ?_⟩
  · simp only [hmem]; rfl
  · intro hne
    simp only [List.map_eq_nil_iff, hne, if_false]
    refine ⟨hperm.length_eq, ?_⟩
    intro r hr'
    obtain ⟨x, hx, rfl⟩ := List.mem_map.1 hr'
    obtain ⟨ps', g1, g2, g3, -⟩ := hspec x (by rw [hr x hx, hdim])
    rw [← hperm.length_eq, ← g2]
    have key : ∀ (ps : List Nat) (l : List T), ps.mapM (vget ([] ++ x)) = Except.ok l → l.length = ps.length := by
      intro ps
      induction ps with
      | nil => intro l h; simp only [List.mapM_nil, Res_pure] at h; cases h; rfl
      | cons p ps ih =>
        intro l h
        rw [List.mapM_cons] at h
        cases hv : vget ([] ++ x) p with
        | error e => rw [hv] at h; simp at h
        | ok v =>
          rw [hv, Res_bind_ok] at h
          cases hm : ps.mapM (vget ([] ++ x)) with
          | error e => rw [hm] at h; simp at h
          | ok l' =>
            rw [hm, Res_bind_ok, Res_pure] at h
            cases h
            simp [ih l' hm]
    exact key ps' _ g3

/-- With names in another order columns and names come apart: removing 1 and 2 from columns named 2, 1, 3. -/
theorem C17_order_refuted : ∃ (d d' : Tbl Nat) (feats : List Int), d.dim = d.fnames.length ∧
    (∀ r ∈ d.rows, r.length = d.dim) ∧ d.fnames.Nodup ∧ feats.Nodup ∧ removeFeatures d feats = .ok (d', true) ∧
    ∃ r ∈ d'.rows, r.length ≠ d'.dim :=
  ⟨⟨[[10, 20, 30]], [2, 1, 3], 3⟩, ⟨[[10, 30]], [3], 1⟩, [1, 2], by decide, by decide, by decide, by decide,
    by decide, by decide⟩

/-- A repeated feature in the list: the columns and names come apart. -/
theorem C17_repetition_refuted : ∃ (d d' : Tbl Nat) (feats : List Int), Aligned d ∧
    removeFeatures d feats = .ok (d', true) ∧ ∃ r ∈ d'.rows, r.length ≠ d'.dim :=
  ⟨⟨[[10, 20, 30]], [1, 2, 3], 3⟩, ⟨[[20, 30]], [3], 1⟩, [1, 1, 2], by unfold Aligned; decide, by decide, by decide⟩

/-- `selectFeatures` loses the names: features 2 and 3 are renamed 1 and 2. -/
theorem C17_select_names_refuted : ∃ (d d' : Tbl Nat) (feats : List Nat), Aligned d ∧ selectFeatures d feats = .ok d' ∧
    d'.rows = [[20, 30]] ∧ d.fnames = [1, 2, 3] ∧ d'.fnames = [1, 2] ∧
    value d'.fnames [20, 30] 2 ≠ value d.fnames [10, 20, 30] 2 := by
  refine ⟨⟨[[10, 20, 30]], [1, 2, 3], 3⟩, ⟨[[20, 30]], [1, 2], 2⟩, [2, 3], by unfold Aligned; decide, ?_, rfl, rfl, rfl,
    by decide⟩
  simp [selectFeatures, positions, vget, iota, List.range_succ]

/-- An invalid feature 0 in the list shifts the columns: features {0, 1, 2} give column 1 twice. -/
theorem C17_select_zero_refuted : ∃ (d d' : Tbl Nat), Aligned d ∧ d.rows = [[10, 20, 30]] ∧ d.fnames = [1, 2, 3] ∧
    selectFeatures d [0, 1, 2] = .ok d' ∧ d'.rows = [[10, 10]] := by
  refine ⟨⟨[[10, 20, 30]], [1, 2, 3], 3⟩, ⟨[[10, 10]], [1, 2], 2⟩, by unfold Aligned; decide, rfl, rfl, ?_, rfl⟩
  simp [selectFeatures, positions, vget, iota, List.range_succ]

example : Aligned (⟨[[10, 20, 30], [11, 21, 31]], [1, 2, 3], 3⟩ : Tbl Nat) ∧
    removeFeatures ⟨[[10, 20, 30], [11, 21, 31]], [1, 2, 3], 3⟩ [2, 7] = .ok (⟨[[10, 30], [11, 31]], [1, 3], 2⟩, true) := by
  unfold Aligned; decide

/-! ## C18 -/

/-- What `std::uniform_int_distribution` guarantees about every draw. -/
def InRange (draw : Nat → Nat → Nat) : Prop := ∀ k hi, draw k hi ≤ hi

/-- With two or more non-empty classes, sampling without replacement never terminates, whatever is drawn: no number of
draws is enough for every `while` loop. -/
theorem C18_without_replacement_diverges {α : Type} (draw : Nat → Nat → Nat) (hdraw : InRange draw)
    (c1 c2 : List α) (rest : List (List α)) (samp : Nat) (h1 : 0 < samp)
    (h2 : samp ≤ ((c1 :: c2 :: rest).map List.length).sum) (hne : ∀ c ∈ c1 :: c2 :: rest, c ≠ []) (fuel : Nat) :
    sampling draw fuel (c1 :: c2 :: rest) samp false = .ok none := by
  obtain ⟨e, hq⟩ := sampling_eq draw fuel (c1 :: c2 :: rest) samp false h1 h2 hne
  rw [e]
  generalize ((c1 :: c2 :: rest).map List.length).sum = sz at hq
  obtain ⟨a1, a2⟩ := hq c1 (by simp)
  obtain ⟨b1, b2⟩ := hq c2 (by simp)
  simp only [List.map_cons]
  generalize quota (share sz samp c1.length) = q1 at a1 a2
  generalize quota (share sz samp c2.length) = q2 at b1 b2
  simp only [drawAll]
  rcases drawClass_spec draw hdraw fuel c1 (q1 - 1) (by omega) q1 [] 0 with h | ⟨n1, xs1, k1, e1, l1, d1, m1, -⟩
  · rw [h]; rfl
  · rw [e1, Res_bind_ok]
    simp only
    rcases drawClass_spec draw hdraw fuel c2 (q2 - 1) (by omega) q2 (n1.reverse ++ []) k1 with
      h | ⟨n2, xs2, k2, e2, l2, d2, m2, -⟩
    · rw [h]; rfl
    · exfalso
      have p1 := all_of_card d1 (by omega : n1.length = (q1 - 1) + 1) (fun i hi => (m1 i hi).2)
      have p2 := all_of_card d2 (by omega : n2.length = (q2 - 1) + 1) (fun i hi => (m2 i hi).2)
      have z1 : 0 ∈ n1 := p1.mem_iff.2 (by simp)
      have z2 : 0 ∈ n2 := p2.mem_iff.2 (by simp)
      exact (m2 0 z2).1 (by simp [z1])

/-- So C18 fails for every dataset with two non-empty classes, however small the sample. -/
theorem C18_termination_refuted : ∃ (classes : List (List Nat)) (samp : Nat), (∀ c ∈ classes, samp ≤ c.length) ∧
    ∀ draw, InRange draw → ∀ fuel, sampling draw fuel classes samp false = .ok none :=
  ⟨[[0, 1, 2], [3, 4, 5]], 2, by decide, fun draw hd fuel =>
    C18_without_replacement_diverges draw hd [0, 1, 2] [3, 4, 5] [] 2 (by decide) (by decide) (by decide) fuel⟩

theorem share_single (n samp : Nat) (hn : 0 < n) (hs : 0 < samp) : quota (share n samp n) = samp := by
  have hn' : (n : ℚ) ≠ 0 := by positivity
  have : share n samp n = samp := by unfold share; field_simp
  rw [this, quota]
  rw [if_neg (by rw [not_lt]; exact_mod_cast hs)]
  simp

/-- With one class, sampling without replacement that ends returns the wanted number of distinct samples; they are
always the first ones, in some order.  Missing from C18: two or more classes (see the refutation). -/
theorem C18_single_class_partial {α : Type} (draw : Nat → Nat → Nat) (hdraw : InRange draw) (cls : List α) (samp : Nat)
    (h1 : 0 < samp) (h2 : samp ≤ cls.length) (fuel : Nat) (out : List (List α))
    (h : sampling draw fuel [cls] samp false = .ok (some out)) :
    ∃ idx : List Nat, idx.Perm (List.range samp) ∧ out.flatten.map some = idx.map (fun i => cls[i]?) := by
  obtain ⟨e, -⟩ := sampling_eq draw fuel [cls] samp false h1 (by simpa using h2) (by
    intro c hc; simp at hc; subst hc; rintro rfl; simp at h2; omega)
  rw [e] at h
  simp only [List.map_cons, List.map_nil, List.sum_cons, List.sum_nil, Nat.add_zero] at h
  rw [share_single cls.length samp (by omega) h1] at h
  simp only [drawAll] at h
  rcases drawClass_spec draw hdraw fuel cls (samp - 1) (by omega) samp [] 0 with g | ⟨n1, xs1, k1, e1, l1, d1, m1, v1⟩
  · rw [g] at h; simp at h
  · rw [e1, Res_bind_ok] at h
    simp only [Res_pure, Res_bind_ok, Except.ok.injEq, Option.some.injEq] at h
    subst h
    refine ⟨n1, ?_, by simpa using v1⟩
    have := all_of_card d1 (by omega : n1.length = (samp - 1) + 1) (fun i hi => (m1 i hi).2)
    rwa [Nat.sub_add_cancel h1] at this

/-- Every value keeps being drawn. -/
def Fair (draw : Nat → Nat → Nat) : Prop := ∀ hi v, v ≤ hi → ∀ k, ∃ k', k ≤ k' ∧ draw k' hi = v

theorem redraw_fair (draw : Nat → Nat → Nat) (hi : Nat) (ids : List Nat) (k k' : Nat) (hk : k ≤ k')
    (hv : draw k' hi ∉ ids) : ∃ fuel r, ∀ f, fuel ≤ f → redraw draw hi ids f k = some r := by
  obtain ⟨n, rfl⟩ := Nat.exists_eq_add_of_le hk
  induction n generalizing k with
  | zero =>
    refine ⟨1, (draw k hi, k + 1), fun f hf => ?_⟩
    obtain ⟨f, rfl⟩ : ∃ g, f = g + 1 := ⟨f - 1, by omega⟩
    simp only [redraw]
    rw [if_neg (by simpa using hv)]
  | succ n ih =>
    by_cases hm : draw k hi ∈ ids
    · obtain ⟨fuel, r, h⟩ := ih (k + 1) (by omega) (by rw [show k + 1 + n = k + (n + 1) by omega]; exact hv)
      refine ⟨fuel + 1, r, fun f hf => ?_⟩
      obtain ⟨g, rfl⟩ : ∃ g, f = g + 1 := ⟨f - 1, by omega⟩
      simp only [redraw]
      rw [if_pos hm, h g (by omega)]
    · refine ⟨1, (draw k hi, k + 1), fun f hf => ?_⟩
      obtain ⟨f, rfl⟩ : ∃ g, f = g + 1 := ⟨f - 1, by omega⟩
      simp only [redraw]
      rw [if_neg hm]

theorem drawClass_fair {α : Type} (draw : Nat → Nat → Nat) (hdraw : InRange draw) (hfair : Fair draw) (cls : List α)
    (hi : Nat) (hhi : hi < cls.length) : ∀ (cnt : Nat) (ids : List Nat) (k : Nat), ids.length + cnt ≤ hi + 1 →
    ∃ fuel r, ∀ f, fuel ≤ f → drawClass draw false f cls hi cnt (ids, k) = .ok (some r) := by
  intro cnt
  induction cnt with
  | zero => intro ids k _; exact ⟨0, _, fun f _ => rfl⟩
  | succ cnt ih =>
    intro ids k hl
    -- some value is not in `ids`
    obtain ⟨v, hv, hvn⟩ : ∃ v, v ≤ hi ∧ v ∉ ids := by
      by_contra hcon
      push Not at hcon
      have hsub : Finset.range (hi + 1) ⊆ ids.toFinset := by
        intro v hv
        simp only [Finset.mem_range] at hv
        rw [List.mem_toFinset]
        exact hcon v (by omega)
      have := Finset.card_le_card hsub
      rw [Finset.card_range] at this
      have := List.toFinset_card_le ids
      omega
    obtain ⟨k', hk', hd'⟩ := hfair hi v hv k
    obtain ⟨f1, r1, hr1⟩ := redraw_fair draw hi ids k k' hk' (by rw [hd']; exact hvn)
    obtain ⟨idx, k1⟩ := r1
    obtain ⟨-, j, hj⟩ := redraw_some (hr1 f1 le_rfl)
    have hidx : idx ≤ hi := hj ▸ hdraw j hi
    obtain ⟨f2, r2, hr2⟩ := ih (idx :: ids) k1 (by simp; omega)
    obtain ⟨xs, st⟩ := r2
    refine ⟨max f1 f2, (cls[idx] :: xs, st), fun f hf => ?_⟩
    simp only [drawClass, Bool.false_eq_true, if_false, hr1 f (le_trans (le_max_left _ _) hf)]
    have hvg : vget cls idx = .ok cls[idx] := by
      rw [vget_eq_ok, List.getElem?_eq_getElem (by omega)]
    rw [hvg, Res_bind_ok, hr2 f (le_trans (le_max_right _ _) hf), Res_bind_ok]
    rfl

/-- With one class, sampling without replacement ends for every sequence of draws in which every value keeps coming. -/
theorem C18_single_class_terminates_partial {α : Type} (draw : Nat → Nat → Nat) (hdraw : InRange draw)
    (hfair : Fair draw) (cls : List α) (samp : Nat) (h1 : 0 < samp) (h2 : samp ≤ cls.length) :
    ∃ fuel out, sampling draw fuel [cls] samp false = .ok (some out) := by
  obtain ⟨fuel, r, hr⟩ := drawClass_fair draw hdraw hfair cls (samp - 1) (by omega) samp [] 0 (by simp; omega)
  obtain ⟨xs, st⟩ := r
  refine ⟨fuel, [xs], ?_⟩
  obtain ⟨e, -⟩ := sampling_eq draw fuel [cls] samp false h1 (by simpa using h2) (by
    intro c hc; simp at hc; subst hc; rintro rfl; simp at h2; omega)
  rw [e]
  simp only [List.map_cons, List.map_nil, List.sum_cons, List.sum_nil, Nat.add_zero]
  rw [share_single cls.length samp (by omega) h1]
  simp only [drawAll, hr fuel le_rfl, Res_bind_ok, Res_pure]

theorem drawClass_repl {α : Type} (draw : Nat → Nat → Nat) (hdraw : InRange draw) (fuel : Nat) (cls : List α) (hi : Nat)
    (hhi : hi < cls.length) : ∀ (cnt : Nat) (ids : List Nat) (k : Nat),
    ∃ xs st, drawClass draw true fuel cls hi cnt (ids, k) = .ok (some (xs, st)) ∧ xs.length = cnt ∧
      ∀ x ∈ xs, x ∈ cls.take (hi + 1) := by
  intro cnt
  induction cnt with
  | zero => intro ids k; exact ⟨[], (ids, k), rfl, rfl, by simp⟩
  | succ cnt ih =>
    intro ids k
    have hd := hdraw k hi
    obtain ⟨xs, st, e1, e2, e3⟩ := ih ids (k + 1)
    have hvg : vget cls (draw k hi) = .ok (cls[draw k hi]'(by omega)) := by
      rw [vget_eq_ok, List.getElem?_eq_getElem (by omega)]
    refine ⟨cls[draw k hi]'(by omega) :: xs, st, ?_, by simp [e2], ?_⟩
    · simp only [drawClass, if_true, hvg, Res_bind_ok, e1]
      rfl
    · intro x hx
      rcases List.mem_cons.1 hx with rfl | hx
      · rw [List.mem_take_iff_getElem]
        exact ⟨draw k hi, by omega, rfl⟩
      · exact e3 x hx

theorem drawAll_repl {α : Type} (draw : Nat → Nat → Nat) (hdraw : InRange draw) (fuel : Nat) (q : List α → Nat) :
    ∀ (classes : List (List α)) (st : List Nat × Nat), (∀ c ∈ classes, 1 ≤ q c ∧ q c ≤ c.length) →
    ∃ out, drawAll draw true fuel (classes.map (fun c => (c, q c - 1, q c))) st = .ok (some out) ∧
      List.Forall₂ (fun c o => o.length = q c ∧ ∀ x ∈ o, x ∈ c.take (q c)) classes out := by
  intro classes
  induction classes with
  | nil => intro st _; exact ⟨[], rfl, List.Forall₂.nil⟩
  | cons c cs ih =>
    intro st h
    obtain ⟨a1, a2⟩ := h c (by simp)
    obtain ⟨ids, k⟩ := st
    obtain ⟨xs, st', e1, e2, e3⟩ := drawClass_repl draw hdraw fuel c (q c - 1) (by omega) (q c) ids k
    obtain ⟨out, e4, e5⟩ := ih st' (fun x hx => h x (by simp [hx]))
    refine ⟨xs :: out, ?_, List.Forall₂.cons ⟨e2, ?_⟩ e5⟩
    · simp only [List.map_cons, drawAll, e1, Res_bind_ok, e4]
      rfl
    · rwa [Nat.sub_add_cancel a1] at e3

/-- Sampling with replacement always ends and returns, for each class, its share rounded down (at least one) of samples
of that class — but only among the first ones of the class. -/
theorem C18_with_replacement_partial {α : Type} (draw : Nat → Nat → Nat) (hdraw : InRange draw) (fuel : Nat)
    (classes : List (List α)) (samp : Nat) (h1 : 0 < samp) (h2 : samp ≤ (classes.map List.length).sum)
    (hne : ∀ c ∈ classes, c ≠ []) :
    ∃ out, sampling draw fuel classes samp true = .ok (some out) ∧
      List.Forall₂ (fun c o => o.length = max 1 (c.length * samp / (classes.map List.length).sum) ∧
        ∀ x ∈ o, x ∈ c.take o.length) classes out := by
  obtain ⟨e, hq⟩ := sampling_eq draw fuel classes samp true h1 h2 hne
  rw [e]
  have hs0 : 0 < (classes.map List.length).sum := by omega
  generalize hsz : (classes.map List.length).sum = sz at hs0 hq
  obtain ⟨out, e1, e2⟩ := drawAll_repl draw hdraw fuel (fun c => quota (share sz samp c.length)) classes ([], 0) hq
  refine ⟨out, e1, e2.imp ?_⟩
  rintro c o ⟨g1, g2⟩
  refine ⟨?_, by rw [g1]; exact g2⟩
  rw [g1]
  have hfl : ⌊share sz samp c.length⌋ = ((c.length * samp / sz : Nat) : Int) := by
    have : share sz samp c.length = ((c.length * samp : Nat) : ℚ) / (sz : ℚ) := by
      unfold share; push_cast; ring
    rw [this, Rat.floor_natCast_div_natCast]; push_cast; rfl
  simp only [quota]
  by_cases hlt : share sz samp c.length < 1
  · rw [if_pos hlt]
    have : ⌊share sz samp c.length⌋ < 1 := by
      rw [Int.floor_lt]; exact_mod_cast hlt
    rw [hfl] at this
    omega
  · rw [if_neg hlt, hfl]
    have : (1 : Int) ≤ ⌊share sz samp c.length⌋ := by
      rw [Int.le_floor]; push_cast; linarith
    rw [hfl] at this
    omega

/-- The number of samples returned is not the one asked for: one sample asked of three classes of one gives three. -/
theorem C18_size_refuted : ∃ (classes : List (List Nat)) (samp : Nat), samp ≤ (classes.map List.length).sum ∧
    ∀ draw, InRange draw → ∀ fuel, ∃ out, sampling draw fuel classes samp true = .ok (some out) ∧
      out.flatten.length ≠ samp := by
  refine ⟨[[7], [8], [9]], 1, by decide, fun draw hd fuel => ?_⟩
  obtain ⟨out, h1, h2⟩ := C18_with_replacement_partial draw hd fuel [[7], [8], [9]] 1 (by decide) (by decide) (by decide)
  refine ⟨out, h1, ?_⟩
  cases h2 with
  | cons a b =>
    cases b with
    | cons c d =>
      cases d with
      | cons e f =>
        cases f
        simp only [List.flatten_cons, List.flatten_nil, List.length_append, List.length_nil]
        have h1 := a.1; have h2 := c.1; have h3 := e.1
        simp at h1 h2 h3
        omega

/-- An empty sample (or an empty class) makes the bound of a distribution negative: undefined behaviour. -/
theorem C18_empty_sample_refuted : ∃ classes : List (List Nat), (∀ c ∈ classes, c ≠ []) ∧
    ∀ draw fuel repl, sampling draw fuel classes 0 repl = .error .overflow :=
  ⟨[[1, 2]], by decide, fun draw fuel repl => by simp [sampling, share, upper]⟩

/-- A fair sequence of draws exists: count in blocks that reach ever higher. -/
example : InRange (fun k hi => k % (hi + 1)) ∧ Fair (fun k hi => k % (hi + 1)) := by
  refine ⟨fun k hi => Nat.lt_succ_iff.1 (Nat.mod_lt k (Nat.succ_pos hi)), fun hi v hv k => ?_⟩
  refine ⟨(hi + 1) * k + v, by nlinarith, ?_⟩
  show ((hi + 1) * k + v) % (hi + 1) = v
  rw [Nat.mul_add_mod, Nat.mod_eq_of_lt (by omega)]

end MLTK.Props
