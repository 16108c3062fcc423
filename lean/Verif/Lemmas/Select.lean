import Mathlib.Tactic.Linarith
import Verif.Model.Select
import Verif.Spec.Select
import Verif.Props.Features
/-!
# Lemmas about selecting features
-/
namespace MLTK.Select
open MLTK.Data (Res_bind_ok Res_bind_error Res_pure)
open MLTK.Feat
open MLTK.Spec
open MLTK.Props (Aligned C17_remove_partial)

/-! ### Removing features -/

theorem without_congr {T : Type} (d : Tbl T) (A B : List Int) (h : ∀ n ∈ d.fnames, n ∈ A ↔ n ∈ B) :
    withoutFeatures d A = withoutFeatures d B := by
  have h1 : d.fnames.filter (fun n => decide (n ∉ A)) = d.fnames.filter (fun n => decide (n ∉ B)) := by
    apply List.filter_congr
    intro n hn
    simp only [h n hn]
  have h2 : ∀ row : List T, cols (fun n => decide (n ∉ A)) d.fnames row = cols (fun n => decide (n ∉ B)) d.fnames row := by
    intro row
    apply cols_congr
    intro n hn
    simp only [h n hn]
  unfold withoutFeatures
  rw [h1]
  congr 1
  exact List.map_congr_left (fun row _ => h2 row)

theorem without_nil {T : Type} (d : Tbl T) (hd : Aligned d) : withoutFeatures d [] = d := by
  obtain ⟨h1, h2, _, _⟩ := hd
  have hf : d.fnames.filter (fun n => decide (n ∉ ([] : List Int))) = d.fnames := by simp
  have hr : d.rows.map (cols (fun n => decide (n ∉ ([] : List Int))) d.fnames) = d.rows := by
    conv_rhs => rw [← List.map_id d.rows]
    apply List.map_congr_left
    intro r hr
    exact cols_all _ _ _ (by rw [h2 r hr, h1]) (by simp)
  unfold withoutFeatures
  rw [hf]
  show Tbl.mk (d.rows.map (cols (fun n => decide (n ∉ ([] : List Int))) d.fnames)) d.fnames d.fnames.length = d
  rw [hr, ← h1]

theorem cols_cols {T : Type} (k1 k2 : Int → Bool) (ns : List Int) (xs : List T) :
    cols k2 (ns.filter k1) (cols k1 ns xs) = cols (fun n => k1 n && k2 n) ns xs := by
  induction ns generalizing xs with
  | nil => simp [cols]
  | cons n ns ih =>
    cases xs with
    | nil => simp [cols]
    | cons x xs =>
      rw [cols_cons, cols_cons, List.filter_cons]
      cases h1 : k1 n with
      | false => simp only [Bool.false_eq_true, if_false, Bool.false_and]; exact ih xs
      | true =>
        simp only [if_true, Bool.true_and]
        rw [cols_cons, ih xs]

theorem without_without {T : Type} (d : Tbl T) (A B : List Int) :
    withoutFeatures (withoutFeatures d A) B = withoutFeatures d (A ++ B) := by
  have hk : (fun n => decide (n ∉ A) && decide (n ∉ B)) = (fun n : Int => decide (n ∉ A ++ B)) := by
    funext n
    rw [← Bool.decide_and]
    apply decide_eq_decide.2
    rw [List.mem_append, not_or]
  have hf : (d.fnames.filter (fun n => decide (n ∉ A))).filter (fun n => decide (n ∉ B)) =
      d.fnames.filter (fun n => decide (n ∉ A ++ B)) := by
    rw [List.filter_filter, ← hk]
    apply List.filter_congr
    intro n _
    rw [Bool.and_comm]
  unfold withoutFeatures
  simp only
  rw [hf]
  congr 1
  rw [List.map_map]
  apply List.map_congr_left
  intro row _
  have := cols_cols (fun n => decide (n ∉ A)) (fun n => decide (n ∉ B)) d.fnames row
  rw [hk] at this
  exact this

theorem aligned_without {T : Type} (d : Tbl T) (hd : Aligned d) (A : List Int) : Aligned (withoutFeatures d A) := by
  obtain ⟨hdim, hrows, hasc, hpos⟩ := hd
  refine ⟨rfl, ?_, hasc.filter _, fun n hn => hpos n (List.mem_filter.1 hn).1⟩
  intro r hr
  obtain ⟨x, hx, rfl⟩ := List.mem_map.1 hr
  exact cols_length (fun n => decide (n ∉ A)) _ _ (by rw [hrows x hx, hdim])

theorem remove_ok {T : Type} (d : Tbl T) (hd : Aligned d) (feats : List Int) (h1 : d.fnames.length ≠ 1)
    (hnd : (feats.filter (· ∈ d.fnames)).Nodup) : removeFeatures d feats = .ok (withoutFeatures d feats, true) := by
  obtain ⟨d', e, hal, hf, hr⟩ := C17_remove_partial d feats hd h1 hnd
  rw [e]
  have : d' = withoutFeatures d feats := by
    obtain ⟨rows, fn, dim⟩ := d'
    obtain ⟨h1, _⟩ := hal
    simp only at h1 hf hr
    unfold withoutFeatures
    rw [h1, hr, hf]
  rw [this]

theorem without_length {T : Type} (d : Tbl T) (hd : Aligned d) (A : List Int) (hA : A.Nodup) (hs : ∀ a ∈ A, a ∈ d.fnames) :
    (withoutFeatures d A).fnames.length = d.fnames.length - A.length := by
  have hnd : d.fnames.Nodup := hd.2.2.1.imp (fun h => ne_of_lt h)
  have h1 : (d.fnames.filter (fun n => decide (n ∈ A))).Perm A := by
    rw [List.perm_ext_iff_of_nodup (hnd.filter _) hA]
    intro a
    rw [List.mem_filter, decide_eq_true_eq]
    exact ⟨fun h => h.2, fun h => ⟨hs a h, h⟩⟩
  have h2 := List.length_eq_length_filter_add (l := d.fnames) (fun n => decide (n ∈ A))
  have h3 : d.fnames.filter (fun n => !decide (n ∈ A)) = (withoutFeatures d A).fnames := by
    unfold withoutFeatures
    apply List.filter_congr
    intro n _
    simp
  rw [h3, h1.length_eq] at h2
  omega

section
variable {K : Type} [Field K] [LinearOrder K]

/-! ### Elimination by score -/

omit [Field K] [LinearOrder K] in
/-- The invariant of the loop: after `i` steps the first `i` features in the order of the scores are gone, except that
the last feature cannot be removed. -/
theorem elim_spec (train : Nat → Tbl K → Bool) (d : Tbl K) (hd : Aligned d) (fill : Int) (hfill : fill ∉ d.fnames)
    (sorted : List (Int × K)) (hp : (sorted.map Prod.fst).Perm d.fnames) :
    ∀ (n i : Nat) , i + n ≤ d.fnames.length →
      ∃ r, i ≤ r ∧ r ≤ i + n ∧
        elim train sorted n i ((sorted.map Prod.fst).take i ++ List.replicate n fill)
            (withoutFeatures d ((sorted.map Prod.fst).take (min i (d.fnames.length - 1))))
            (withoutFeatures d ((sorted.map Prod.fst).take (min i (d.fnames.length - 1)))) =
          .ok (withoutFeatures d ((sorted.map Prod.fst).take (min r (d.fnames.length - 1)))) ∧
        (r = i + n ∨ train (r + 1) (withoutFeatures d ((sorted.map Prod.fst).take (min (r + 1) (d.fnames.length - 1)))) = false) ∧
        ∀ j, i < j → j ≤ r →
          train j (withoutFeatures d ((sorted.map Prod.fst).take (min j (d.fnames.length - 1)))) = true := by
  have hnames : (sorted.map Prod.fst).Nodup := hp.nodup_iff.2 (hd.2.2.1.imp (fun h => ne_of_lt h))
  have hlen : sorted.length = d.fnames.length := by
    have := hp.length_eq
    simpa using this
  intro n
  induction n with
  | zero => intro i hi; exact ⟨i, le_rfl, by omega, rfl, Or.inl (by omega), fun j h1 h2 => by omega⟩
  | succ n ih =>
    intro i hi
    have hil : i < sorted.length := by omega
    have hil' : i < (sorted.map Prod.fst).length := by simpa using hil
    rw [elim]
    simp only [vget, List.getElem?_eq_getElem hil, Res_bind_ok]
    have hset : vset ((sorted.map Prod.fst).take i ++ List.replicate (n + 1) fill) i sorted[i].1 =
        .ok ((sorted.map Prod.fst).take (i + 1) ++ List.replicate n fill) := by
      have hl : ((sorted.map Prod.fst).take i).length = i := by
        rw [List.length_take]; omega
      unfold vset
      rw [if_pos (by rw [List.length_append, hl, List.length_replicate]; omega)]
      congr 1
      rw [List.set_append_right _ _ (by omega), hl, Nat.sub_self, List.replicate_succ, List.set_cons_zero,
        List.take_succ_eq_append_getElem hil', List.append_assoc]
      simp
    rw [hset, Res_bind_ok]
    -- the dataset after the removal
    have hrem : ∃ b, removeFeatures (withoutFeatures d ((sorted.map Prod.fst).take (min i (d.fnames.length - 1))))
        ((sorted.map Prod.fst).take (i + 1) ++ List.replicate n fill) =
          .ok (withoutFeatures d ((sorted.map Prod.fst).take (min (i + 1) (d.fnames.length - 1))), b) := by
      have hsubset : ∀ k, ∀ a ∈ (sorted.map Prod.fst).take k, a ∈ d.fnames := by
        intro k a ha
        exact hp.mem_iff.1 (List.mem_of_mem_take ha)
      have hln : (withoutFeatures d ((sorted.map Prod.fst).take (min i (d.fnames.length - 1)))).fnames.length =
          d.fnames.length - min i (d.fnames.length - 1) := by
        rw [without_length d hd _ (hnames.sublist (List.take_sublist _ _)) (hsubset _), List.length_take,
          List.length_map, hlen]
        congr 1
        omega
      by_cases hlast : i = d.fnames.length - 1
      · refine ⟨false, ?_⟩
        have hne : (sorted.map Prod.fst).take (i + 1) ++ List.replicate n fill ≠ [] := by
          intro hcon
          have := congrArg List.length hcon
          simp only [List.length_append, List.length_take, List.length_map, List.length_replicate, List.length_nil] at this
          omega
        rw [removeFeatures, if_neg hne, if_pos (by rw [hln]; omega), Res_pure]
        rw [show min i (d.fnames.length - 1) = min (i + 1) (d.fnames.length - 1) by omega]
      · refine ⟨true, ?_⟩
        have hmi : min i (d.fnames.length - 1) = i := by omega
        have hmi1 : min (i + 1) (d.fnames.length - 1) = i + 1 := by omega
        rw [hmi] at hln ⊢
        rw [hmi1]
        rw [remove_ok _ (aligned_without d hd _) _ (by rw [hln]; omega), without_without]
        · congr 2
          apply without_congr
          intro m hm
          rw [List.mem_append, List.mem_append]
          constructor
          · rintro (h | h | h)
            · exact (List.take_subset_take_left _ (by omega)) h
            · exact h
            · rw [List.mem_replicate] at h
              exact absurd (h.2 ▸ hm) hfill
          · intro h; exact Or.inr (Or.inl h)
        · rw [List.filter_append]
          have : (List.replicate n fill).filter (fun x => decide (x ∈ (withoutFeatures d ((sorted.map Prod.fst).take i)).fnames)) = [] := by
            rw [List.filter_eq_nil_iff]
            intro a ha hcon
            rw [List.mem_replicate] at ha
            rw [decide_eq_true_eq, ha.2] at hcon
            exact hfill (List.mem_filter.1 hcon).1
          rw [this, List.append_nil]
          exact (hnames.sublist (List.take_sublist _ _)).filter _
    obtain ⟨b, hb⟩ := hrem
    rw [hb, Res_bind_ok]
    by_cases ht : train (i + 1) (withoutFeatures d ((sorted.map Prod.fst).take (min (i + 1) (d.fnames.length - 1)))) = true
    · simp only [ht, if_true]
      obtain ⟨r, h1, h2, h3, h4, h5⟩ := ih (i + 1) (by omega)
      refine ⟨r, by omega, by omega, h3, ?_, ?_⟩
      · rcases h4 with h4 | h4
        · left; omega
        · right; exact h4
      · intro j hj1 hj2
        by_cases hj : j = i + 1
        · rw [hj]; exact ht
        · exact h5 j (by omega) hj2
    · rw [Bool.not_eq_true] at ht
      simp only [ht, Bool.false_eq_true, if_false]
      exact ⟨i, le_rfl, by omega, rfl, Or.inr ht, fun j h1 h2 => by omega⟩

omit [Field K] in
/-- The first elements of a list sorted by a key are the worst ones. -/
theorem take_removesWorst {α : Type} (key : Int × α → K) (srt : List (Int × α) → List (Int × α)) (hs : SortsBy key srt)
    (l : List (Int × α)) (hn : (l.map Prod.fst).Nodup) (r : Nat) :
    RemovesWorst (l.map (fun p => (p.1, key p))) (((srt l).map Prod.fst).take r) := by
  obtain ⟨hperm, hpw⟩ := hs l
  have hpm : ((srt l).map Prod.fst).Perm (l.map Prod.fst) := hperm.map _
  have hn' : ((srt l).map Prod.fst).Nodup := hpm.nodup_iff.2 hn
  refine ⟨hn'.sublist (List.take_sublist _ _), ?_, ?_⟩
  · intro g hg
    rw [List.map_map]
    exact hpm.mem_iff.1 (List.mem_of_mem_take hg)
  · intro g s f t hg hf hgone hfgone
    obtain ⟨p, hp, hpe⟩ := List.mem_map.1 hg
    obtain ⟨q, hq, hqe⟩ := List.mem_map.1 hf
    simp only [Prod.mk.injEq] at hpe hqe
    have hp' : p ∈ srt l := hperm.mem_iff.2 hp
    have hq' : q ∈ srt l := hperm.mem_iff.2 hq
    rw [← List.take_append_drop r (srt l)] at hp' hq' hpw hn'
    rw [List.pairwise_append] at hpw
    rw [List.map_append, List.nodup_append] at hn'
    rw [← List.map_take] at hgone hfgone
    have h1 : p ∈ (srt l).take r := by
      rcases List.mem_append.1 hp' with h | h
      · exact h
      · exfalso
        exact hn'.2.2 g hgone g (List.mem_map.2 ⟨p, h, hpe.1⟩) rfl
    have h2 : q ∈ (srt l).drop r := by
      rcases List.mem_append.1 hq' with h | h
      · exfalso
        exact hfgone (List.mem_map.2 ⟨q, h, hqe.1⟩)
      · exact h
    rw [← hpe.2, ← hqe.2]
    exact hpw.2.2 p h1 q h2

theorem mapM_length {α β : Type} (f : α → Res β) (l : List α) (r : List β) (h : l.mapM f = .ok r) :
    r.length = l.length ∧ ∀ (i : Nat) (a : α) (b : β), l[i]? = some a → r[i]? = some b → f a = .ok b := by
  induction l generalizing r with
  | nil => cases h; exact ⟨rfl, fun i a b h => by simp at h⟩
  | cons x l ih =>
    rw [List.mapM_cons] at h
    match hx : f x with
    | .error e => rw [hx, Res_bind_error] at h; cases h
    | .ok y =>
      rw [hx, Res_bind_ok] at h
      match hl : l.mapM f with
      | .error e => rw [hl, Res_bind_error] at h; cases h
      | .ok ys =>
        rw [hl, Res_bind_ok] at h
        cases h
        obtain ⟨h1, h2⟩ := ih ys hl
        refine ⟨by simp [h1], ?_⟩
        intro i a b ha hb
        cases i with
        | zero => simp at ha hb; rw [← ha, ← hb]; exact hx
        | succ i => simp at ha hb; exact h2 i a b ha hb

omit [Field K] [LinearOrder K] in
theorem scores_names (score : List (K × Int) → Res K) (d : Tbl K) (ys : List Int) (hd : d.dim = d.fnames.length)
    (sc : List (Int × K)) (h : scores score d ys = .ok sc) : sc.map Prod.fst = d.fnames := by
  obtain ⟨h1, h2⟩ := mapM_length _ _ _ h
  rw [List.length_range] at h1
  apply List.ext_getElem?
  intro i
  rw [List.getElem?_map]
  rcases Nat.lt_or_ge i d.dim with hi | hi
  · have hsc : i < sc.length := by omega
    rw [List.getElem?_eq_getElem hsc]
    have h3 := h2 i i sc[i] (by rw [List.getElem?_range hi]) (List.getElem?_eq_getElem hsc)
    match hc : column d ys i with
    | .error e => rw [hc, Res_bind_error] at h3; cases h3
    | .ok c =>
      rw [hc, Res_bind_ok] at h3
      match hs : score c with
      | .error e => rw [hs, Res_bind_error] at h3; cases h3
      | .ok s =>
        rw [hs, Res_bind_ok] at h3
        have hf : i < d.fnames.length := by omega
        simp only [vget, List.getElem?_eq_getElem hf, Res_bind_ok, Res_pure] at h3
        rw [Option.map_some, List.getElem?_eq_getElem hf, ← Except.ok.inj h3]
  · rw [List.getElem?_eq_none (by omega), List.getElem?_eq_none (by omega)]
    rfl

omit [Field K] [LinearOrder K] in
/-- The score listed for a feature is that of its column. -/
theorem scores_entry (score : List (K × Int) → Res K) (d : Tbl K) (ys : List Int) (hd : d.dim = d.fnames.length)
    (sc : List (Int × K)) (h : scores score d ys = .ok sc) (f : Int) (s : K) (hf : (f, s) ∈ sc) :
    ∃ i c, d.fnames[i]? = some f ∧ column d ys i = .ok c ∧ score c = .ok s := by
  obtain ⟨h1, h2⟩ := mapM_length _ _ _ h
  rw [List.length_range] at h1
  obtain ⟨i, hi, he⟩ := List.getElem_of_mem hf
  have h3 := h2 i i sc[i] (by rw [List.getElem?_range (by omega)]) (List.getElem?_eq_getElem hi)
  rw [he] at h3
  match hc : column d ys i with
  | .error e => rw [hc, Res_bind_error] at h3; cases h3
  | .ok c =>
    rw [hc, Res_bind_ok] at h3
    match hs : score c with
    | .error e => rw [hs, Res_bind_error] at h3; cases h3
    | .ok s' =>
      rw [hs, Res_bind_ok] at h3
      have hf : i < d.fnames.length := by omega
      simp only [vget, List.getElem?_eq_getElem hf, Res_bind_ok, Res_pure] at h3
      have h4 := Except.ok.inj h3
      simp only [Prod.mk.injEq] at h4
      exact ⟨i, c, by rw [List.getElem?_eq_getElem hf, h4.1], hc, by rw [hs, h4.2]⟩

/-! ### The scores -/

omit [LinearOrder K] in
theorem sums_spec (col : List (K × Int)) (s : (Nat × K) × (Nat × K)) :
    col.foldl sumStep s = ((s.1.1 + (classValues (· == -1) col).length, s.1.2 + (classValues (· == -1) col).sum),
      (s.2.1 + (classValues (· != -1) col).length, s.2.2 + (classValues (· != -1) col).sum)) := by
  induction col generalizing s with
  | nil => simp [classValues]
  | cons p col ih =>
    rw [List.foldl_cons, ih]
    unfold sumStep classValues
    by_cases hp : p.2 = -1
    · simp [hp]
      constructor
      · omega
      · ring
    · simp [hp]
      constructor
      · omega
      · ring

omit [LinearOrder K] in
theorem devs_spec (an ap : K) (col : List (K × Int)) (s : K × K) :
    col.foldl (devStep an ap) s = (s.1 + ((classValues (· == -1) col).map (fun x => (x - an) ^ 2)).sum,
      s.2 + ((classValues (· != -1) col).map (fun x => (x - ap) ^ 2)).sum) := by
  induction col generalizing s with
  | nil => simp [classValues]
  | cons p col ih =>
    rw [List.foldl_cons, ih]
    unfold devStep classValues
    by_cases hp : p.2 = -1
    · simp [hp]
      ring
    · simp [hp]
      ring

theorem moments_ok [IsStrictOrderedRing K] (sqrt : K → K) (col : List (K × Int)) (hn : 2 ≤ (classValues (· == -1) col).length)
    (hp : 2 ≤ (classValues (· != -1) col).length) :
    moments sqrt col = .ok ((sampleMean (classValues (· == -1) col), sampleMean (classValues (· != -1) col)),
      (sqrt (sampleVariance (classValues (· == -1) col)), sqrt (sampleVariance (classValues (· != -1) col)))) := by
  have h1 : ∀ n : Nat, 2 ≤ n → (n : K) ≠ 0 := by
    intro n hn
    exact_mod_cast (by omega : n ≠ 0)
  have h2 : ∀ n : Nat, 2 ≤ n → (n : K) - 1 ≠ 0 := by
    intro n hn hcon
    have : (n : K) = ((1 : Nat) : K) := by
      rw [Nat.cast_one]; exact sub_eq_zero.mp hcon
    have := Nat.cast_injective this
    omega
  unfold moments
  simp only [sums_spec, devs_spec, zero_add, quot, h1 _ hn, h1 _ hp, h2 _ hn, h2 _ hp, if_false, Res_bind_ok, Res_pure]
  rfl

theorem moments_fail [IsStrictOrderedRing K] (sqrt : K → K) (col : List (K × Int))
    (h : (classValues (· == -1) col).length < 2 ∨ (classValues (· != -1) col).length < 2) :
    moments sqrt col = .error .nonFinite := by
  have hcase : ∀ n : Nat, n < 2 → (n : K) = 0 ∨ (n : K) - 1 = 0 := by
    intro n hn
    have : n = 0 ∨ n = 1 := by omega
    rcases this with rfl | rfl <;> simp
  unfold moments
  simp only [sums_spec, devs_spec, zero_add, quot]
  by_cases a : ((classValues (· == -1) col).length : K) = 0
  · rw [if_pos a, Res_bind_error]
  · rw [if_neg a, Res_bind_ok]
    by_cases b : ((classValues (· != -1) col).length : K) = 0
    · rw [if_pos b, Res_bind_error]
    · rw [if_neg b, Res_bind_ok]
      by_cases c : ((classValues (· == -1) col).length : K) - 1 = 0
      · rw [if_pos c, Res_bind_error]
      · rw [if_neg c, Res_bind_ok]
        rcases h with h | h
        · rcases hcase _ h with h | h
          · exact absurd h a
          · exact absurd h c
        · rcases hcase _ h with h | h
          · exact absurd h b
          · rw [if_pos h, Res_bind_error]

theorem mapM_range {β : Type} (f : Nat → Res β) (l : List β) (h : ∀ (i : Nat) (x : β), l[i]? = some x → f i = .ok x) :
    (List.range l.length).mapM f = .ok l := by
  induction l using List.reverseRecOn with
  | nil => rfl
  | append_singleton l x ih =>
    rw [List.length_append, List.length_singleton, List.range_succ, List.mapM_append, ih, Res_bind_ok]
    · rw [List.mapM_cons, h l.length x (by simp), Res_bind_ok]
      rfl
    · intro i y hy
      apply h i y
      rw [List.getElem?_append_left (by
        by_contra hcon
        rw [List.getElem?_eq_none (by omega)] at hy
        cases hy)]
      exact hy

omit [LinearOrder K] in
theorem column_ok (d : Tbl K) (hd : ∀ r ∈ d.rows, r.length = d.dim) (ys : List Int) (i : Nat) (hi : i < d.dim) :
    column d ys i = .ok (labelledColumn d ys i) := by
  apply Feat.mapM_ok
  intro r hr
  have hl : i < r.1.length := by
    rw [hd r.1 (List.of_mem_zip hr).1]; exact hi
  simp only [vget, List.getElem?_eq_getElem hl, Res_bind_ok, Res_pure, List.getD_eq_getElem?_getD, Option.getD_some]

omit [LinearOrder K] in
theorem scores_ok (score : List (K × Int) → Res K) (g : List (K × Int) → K) (d : Tbl K) (hd : Aligned d) (ys : List Int)
    (h : ∀ i < d.dim, score (labelledColumn d ys i) = .ok (g (labelledColumn d ys i))) :
    scores score d ys = .ok (scoreTable g d ys) := by
  have hl : (scoreTable g d ys).length = d.dim := by
    unfold scoreTable
    rw [List.length_map, List.length_zipIdx, hd.1]
  have hl' : ∀ i (x : Int × K), (scoreTable g d ys)[i]? = some x → i < d.dim := by
    intro i x hx
    by_contra hcon
    rw [List.getElem?_eq_none (by omega)] at hx
    cases hx
  unfold scores
  conv_lhs => rw [← hl]
  apply mapM_range
  intro i x hx
  have hi := hl' i x hx
  rw [column_ok d hd.2.1 ys i hi, Res_bind_ok, h i hi, Res_bind_ok]
  have hf : i < d.fnames.length := by rw [← hd.1]; exact hi
  simp only [vget, List.getElem?_eq_getElem hf, Res_bind_ok, Res_pure]
  unfold scoreTable at hx
  rw [List.getElem?_map, List.getElem?_zipIdx, List.getElem?_eq_getElem hf] at hx
  simp only [Option.map_some, Option.some.injEq, Nat.zero_add] at hx
  rw [← hx]

omit [LinearOrder K] in
theorem labelled_count (P : Int → Bool) (d : Tbl K) (ys : List Int) (hy : ys.length = d.rows.length) (i : Nat) :
    (classValues P (labelledColumn d ys i)).length = ys.countP P := by
  unfold classValues labelledColumn
  rw [List.length_map, ← List.countP_eq_length_filter, List.countP_map]
  have : ys = (d.rows.zip ys).map Prod.snd := by
    rw [List.map_snd_zip (by omega)]
  conv_rhs => rw [this, List.countP_map]
  rfl

/-! ### Recursive elimination -/

omit [Field K] [LinearOrder K] in
theorem weights_ok (stmp : Tbl K) (hd : stmp.dim = stmp.fnames.length) (w : List K) (hw : w.length = stmp.dim) :
    weights stmp w = .ok (stmp.fnames.zip w) := by
  have hl : stmp.dim = (stmp.fnames.zip w).length := by rw [List.length_zip]; omega
  unfold weights
  rw [hl]
  apply mapM_range
  intro i x hx
  rw [List.getElem?_zip_eq_some] at hx
  simp only [vget, hx.1, hx.2, Res_bind_ok, Res_pure]

omit [Field K] [LinearOrder K] in
theorem record_ok (ws : List (Int × K)) (F : List Int) (m : Nat) :
    ∀ n, n ≤ m → n ≤ ws.length → record ws F.length n (F ++ List.replicate m (-1)) =
      .ok (F ++ (ws.map Prod.fst).take n ++ List.replicate (m - n) (-1)) := by
  intro n
  induction n with
  | zero => intro _ _; simp [record, Res_pure]
  | succ n ih =>
    intro h1 h2
    have ih := ih (by omega) (by omega)
    unfold record at ih ⊢
    rw [List.range_succ, List.foldlM_append, ih, Res_bind_ok]
    have hw : n < ws.length := by omega
    have hw' : n < (ws.map Prod.fst).length := by simpa using hw
    have hl : (F ++ (ws.map Prod.fst).take n).length = F.length + n := by
      rw [List.length_append, List.length_take]; omega
    rw [List.foldlM_cons]
    simp only [vget, List.getElem?_eq_getElem hw, Res_bind_ok]
    unfold vset
    rw [if_pos (by rw [List.length_append, hl, List.length_replicate]; omega), Res_bind_ok, List.foldlM_nil, Res_pure]
    congr 1
    rw [List.set_append_right _ _ (by omega), hl, Nat.sub_self]
    obtain ⟨q, hq⟩ : ∃ q, m - n = q + 1 := ⟨m - n - 1, by omega⟩
    rw [hq, List.replicate_succ, List.set_cons_zero, List.take_succ_eq_append_getElem hw',
      show m - (n + 1) = q by omega]
    simp

/-- One round of the elimination: the features with the least weights leave the dataset. -/
theorem round_ok (d : Tbl K) (hd : Aligned d) (w : List K) (hw : w.length = d.dim) (srt : List (Int × K) → List (Int × K))
    (hs : SortsBy (fun p => |p.2|) srt) (F : List Int) (hF : ∀ f ∈ F, f ∉ d.fnames) (m n : Nat) (hn : n ≤ m)
    (hm : m < d.dim) (hm0 : 1 ≤ m) :
    weights d w = .ok (d.fnames.zip w) ∧
    record (srt (d.fnames.zip w)) F.length n (F ++ List.replicate m (-1)) =
      .ok (F ++ ((srt (d.fnames.zip w)).map Prod.fst).take n ++ List.replicate (m - n) (-1)) ∧
    removeFeatures d (F ++ ((srt (d.fnames.zip w)).map Prod.fst).take n ++ List.replicate (m - n) (-1)) =
      .ok (withoutFeatures d (((srt (d.fnames.zip w)).map Prod.fst).take n), true) ∧
    RemovesWorst (d.fnames.zip (w.map (fun x => |x|))) (((srt (d.fnames.zip w)).map Prod.fst).take n) ∧
    (((srt (d.fnames.zip w)).map Prod.fst).take n).length = n ∧
    (withoutFeatures d (((srt (d.fnames.zip w)).map Prod.fst).take n)).dim = d.dim - n := by
  have hnd : d.fnames.Nodup := hd.2.2.1.imp (fun h => ne_of_lt h)
  obtain ⟨hperm, hpw⟩ := hs (d.fnames.zip w)
  have hfst : (d.fnames.zip w).map Prod.fst = d.fnames := by
    rw [List.map_fst_zip]
    rw [hw, hd.1]
  have hp : ((srt (d.fnames.zip w)).map Prod.fst).Perm d.fnames := by
    have := hperm.map Prod.fst
    rwa [hfst] at this
  have hlen : (srt (d.fnames.zip w)).length = d.dim := by
    rw [hperm.length_eq, List.length_zip, hw, hd.1, Nat.min_self]
  have hN : ((srt (d.fnames.zip w)).map Prod.fst).Nodup := hp.nodup_iff.2 hnd
  have hT := hN.sublist (List.take_sublist n _)
  have hlt : (((srt (d.fnames.zip w)).map Prod.fst).take n).length = n := by
    rw [List.length_take, List.length_map, hlen]; omega
  have hsub : ∀ a ∈ ((srt (d.fnames.zip w)).map Prod.fst).take n, a ∈ d.fnames :=
    fun a ha => hp.mem_iff.1 (List.mem_of_mem_take ha)
  have hneg : (-1 : Int) ∉ d.fnames := fun h => by
    have := hd.2.2.2 _ h
    omega
  refine ⟨weights_ok d hd.1 w hw, record_ok _ F m n hn (by omega), ?_, ?_, hlt, ?_⟩
  · rw [remove_ok d hd _ (by rw [← hd.1]; omega)]
    · congr 2
      apply without_congr
      intro a ha
      rw [List.mem_append, List.mem_append]
      constructor
      · rintro ((h | h) | h)
        · exact absurd ha (hF a h)
        · exact h
        · rw [List.mem_replicate] at h
          exact absurd (h.2 ▸ ha) hneg
      · intro h; exact Or.inl (Or.inr h)
    · rw [List.filter_append, List.filter_append]
      have e1 : F.filter (fun x => decide (x ∈ d.fnames)) = [] := by
        rw [List.filter_eq_nil_iff]
        intro a ha hcon
        exact hF a ha (by simpa using hcon)
      have e2 : (List.replicate (m - n) (-1 : Int)).filter (fun x => decide (x ∈ d.fnames)) = [] := by
        rw [List.filter_eq_nil_iff]
        intro a ha hcon
        rw [List.mem_replicate] at ha
        rw [decide_eq_true_eq, ha.2] at hcon
        exact hneg hcon
      rw [e1, e2, List.nil_append, List.append_nil]
      exact hT.filter _
  · have := take_removesWorst (fun p : Int × K => |p.2|) srt hs (d.fnames.zip w) (by rw [hfst]; exact hnd) n
    have e : (d.fnames.zip w).map (fun p => (p.1, |p.2|)) = d.fnames.zip (w.map (fun x => |x|)) := by
      rw [List.zip_map_right]
      rfl
    rwa [e] at this
  · show (withoutFeatures d _).fnames.length = _
    rw [without_length d hd _ hT hsub, hlt, hd.1]

/-- The whole search when every training succeeds and nothing stops it early. -/
theorem rfeLoop_ok (learn : Nat → Tbl K → Option (List K)) (srt : List (Int × K) → List (Int × K))
    (hs : SortsBy (fun p => |p.2|) srt) (samples : Tbl K) (depth jump : Nat) (hj : 1 ≤ jump)
    (hlearn : ∀ k t, ∃ w, learn k t = some w ∧ w.length = t.dim) :
    ∀ (fuel k level j : Nat) (F : List Int) (d : Tbl K), Aligned d → (∀ f ∈ F, f ∉ d.fnames) → F.length = level →
      level ≤ depth → depth - level < fuel → depth < level + d.dim → 1 ≤ depth → (level < depth → j = jump) →
      ∃ d', rfeLoop learn (fun _ => false) srt samples depth fuel k level j level (F ++ List.replicate (depth - level) (-1)) d =
          .ok (d', if level = depth then j else if (depth - level) % jump = 0 then jump else 0) ∧
        Elimination learn jump depth k level d d' ∧ d'.dim = level + d.dim - depth ∧ Aligned d' := by
  intro fuel
  induction fuel with
  | zero => intro k level j F d _ _ _ _ h; omega
  | succ fuel ih =>
    intro k level j F d hd hF hFl hlev hfuel hdim hdep hjj
    obtain ⟨w, hw, hwl⟩ := hlearn k d
    rw [rfeLoop]
    simp only [hw, Bool.false_eq_true, or_false]
    rcases Nat.lt_or_ge level depth with hlt | hge
    · obtain rfl := hjj hlt
      rw [if_neg (by omega : ¬ level = depth)]
      have hlj : (if level + j > depth then depth else level + j) - level = min j (depth - level) := by
        split_ifs <;> omega
      obtain ⟨r1, r2, r3, r4, r5, r6⟩ := round_ok d hd w hwl srt hs F hF (depth - level) (min j (depth - level))
        (by omega) (by omega) (by omega)
      rw [r1, Res_bind_ok, if_neg (by omega), hlj]
      rw [hFl] at r2
      rw [r2, Res_bind_ok, r3, Res_bind_ok]
      have hmem : ∀ f ∈ F ++ ((srt (d.fnames.zip w)).map Prod.fst).take (min j (depth - level)),
          f ∉ (withoutFeatures d (((srt (d.fnames.zip w)).map Prod.fst).take (min j (depth - level)))).fnames := by
        intro f hf hcon
        have := List.mem_filter.1 hcon
        rcases List.mem_append.1 hf with h | h
        · exact hF f h this.1
        · simp only [decide_eq_true_eq] at this
          exact this.2 h
      by_cases hover : level + j > depth
      · simp only [if_pos hover]
        obtain ⟨d', h1, h2, h3, h4⟩ := ih (k + 1) depth 0 (F ++ ((srt (d.fnames.zip w)).map Prod.fst).take (min j (depth - level)))
          (withoutFeatures d (((srt (d.fnames.zip w)).map Prod.fst).take (min j (depth - level)))) (aligned_without d hd _) hmem
          (by rw [List.length_append, r5, hFl]; omega) le_rfl (by omega) (by rw [r6]; omega) hdep (by omega)
        rw [show depth - depth = depth - level - min j (depth - level) by omega, if_pos rfl] at h1
        refine ⟨d', ?_, ?_, by rw [h3, r6]; omega, h4⟩
        · rw [h1, Nat.mod_eq_of_lt (by omega), if_neg (by omega)]
        · refine Elimination.step k level d d' w _ hw hlt r5 r4 ?_
          rw [r5, show level + min j (depth - level) = depth by omega]
          exact h2
      · simp only [if_neg hover]
        obtain ⟨d', h1, h2, h3, h4⟩ := ih (k + 1) (level + j) j (F ++ ((srt (d.fnames.zip w)).map Prod.fst).take (min j (depth - level)))
          (withoutFeatures d (((srt (d.fnames.zip w)).map Prod.fst).take (min j (depth - level)))) (aligned_without d hd _) hmem
          (by rw [List.length_append, r5, hFl]; omega) (by omega) (by omega) (by rw [r6]; omega) hdep (fun _ => rfl)
        rw [show depth - (level + j) = depth - level - min j (depth - level) by omega] at h1
        refine ⟨d', ?_, ?_, by rw [h3, r6]; omega, h4⟩
        · rw [h1]
          have e : (depth - level) % j = (depth - (level + j)) % j := by
            conv_lhs => rw [show depth - level = depth - (level + j) + j by omega]
            rw [Nat.add_mod_right]
          rw [show depth - level - min j (depth - level) = depth - (level + j) by omega, e]
          by_cases hq : level + j = depth
          · rw [if_pos hq, hq, Nat.sub_self, Nat.zero_mod, if_pos rfl]
          · rw [if_neg hq]
        · refine Elimination.step k level d d' w _ hw hlt r5 r4 ?_
          rw [r5, show level + min j (depth - level) = level + j by omega]
          exact h2
    · have he : level = depth := by omega
      rw [weights_ok d hd.1 w hwl, Res_bind_ok, if_pos hge, if_neg (by omega), if_pos he]
      refine ⟨d, rfl, ?_, by omega, hd⟩
      rw [he]
      exact Elimination.done k d w hw

/-- With no step the search never ends. -/
theorem rfeLoop_stuck (learn : Nat → Tbl K → Option (List K)) (srt : List (Int × K) → List (Int × K))
    (hs : SortsBy (fun p => |p.2|) srt) (samples : Tbl K) (depth : Nat)
    (hlearn : ∀ k t, ∃ w, learn k t = some w ∧ w.length = t.dim) (d : Tbl K) (hd : Aligned d) (hdep : 1 ≤ depth)
    (hdim : depth < d.dim) : ∀ fuel k,
    rfeLoop learn (fun _ => false) srt samples depth fuel k 0 0 0 (List.replicate depth (-1)) d = .error .diverges := by
  intro fuel
  induction fuel with
  | zero => intro k; rfl
  | succ fuel ih =>
    intro k
    obtain ⟨w, hw, hwl⟩ := hlearn k d
    obtain ⟨r1, r2, r3, _⟩ := round_ok d hd w hwl srt hs [] (by simp) depth 0 (by omega) hdim hdep
    rw [rfeLoop]
    simp only [hw, Bool.false_eq_true, or_false]
    rw [r1, Res_bind_ok, if_neg (by omega)]
    simp only [List.nil_append, List.length_nil, List.take_zero, Nat.sub_zero, without_nil d hd] at r2 r3
    simp only [Nat.add_zero, show ¬ 0 > depth by omega, if_false, Nat.sub_self]
    rw [r2, Res_bind_ok, r3, Res_bind_ok]
    exact ih (k + 1)

end

theorem deviation_ne (col : List (ℝ × Int)) (h : sampleVariance (classValues (· != -1) col) ≠ 0 ∨
    sampleVariance (classValues (· == -1) col) ≠ 0) (hn : 2 ≤ (classValues (· == -1) col).length)
    (hp : 2 ≤ (classValues (· != -1) col).length) :
    Real.sqrt (sampleVariance (classValues (· != -1) col)) + Real.sqrt (sampleVariance (classValues (· == -1) col)) ≠ 0 := by
  have hv : ∀ l : List ℝ, 2 ≤ l.length → 0 ≤ sampleVariance l := by
    intro l hl
    unfold sampleVariance
    apply div_nonneg
    · apply List.sum_nonneg
      intro x hx
      obtain ⟨y, _, rfl⟩ := List.mem_map.1 hx
      exact sq_nonneg _
    · have : (2 : ℝ) ≤ (l.length : ℝ) := by exact_mod_cast hl
      linarith
  intro hcon
  have h1 := Real.sqrt_nonneg (sampleVariance (classValues (· != -1) col))
  have h2 := Real.sqrt_nonneg (sampleVariance (classValues (· == -1) col))
  rcases h with h | h
  · exact h ((Real.sqrt_eq_zero (hv _ hp)).1 (by linarith))
  · exact h ((Real.sqrt_eq_zero (hv _ hn)).1 (by linarith))

theorem golub_ok (col : List (ℝ × Int)) (h : sampleVariance (classValues (· != -1) col) ≠ 0 ∨
    sampleVariance (classValues (· == -1) col) ≠ 0) (hn : 2 ≤ (classValues (· == -1) col).length)
    (hp : 2 ≤ (classValues (· != -1) col).length) : golubScore Real.sqrt col = .ok (golub col) := by
  unfold golubScore
  rw [moments_ok Real.sqrt col hn hp, Res_bind_ok]
  simp only [quot, deviation_ne col h hn hp, if_false]
  rfl

theorem fisher_ok (col : List (ℝ × Int)) (h : sampleVariance (classValues (· != -1) col) ≠ 0 ∨
    sampleVariance (classValues (· == -1) col) ≠ 0) (hn : 2 ≤ (classValues (· == -1) col).length)
    (hp : 2 ≤ (classValues (· != -1) col).length) : fisherScore Real.sqrt col = .ok (fisherDeviation col) := by
  unfold fisherScore
  rw [moments_ok Real.sqrt col hn hp, Res_bind_ok]
  simp only [quot, deviation_ne col h hn hp, if_false]
  rfl

end MLTK.Select
