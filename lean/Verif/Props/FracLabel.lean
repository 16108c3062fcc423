import Verif.Lemmas.Data
import Verif.Spec.FracLabel
import Mathlib.Tactic.Linarith
/-!
# Labels with a fraction in classification datasets (C185)
-/
namespace MLTK.Props
open MLTK.Frac MLTK.Spec
open MLTK.Data (Res_bind_ok Res_bind_error Res_pure incAt classPos classPos_eq_idxOf classPos_lt_iff classPos_getElem?)

private theorem tdiv_whole (y : ℚ) : y.num.tdiv y.den = whole y := by
  unfold whole
  split
  · next h =>
    rw [Int.tdiv_eq_ediv_of_nonneg (Rat.num_nonneg.2 h), Rat.floor_def']
  · next h =>
    have h' : 0 ≤ -y.num := by
      have := Rat.num_nonpos.2 (le_of_not_ge h); omega
    have : y.num.tdiv y.den = -((-y.num).tdiv y.den) := by rw [Int.neg_tdiv, neg_neg]
    rw [this, Int.tdiv_eq_ediv_of_nonneg h', Rat.ceil_def']

private theorem toInt_ok {y : ℚ} (h : IntRange y) : toInt y = .ok (whole y) := by
  unfold toInt
  rw [tdiv_whole]; exact if_pos h

private theorem toInt_bad {y : ℚ} (h : ¬ IntRange y) : toInt y = .error .overflow := by
  unfold toInt
  rw [tdiv_whole]; exact if_neg h

private theorem whole_int (c : Int) : whole (c : ℚ) = c := by
  unfold whole
  split <;> simp

private theorem incAt_ok {l : List Nat} {k : Nat} (h : k < l.length) : incAt l k = .ok (l.set k (l[k] + 1)) := by
  unfold incAt
  rw [show vget l k = .ok l[k] by simp [h], Res_bind_ok]
  unfold vset
  rw [if_pos h]

/-- What one insertion does. -/
private theorem insert_new {d : DS} {y : ℚ} (hr : IntRange y) (hn : ∀ c ∈ d.classes, (c : ℚ) ≠ y) :
    insert d y = .ok ⟨d.labels ++ [y], d.classes ++ [whole y], d.dist ++ [1]⟩ := by
  unfold Frac.insert
  rw [List.findIdx?_eq_none_iff.2 (fun c hc => by simpa using hn c hc)]
  simp only [toInt_ok hr, Res_bind_ok]

private theorem insert_old {d : DS} {c : Int} (hc : c ∈ d.classes) (hl : d.dist.length = d.classes.length) :
    ∃ k, ∃ h : k < d.dist.length, d.classes[k]? = some c ∧ classPos d.classes c = k ∧
      insert d c = .ok ⟨d.labels ++ [(c : ℚ)], d.classes, d.dist.set k (d.dist[k] + 1)⟩ := by
  have hk : classPos d.classes c < d.dist.length := by rw [hl]; exact (classPos_lt_iff _ _).2 hc
  refine ⟨classPos d.classes c, hk, classPos_getElem? _ _ hc, rfl, ?_⟩
  have hf : d.classes.findIdx? (fun (c' : Int) => decide ((c' : ℚ) = c)) = some (classPos d.classes c) := by
    have : (fun c' : Int => decide ((c' : ℚ) = c)) = (fun c' => c' == c) := by
      funext c'; rw [Bool.eq_iff_iff]; simp
    rw [this, List.findIdx?_eq_some_of_exists ⟨c, hc, by simp⟩]
    rfl
  unfold Frac.insert
  rw [hf]
  simp only [incAt_ok hk, Res_bind_ok]

/-- What holds of every dataset made by insertions. -/
private structure FracInv (d : DS) : Prop where
  len : d.dist.length = d.classes.length
  sum : d.dist.sum = d.labels.length
  known : ∀ y ∈ d.labels, whole y ∈ d.classes
  range : ∀ y ∈ d.labels, IntRange y

private theorem inv_insert {d : DS} (h : FracInv d) {y : ℚ} (hr : IntRange y) :
    ∃ d', insert d y = .ok d' ∧ FracInv d' ∧ d'.labels = d.labels ++ [y] := by
  by_cases hc : ∃ c ∈ d.classes, (c : ℚ) = y
  · obtain ⟨c, hc, rfl⟩ := hc
    obtain ⟨k, hk, -, -, e⟩ := insert_old hc h.len
    refine ⟨_, e, ⟨?_, ?_, ?_, ?_⟩, rfl⟩
    · simpa using h.len
    · have : (d.dist.set k (d.dist[k] + 1)).sum = d.dist.sum + 1 := by
        generalize d.dist = l at hk
        clear e
        induction l generalizing k with
        | nil => simp at hk
        | cons a l ih =>
          cases k with
          | zero => simp; omega
          | succ k => simp [ih k (by simpa using hk)]; omega
      simp only [this, h.sum, List.length_append, List.length_singleton]
    · intro y hy
      rcases List.mem_append.1 hy with hy | hy
      · exact h.known y hy
      · simp only [List.mem_singleton] at hy
        subst hy
        rw [whole_int]; exact hc
    · intro y hy
      rcases List.mem_append.1 hy with hy | hy
      · exact h.range y hy
      · simp only [List.mem_singleton] at hy
        subst hy; exact hr
  · have hn : ∀ c ∈ d.classes, (c : ℚ) ≠ y := fun c h e => hc ⟨c, h, e⟩
    refine ⟨_, insert_new hr hn, ⟨?_, ?_, ?_, ?_⟩, rfl⟩
    · simp [h.len]
    · simp [h.sum]
    · intro z hz
      rcases List.mem_append.1 hz with hz | hz
      · exact List.mem_append_left _ (h.known z hz)
      · simp only [List.mem_singleton] at hz
        subst hz; simp
    · intro z hz
      rcases List.mem_append.1 hz with hz | hz
      · exact h.range z hz
      · simp only [List.mem_singleton] at hz
        subst hz; exact hr

private theorem inv_all : ∀ (ys : List ℚ) (d : DS), FracInv d → (∀ y ∈ ys, IntRange y) →
    ∃ d', insertAll d ys = .ok d' ∧ FracInv d' ∧ d'.labels = d.labels ++ ys
  | [], d, h, _ => ⟨d, rfl, h, by simp⟩
  | y :: ys, d, h, hr => by
    obtain ⟨d1, e1, h1, l1⟩ := inv_insert h (hr y (by simp))
    obtain ⟨d2, e2, h2, l2⟩ := inv_all ys d1 h1 (fun z hz => hr z (by simp [hz]))
    exact ⟨d2, by rw [insertAll, e1, Res_bind_ok, e2], h2, by rw [l2, l1]; simp⟩

private theorem inv_empty : FracInv ⟨[], [], []⟩ := ⟨rfl, rfl, by simp, by simp⟩

/-- C185 (what holds for all labels).  If the whole parts of the labels are ints, inserting the samples one by one succeeds; there
is a count for every class, the counts add up to the number of samples, and the whole part of every label is a class. -/
theorem C185_total (ys : List ℚ) (hr : ∀ y ∈ ys, IntRange y) :
    ∃ d, insertAll ⟨[], [], []⟩ ys = .ok d ∧ d.labels = ys ∧ d.dist.length = d.classes.length ∧
      d.dist.sum = ys.length ∧ ∀ y ∈ ys, whole y ∈ d.classes := by
  obtain ⟨d, e, h, hl⟩ := inv_all ys _ inv_empty hr
  have hl : d.labels = ys := hl
  exact ⟨d, e, hl, h.len, by rw [h.sum, hl], fun y hy => h.known y (by rw [hl]; exact hy)⟩

example : IntRange (3 / 2) ∧ IntRange (-3 / 2) ∧ whole (-3 / 2) = -1 := by
  unfold IntRange; decide +kernel

private theorem table_insert {d : DS} (h : LabelTable d.labels d.classes d.dist) {c : Int} (hr : IntRange c) :
    ∃ d', insert d c = .ok d' ∧ d'.labels = d.labels ++ [(c : ℚ)] ∧ LabelTable d'.labels d'.classes d'.dist := by
  by_cases hc : c ∈ d.classes
  · have hlen : d.dist.length = d.classes.length := by rw [h.counts]; simp
    obtain ⟨k, hk, hck, hpos, e⟩ := insert_old hc hlen
    refine ⟨_, e, rfl, h.nodup, ?_, ?_⟩
    · intro y
      simp only [List.mem_append, List.mem_singleton, h.mem]
      constructor
      · rintro (h | rfl)
        · exact h
        · exact ⟨c, hc, rfl⟩
      · exact Or.inl
    · apply List.ext_getElem
      · simp [hlen]
      · intro i h1 h2
        simp only [List.length_set] at h1
        have hi : i < d.classes.length := by omega
        rw [List.getElem_set]
        have hdi : ∀ j (hj : j < d.dist.length), d.dist[j] = d.labels.count ((d.classes[j]'(by omega) : Int) : ℚ) := by
          intro j hj
          have := h.counts
          rw [List.getElem_of_eq this]; simp
        have hkc : d.classes[k]'(by omega) = c := by
          rw [List.getElem?_eq_getElem (by omega)] at hck; simpa using hck
        by_cases hki : k = i
        · subst hki
          rw [if_pos rfl, hdi k hk]
          simp [hkc, List.count_append]
        · rw [if_neg hki, hdi i h1]
          have hne : d.classes[i] ≠ c := by
            intro hcc
            exact hki ((List.Nodup.getElem_inj_iff h.nodup).1 (by rw [hkc, hcc]))
          simp [List.count_append, List.count_singleton, Ne.symm hne]
  · have hn : ∀ c' ∈ d.classes, (c' : ℚ) ≠ c := by
      intro c' hc' hq
      have : c' = c := by exact_mod_cast hq
      exact hc (this ▸ hc')
    refine ⟨_, insert_new hr hn, rfl, ?_, ?_, ?_⟩
    · rw [whole_int, List.nodup_append]
      exact ⟨h.nodup, by simp, by simp only [List.mem_singleton]; rintro a ha b rfl rfl; exact hc ha⟩
    · intro y
      rw [whole_int]
      simp only [List.mem_append, List.mem_singleton, h.mem]
      constructor
      · rintro (⟨c', h1, h2⟩ | rfl)
        · exact ⟨c', Or.inl h1, h2⟩
        · exact ⟨c, Or.inr rfl, rfl⟩
      · rintro ⟨c', h1 | rfl, h2⟩
        · exact Or.inl ⟨c', h1, h2⟩
        · exact Or.inr h2.symm
    · rw [whole_int, List.map_append, h.counts]
      dsimp only
      congr 1
      · apply List.map_congr_left
        intro c' hc'
        have := hn c' hc'
        rw [List.count_append, List.count_singleton, if_neg (by simpa using this.symm), Nat.add_zero]
      · have : d.labels.count (c : ℚ) = 0 := by
          rw [List.count_eq_zero]
          intro hm
          obtain ⟨c', h1, h2⟩ := (h.mem _).1 hm
          exact hn c' h1 h2
        simp [List.count_append, this]

private theorem table_all : ∀ (zs : List Int) (d : DS), LabelTable d.labels d.classes d.dist →
    (∀ z ∈ zs, IntRange (z : ℚ)) → ∃ d', insertAll d (zs.map (fun (z : Int) => (z : ℚ))) = .ok d' ∧
      d'.labels = d.labels ++ zs.map (fun (z : Int) => (z : ℚ)) ∧ LabelTable d'.labels d'.classes d'.dist
  | [], d, h, _ => ⟨d, rfl, by simp, h⟩
  | z :: zs, d, h, hr => by
    obtain ⟨d1, e1, l1, h1⟩ := table_insert h (hr z (by simp))
    obtain ⟨d2, e2, l2, h2⟩ := table_all zs d1 h1 (fun z hz => hr z (by simp [hz]))
    exact ⟨d2, by rw [List.map_cons, insertAll, e1, Res_bind_ok, e2], by rw [l2, l1]; simp, h2⟩

/-- C185, labels that are whole numbers: the classes are the labels, each once, with the numbers of their samples.

Missing for the full claim: labels with a fraction, for which it is false (see the refutations). -/
theorem C185_classes_partial (zs : List Int) (hr : ∀ z ∈ zs, -2 ^ 31 ≤ z ∧ z < 2 ^ 31) :
    ∃ d, insertAll ⟨[], [], []⟩ (zs.map (fun (z : Int) => (z : ℚ))) = .ok d ∧
      d.labels = zs.map (fun (z : Int) => (z : ℚ)) ∧ LabelTable d.labels d.classes d.dist := by
  obtain ⟨d, e, l, h⟩ := table_all zs ⟨[], [], []⟩ ⟨by simp, by simp, by simp⟩
    (fun z hz => by unfold IntRange; rw [whole_int]; exact hr z hz)
  exact ⟨d, e, by simpa using l, h⟩

example : ∀ z ∈ ([1, -1, 1, 7] : List Int), -2 ^ 31 ≤ z ∧ z < 2 ^ 31 := by decide

/-- C185 is false of the code: two samples whose labels have the same whole part, the second with a fraction, give that class twice, whatever is in
the dataset and whatever is inserted in between. -/
theorem C185_twice_refuted (ys zs : List ℚ) (y y' : ℚ) (hys : ∀ y ∈ ys ++ zs, IntRange y) (hr : IntRange y)
    (hy' : Fractional y') (hw : whole y = whole y') :
    ∃ d, insertAll ⟨[], [], []⟩ (ys ++ y :: zs ++ [y']) = .ok d ∧ ¬ d.classes.Nodup := by
  have happ : ∀ (a b : List ℚ) (d d1 d2 : DS), insertAll d a = .ok d1 → insertAll d1 b = .ok d2 →
      insertAll d (a ++ b) = .ok d2 := by
    intro a
    induction a with
    | nil => intro b d d1 d2 h1 h2; cases h1; exact h2
    | cons x a ih =>
      intro b d d1 d2 h1 h2
      rw [insertAll] at h1
      rw [List.cons_append, insertAll]
      cases hx : insert d x with
      | error f => rw [hx, Res_bind_error] at h1; cases h1
      | ok d' => rw [hx, Res_bind_ok] at h1; rw [Res_bind_ok]; exact ih b d' d1 d2 h1 h2
  have hr' : IntRange y' := by unfold IntRange; rw [← hw]; exact hr
  obtain ⟨d1, e1, h1, l1⟩ := inv_all (ys ++ [y] ++ zs) _ inv_empty (by
    intro z hz
    simp only [List.mem_append, List.mem_singleton] at hz hys
    rcases hz with (hz | rfl) | hz
    · exact hys z (Or.inl hz)
    · exact hr
    · exact hys z (Or.inr hz))
  have l1 : d1.labels = ys ++ [y] ++ zs := l1
  have hmem : whole y ∈ d1.classes := h1.known y (by rw [l1]; simp)
  have e2 := insert_new (d := d1) hr' (fun c _ => hy' c)
  refine ⟨_, happ (ys ++ [y] ++ zs) [y'] _ d1 _ e1 (by rw [insertAll, e2, Res_bind_ok, insertAll]) |> (by simpa using ·), ?_⟩
  rw [List.nodup_append]
  intro h
  exact h.2.2 _ hmem (whole y') (by simp) hw

example : Fractional (6 / 5) ∧ Fractional (9 / 5) ∧ whole (6 / 5) = whole (9 / 5) := by
  refine ⟨fun c h => ?_, fun c h => ?_, by decide +kernel⟩
  · have : (c : ℚ) * 5 = 6 := by rw [h]; norm_num
    have : c * 5 = 6 := by exact_mod_cast this
    omega
  · have : (c : ℚ) * 5 = 9 := by rw [h]; norm_num
    have : c * 5 = 9 := by exact_mod_cast this
    omega

private theorem two_fractions {y y' : ℚ} (hr : IntRange y) (hy' : Fractional y')
    (hw : whole y = whole y') :
    insertAll ⟨[], [], []⟩ [y, y'] = .ok ⟨[y, y'], [whole y, whole y], [1, 1]⟩ := by
  have hr' : IntRange y' := by unfold IntRange; rw [← hw]; exact hr
  rw [insertAll, insert_new hr (by simp), Res_bind_ok, insertAll, insert_new hr' (fun c _ => hy' c), Res_bind_ok, insertAll, hw]
  rfl

/-- C185 is false of the code: two samples with labels such as 1.2 and 1.8 are, once the counts are computed again, two samples of
the first class, and a second class of the same number has none; splitting by classes puts both into the first part. -/
theorem C185_merged_refuted (y y' : ℚ) (hr : IntRange y) (hy' : Fractional y')
    (hw : whole y = whole y') :
    ∃ d, insertAll ⟨[], [], []⟩ [y, y'] = .ok d ∧ d.classes = [whole y, whole y] ∧ d.dist = [1, 1] ∧
      recompute d = .ok { d with dist := [2, 0] } ∧ split d = .ok [[y, y'], []] := by
  have hr' : IntRange y' := by unfold IntRange; rw [← hw]; exact hr
  refine ⟨_, two_fractions hr hy' hw, rfl, rfl, ?_, ?_⟩
  · simp [recompute, countLoop, toInt_ok hr, toInt_ok hr', Res_bind_ok, ← hw, classPos_eq_idxOf, incAt, vget, vset]
  · simp [split, splitLoop, toInt_ok hr, toInt_ok hr', Res_bind_ok, ← hw, classPos_eq_idxOf, vget]

/-- C185 is false of the code: removing the two of three samples with labels such as 1.2 and 1.8 takes both from the first class, so
that its count becomes 2^64 - 1 and that of the second class stays at 1 without a sample. -/
theorem C185_remove_refuted (y y' z : ℚ) (hr : IntRange y) (hy' : Fractional y')
    (hw : whole y = whole y') (hz : IntRange z) (hzf : Fractional z) :
    ∃ d d1 d2, insertAll ⟨[], [], []⟩ [y, y', z] = .ok d ∧ removeAt d 0 = .ok d1 ∧ removeAt d1 0 = .ok d2 ∧
      d2.labels = [z] ∧ d2.dist = [2 ^ 64 - 1, 1, 1] := by
  have hr' : IntRange y' := by unfold IntRange; rw [← hw]; exact hr
  have e : insertAll ⟨[], [], []⟩ [y, y', z] = .ok ⟨[y, y', z], [whole y, whole y, whole z], [1, 1, 1]⟩ := by
    rw [insertAll, insert_new hr (by simp), Res_bind_ok, insertAll, insert_new hr' (fun c _ => hy' c), Res_bind_ok,
      insertAll, insert_new hz (fun c _ => hzf c), Res_bind_ok, insertAll, hw]
    rfl
  refine ⟨_, ⟨[y', z], [whole y, whole y, whole z], [0, 1, 1]⟩, ⟨[z], [whole y, whole y, whole z], [2 ^ 64 - 1, 1, 1]⟩, e,
    ?_, ?_, rfl, rfl⟩
  · simp [removeAt, toInt_ok hr, vget, Res_bind_ok, classPos_eq_idxOf, decSize]
  · simp [removeAt, toInt_ok hr', vget, Res_bind_ok, classPos_eq_idxOf, decSize, ← hw]

/-- C185 is false of the code: after a sample with a label such as 1.5, samples with label 1 are counted in its class. -/
theorem C185_mixed_refuted (y : ℚ) (hr : IntRange y) (hy : Fractional y) :
    ∃ d, insertAll ⟨[], [], []⟩ [y, (whole y : ℚ)] = .ok d ∧ d.classes = [whole y] ∧ d.dist = [2] ∧
      d.labels.count (whole y : ℚ) = 1 := by
  obtain ⟨k, hk, h1, h2, e⟩ := insert_old (d := ⟨[y], [whole y], [1]⟩) (c := whole y) (by simp) rfl
  have hk0 : k = 0 := by simp at hk; exact hk
  subst hk0
  refine ⟨⟨[y, (whole y : ℚ)], [whole y], [2]⟩, ?_, rfl, rfl, ?_⟩
  · rw [insertAll, insert_new hr (by simp), Res_bind_ok, insertAll]
    simp only [List.nil_append]
    rw [e]
    rfl
  · have := hy (whole y)
    rw [List.count_cons_of_ne (fun h => this h.symm)]; simp

/-- C185 is false of the code: a label beyond the ints is undefined behaviour. -/
theorem C185_range_refuted (ys : List ℚ) (hys : ∀ y ∈ ys, IntRange y) (y : ℚ) (hy : Fractional y)
    (hr : ¬ IntRange y) :
    ∃ d, insertAll ⟨[], [], []⟩ ys = .ok d ∧ insert d y = .error .overflow := by
  obtain ⟨d, e, -, -⟩ := inv_all ys _ inv_empty hys
  refine ⟨d, e, ?_⟩
  unfold Frac.insert
  rw [List.findIdx?_eq_none_iff.2 (fun c _ => by simpa using hy c)]
  simp only [toInt_bad hr, Res_bind_error]

/-- What the counts should be after `computeClassesDistribution`: the samples whose label has the class as whole part belong to the
first entry of the class. -/
private theorem count_ok (classes : List Int) : ∀ (ys : List ℚ) (dist : List Nat), dist.length = classes.length →
    (∀ y ∈ ys, IntRange y) → (∀ y ∈ ys, whole y ∈ classes) →
    ∃ dist', countLoop classes dist ys = .ok dist' ∧ dist'.length = classes.length ∧
      ∀ k (hk : k < classes.length) n, dist[k]? = some n →
        dist'[k]? = some (n + if classes.idxOf classes[k] = k then ys.countP (fun y => decide (whole y = classes[k])) else 0)
  | [], dist, hl, _, _ => ⟨dist, rfl, hl, by intro k hk n h; simpa using h⟩
  | y :: ys, dist, hl, hr, hc => by
    have hy := hc y (by simp)
    have hp : classPos classes (whole y) < dist.length := by rw [hl]; exact (classPos_lt_iff _ _).2 hy
    obtain ⟨dist', e, hl', hk'⟩ := count_ok classes ys (dist.set (classPos classes (whole y)) (dist[classPos classes (whole y)] + 1))
      (by simpa using hl) (fun z hz => hr z (by simp [hz])) (fun z hz => hc z (by simp [hz]))
    refine ⟨dist', ?_, hl', ?_⟩
    · rw [countLoop, toInt_ok (hr y (by simp)), Res_bind_ok, incAt_ok hp, Res_bind_ok, e]
    · intro k hk n hn
      have hkd : k < dist.length := by omega
      have hn' : dist[k] = n := by rw [List.getElem?_eq_getElem hkd] at hn; simpa using hn
      by_cases hkp : classPos classes (whole y) = k
      · subst hkp
        have hck : classes[classPos classes (whole y)] = whole y := by
          have := classPos_getElem? classes (whole y) hy
          rw [List.getElem?_eq_getElem (by omega)] at this
          simpa using this
        rw [hk' _ hk (n + 1) (by rw [List.getElem?_set_self hp, hn'])]
        have hfirst : classes.idxOf classes[classPos classes (whole y)] = classPos classes (whole y) := by
          rw [hck]; rfl
        rw [if_pos hfirst, if_pos hfirst, List.countP_cons, hck]
        simp; omega
      · rw [hk' k hk n (by rw [List.getElem?_set_ne hkp]; exact hn)]
        by_cases hf : classes.idxOf classes[k] = k
        · rw [if_pos hf, if_pos hf, List.countP_cons]
          have : ¬ whole y = classes[k] := by
            intro h
            apply hkp
            rw [classPos_eq_idxOf, h, hf]
          simp [this]
        · rw [if_neg hf, if_neg hf]

/-- C185 (what the recomputed counts are, for all labels).  Computing the counts again succeeds, and the count of the first entry of
a class is the number of samples whose label has it as whole part; that of further entries of the class is 0. -/
theorem C185_recompute (ys : List ℚ) (hr : ∀ y ∈ ys, IntRange y) :
    ∃ d d', insertAll ⟨[], [], []⟩ ys = .ok d ∧ recompute d = .ok d' ∧ d'.labels = ys ∧ d'.classes = d.classes ∧
      d'.dist.length = d.classes.length ∧
      ∀ k (hk : k < d.classes.length), d'.dist[k]? =
        some (if d.classes.idxOf d.classes[k] = k then ys.countP (fun y => decide (whole y = d.classes[k])) else 0) := by
  obtain ⟨d, e, h, hl⟩ := inv_all ys _ inv_empty hr
  have hl : d.labels = ys := hl
  obtain ⟨dist, e', h1, h2⟩ := count_ok d.classes d.labels (List.replicate d.classes.length 0) (by simp) h.range h.known
  refine ⟨d, { d with dist := dist }, e, ?_, hl, rfl, h1, ?_⟩
  · rw [recompute, e', Res_bind_ok]
  · intro k hk
    rw [h2 k hk 0 (by simp [hk]), hl]; simp

private theorem split_ok (classes : List Int) : ∀ (ys : List ℚ) (parts : List (List ℚ)), parts.length = classes.length →
    (∀ y ∈ ys, IntRange y) → (∀ y ∈ ys, whole y ∈ classes) →
    ∃ parts', splitLoop classes parts ys = .ok parts' ∧ parts'.length = classes.length ∧
      ∀ k (hk : k < classes.length) n, parts[k]? = some n →
        parts'[k]? = some (n ++ if classes.idxOf classes[k] = k then ys.filter (fun y => decide (whole y = classes[k])) else [])
  | [], parts, hl, _, _ => ⟨parts, rfl, hl, by intro k hk n h; simpa using h⟩
  | y :: ys, parts, hl, hr, hc => by
    have hy := hc y (by simp)
    have hp : classPos classes (whole y) < parts.length := by rw [hl]; exact (classPos_lt_iff _ _).2 hy
    obtain ⟨parts', e, hl', hk'⟩ := split_ok classes ys
      (parts.set (classPos classes (whole y)) (parts[classPos classes (whole y)] ++ [y]))
      (by simpa using hl) (fun z hz => hr z (by simp [hz])) (fun z hz => hc z (by simp [hz]))
    refine ⟨parts', ?_, hl', ?_⟩
    · rw [splitLoop, toInt_ok (hr y (by simp)), Res_bind_ok,
        show vget parts (classPos classes (whole y)) = .ok parts[classPos classes (whole y)] by simp [hp], Res_bind_ok, e]
    · intro k hk n hn
      have hkd : k < parts.length := by omega
      have hn' : parts[k] = n := by rw [List.getElem?_eq_getElem hkd] at hn; simpa using hn
      by_cases hkp : classPos classes (whole y) = k
      · subst hkp
        have hck : classes[classPos classes (whole y)] = whole y := by
          have := classPos_getElem? classes (whole y) hy
          rw [List.getElem?_eq_getElem (by omega)] at this
          simpa using this
        rw [hk' _ hk (n ++ [y]) (by rw [List.getElem?_set_self hp, hn'])]
        have hfirst : classes.idxOf classes[classPos classes (whole y)] = classPos classes (whole y) := by
          rw [hck]; rfl
        rw [if_pos hfirst, if_pos hfirst, hck]
        simp
      · rw [hk' k hk n (by rw [List.getElem?_set_ne hkp]; exact hn)]
        by_cases hf : classes.idxOf classes[k] = k
        · rw [if_pos hf, if_pos hf]
          have : ¬ whole y = classes[k] := by
            intro h
            apply hkp
            rw [classPos_eq_idxOf, h, hf]
          simp [this]
        · rw [if_neg hf, if_neg hf]

/-- C185 (splitting, for all labels).  Splitting by classes succeeds, and the part of the first entry of a class has the samples
whose label has it as whole part, in order; the parts of further entries are empty. -/
theorem C185_split (ys : List ℚ) (hr : ∀ y ∈ ys, IntRange y) :
    ∃ d parts, insertAll ⟨[], [], []⟩ ys = .ok d ∧ split d = .ok parts ∧ parts.length = d.classes.length ∧
      ∀ k (hk : k < d.classes.length), parts[k]? =
        some (if d.classes.idxOf d.classes[k] = k then ys.filter (fun y => decide (whole y = d.classes[k])) else []) := by
  obtain ⟨d, e, h, hl⟩ := inv_all ys _ inv_empty hr
  have hl : d.labels = ys := hl
  obtain ⟨parts, e', h1, h2⟩ := split_ok d.classes d.labels (List.replicate d.classes.length []) (by simp) h.range h.known
  refine ⟨d, parts, e, e', h1, ?_⟩
  intro k hk
  rw [h2 k hk [] (by simp [hk]), hl]; simp

end MLTK.Props
