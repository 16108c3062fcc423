import Verif.Lemmas.DoubleSum
import Verif.Lemmas.Voting
import Verif.Model.DoubleVote
import Verif.Props.DoubleStats
import Verif.Props.DoubleValid
import Verif.Spec.DoubleVote
/-!
# C230: votes counted in `double` arithmetic
-/
namespace MLTK.Props
open MLTK.Fp MLTK.Spec
open MLTK.Data (Res_bind_ok Res_bind_error Res_pure)

attribute [local irreducible] Fp.rnd Fp.near Fp.huge Fp.two

/-- A double that is not NaN. -/
def IsNum (a : Dbl) : Prop := (∃ q, a = .fin q ∧ IsDbl q) ∨ ∃ s, a = .inf s

theorem rnd_isNum (q : ℚ) : IsNum (rnd q) := by
  cases h : rnd q with
  | fin x => exact .inl ⟨x, rfl, rnd_isDbl h⟩
  | inf s => exact .inr ⟨s, rfl⟩
  | nan => exact absurd h (rnd_ne_nan q)

theorem zero_isNum : IsNum (.fin 0) := .inl ⟨0, rfl, isDbl_iff.2 ⟨near_zero, by rw [abs_zero]; exact huge_pos⟩⟩

theorem IsNum.add_fin {a : Dbl} (ha : IsNum a) (q : ℚ) : IsNum (a.add (.fin q)) := by
  rcases ha with ⟨p, rfl, _⟩ | ⟨s, rfl⟩
  · exact rnd_isNum _
  · exact .inr ⟨s, rfl⟩

theorem sum_isNum (xs : List Dbl) (hx : ∀ x ∈ xs, ∃ q, x = .fin q) : ∀ a, IsNum a → IsNum (xs.foldl Dbl.add a) := by
  induction xs with
  | nil => intro a ha; exact ha
  | cons x xs ih =>
    intro a ha
    obtain ⟨q, rfl⟩ := hx x (by simp)
    exact ih (fun y hy => hx y (by simp [hy])) _ (ha.add_fin q)

/-- Orders the doubles that are not NaN. -/
def numRank : Dbl → ℚ
  | .fin q => q
  | .inf s => if s then -huge else huge
  | .nan => 0

theorem lt_numRank {a b : Dbl} (ha : IsNum a) (hb : IsNum b) : a.lt b = decide (numRank a < numRank b) := by
  have hh := huge_pos
  rcases ha with ⟨p, rfl, hp⟩ | ⟨s, rfl⟩ <;> rcases hb with ⟨q, rfl, hq⟩ | ⟨t, rfl⟩
  · rfl
  · have h := abs_lt.1 (isDbl_iff.1 hp).2
    cases t
    · simp [Dbl.lt, numRank, h.2]
    · have : ¬ p < -huge := by linarith [h.1]
      simp [Dbl.lt, numRank, this]
  · have h := abs_lt.1 (isDbl_iff.1 hq).2
    cases s
    · have : ¬ huge < q := by linarith [h.2]
      simp [Dbl.lt, numRank, this]
    · simp [Dbl.lt, numRank, h.1]
  · cases s <;> cases t <;> simp [Dbl.lt, numRank] <;> linarith

theorem le_numRank {a b : Dbl} (ha : IsNum a) (hb : IsNum b) : a.le b = decide (numRank a ≤ numRank b) := by
  have hh := huge_pos
  rcases ha with ⟨p, rfl, hp⟩ | ⟨s, rfl⟩ <;> rcases hb with ⟨q, rfl, hq⟩ | ⟨t, rfl⟩
  · rfl
  · have h := abs_lt.1 (isDbl_iff.1 hp).2
    cases t
    · simp [Dbl.le, numRank, h.2.le]
    · have : ¬ p ≤ -huge := by linarith [h.1]
      simp [Dbl.le, numRank, this]
  · have h := abs_lt.1 (isDbl_iff.1 hq).2
    cases s
    · have : ¬ huge ≤ q := by linarith [h.2]
      simp [Dbl.le, numRank, this]
    · simp [Dbl.le, numRank, h.1.le]
  · cases s <;> cases t <;> simp [Dbl.le, numRank] <;> linarith

theorem maxLoop_rank : ∀ (l : List Dbl) (i best : Nat) (v : Dbl), IsNum v → (∀ x ∈ l, IsNum x) →
    Fp.maxLoop l i best v = MLTK.Vote.maxLoop (l.map numRank) i best (numRank v) := by
  intro l
  induction l with
  | nil => intros; rfl
  | cons x l ih =>
    intro i best v hv hl
    have hx := hl x (by simp)
    unfold Fp.maxLoop
    rw [List.map_cons, MLTK.Vote.maxLoop, lt_numRank hv hx]
    by_cases h : numRank v < numRank x
    · rw [if_pos (by simpa using h), if_pos h]; exact ih _ _ _ hx (fun y hy => hl y (by simp [hy]))
    · rw [if_neg (by simpa using h), if_neg h]; exact ih _ _ _ hv (fun y hy => hl y (by simp [hy]))

/-- The class at the first greatest of the scores. -/
theorem maxElement_greatest (classes : List Int) (hne : classes ≠ []) (score : Int → Dbl) (hs : ∀ c ∈ classes, IsNum (score c)) :
    ∃ c, vget classes (Fp.maxElement (classes.map score)) = .ok c ∧ FirstGreatest classes score c := by
  have hmax : Fp.maxElement (classes.map score) = MLTK.Vote.maxElement ((classes.map score).map numRank) := by
    cases classes with
    | nil => rfl
    | cons c cs => exact maxLoop_rank _ 1 0 _ (hs c (by simp)) (by simpa using fun a h => hs a (by simp [h]))
  have hm := MLTK.Vote.maxElement_spec ((classes.map score).map numRank) (by simpa using hne)
  rw [← hmax] at hm
  simp only [List.length_map] at hm
  obtain ⟨c, h1, before, after, e1, e2, e3⟩ := MLTK.Vote.firstBest_of_firstMax (classes := classes)
    (score := fun c => numRank (score c)) hm (by intro k hk; simp [hk])
  have hc : c ∈ classes := by rw [e1]; simp
  refine ⟨c, h1, before, after, e1, fun c' hc' => ?_, fun c' hc' => ?_⟩
  · rw [le_numRank (hs c' hc') (hs c hc)]; simpa using e2 c' hc'
  · rw [lt_numRank (hs c' (by rw [e1]; simp [hc'])) (hs c hc)]; simpa using e3 c' hc'

theorem tally_double {classes : List Int} (hn : classes.Nodup) (ws : List Dbl) :
    ∀ (preds : List Int) (i : Nat) (votes : List Dbl), (∀ q ∈ preds, q ∈ classes) →
      i + preds.length ≤ ws.length → votes.length = classes.length →
      Fp.tally classes ws preds i votes = .ok ((classes.zip votes).map (fun cv =>
        (votersOf (ws.drop i) preds cv.1).foldl Dbl.add cv.2)) := by
  intro preds
  induction preds with
  | nil =>
    intro i votes _ _ hl
    simp only [Fp.tally, votersOf, List.zip_nil_right, List.filter_nil, List.map_nil, List.foldl_nil]
    rw [List.map_snd_zip (by omega)]
  | cons q preds ih =>
    intro i votes hq hi hl
    obtain ⟨hp, hpos⟩ := MLTK.Vote.findIdx_class hn (hq q (by simp))
    simp only [List.length_cons] at hi
    have hil : i < ws.length := by omega
    have hw : vget ws i = .ok ws[i] := by simp [hil]
    have hv : vget votes (classes.findIdx (· == q)) = .ok (votes[classes.findIdx (· == q)]'(by omega)) := by
      have : classes.findIdx (· == q) < votes.length := by omega
      simp [this]
    unfold Fp.tally
    rw [hw, Res_bind_ok, hv, Res_bind_ok]
    unfold vset
    rw [if_pos (by omega), Res_bind_ok, ih (i + 1) _ (fun x hx => hq x (by simp [hx])) (by omega) (by simpa using hl)]
    congr 1
    have hd : ws.drop i = ws[i] :: ws.drop (i + 1) := List.drop_eq_getElem_cons hil
    rw [hd]
    apply List.ext_getElem (by simp)
    intro k h1 h2
    have hk : k < classes.length := by simp at h2; omega
    simp only [List.getElem_map, List.getElem_zip, List.getElem_set]
    by_cases hkq : classes[k] = q
    · have := (hpos k hk).2 hkq
      rw [if_pos this.symm]
      simp only [votersOf, List.zip_cons_cons, hkq, decide_true, List.filter_cons_of_pos, List.map_cons, List.foldl_cons]
      simp only [← this]
    · rw [if_neg (fun h => hkq ((hpos k hk).1 h.symm))]
      have hne : q ≠ classes[k] := fun h => hkq h.symm
      simp only [votersOf, List.zip_cons_cons]
      rw [List.filter_cons_of_neg (by simpa using hne)]

theorem votersOf_mem {K : Type} {ws : List K} {preds : List Int} {c : Int} {x : K} (h : x ∈ votersOf ws preds c) : x ∈ ws := by
  unfold votersOf at h
  obtain ⟨v, hv, rfl⟩ := List.mem_map.1 h
  exact (List.of_mem_zip (List.mem_of_mem_filter hv)).1

/-- C230: a soft vote answers the first class whose voters' finite weights, added up in `double` arithmetic in the order of
the voters, give the greatest total. -/
theorem C230_soft (classes : List Int) (hn : classes.Nodup) (hne : classes ≠ []) (preds : List Int)
    (hq : ∀ q ∈ preds, q ∈ classes) (weights : List Dbl) (hw : weights.length = preds.length) (hw0 : weights ≠ [])
    (hf : ∀ w ∈ weights, ∃ q, w = .fin q) :
    ∃ c, voteEvaluate true weights classes preds = .ok c ∧ FirstGreatest classes (doubleSupport weights preds) c := by
  have h := tally_double hn weights preds 0 (List.replicate classes.length (.fin 0)) hq (by omega) (by simp)
  have hz : (classes.zip (List.replicate classes.length (Dbl.fin 0))).map (fun cv =>
      (votersOf (weights.drop 0) preds cv.1).foldl Dbl.add cv.2) = classes.map (doubleSupport weights preds) := by
    apply List.ext_getElem (by simp)
    intro k h1 h2
    simp [doubleSupport]
  rw [hz] at h
  obtain ⟨c, h1, h2⟩ := maxElement_greatest classes hne (doubleSupport weights preds)
    (fun c _ => sum_isNum _ (fun x hx => hf x (votersOf_mem hx)) _ zero_isNum)
  refine ⟨c, ?_, h2⟩
  unfold voteEvaluate
  rw [if_pos rfl, if_neg hw0, Res_bind_ok]
  dsimp only
  rw [h, Res_bind_ok, h1]

theorem boost_double (alpha : List Dbl) (preds : List Int) (hl : alpha.length = preds.length) (c : Int) : ∀ n ≤ preds.length,
    Fp.boostScore alpha preds c n = .ok (((((alpha.zip preds).take n).filter (fun v => v.2 = c)).map Prod.fst).foldl Dbl.add
      (.fin 0)) := by
  intro n
  induction n with
  | zero => intro _; rfl
  | succ n ih =>
    intro h
    have h1 : n < preds.length := by omega
    have h2 : n < alpha.length := by omega
    have h3 : n < (alpha.zip preds).length := by simp; omega
    unfold Fp.boostScore
    rw [ih (by omega), Res_bind_ok, show vget preds n = .ok preds[n] by simp [h1], Res_bind_ok,
      List.take_succ_eq_append_getElem h3, List.filter_append, List.map_append, List.foldl_append]
    simp only [List.getElem_zip]
    by_cases hc : preds[n] = c
    · rw [if_pos hc, show vget alpha n = .ok alpha[n] by simp [h2], Res_bind_ok, List.filter_cons_of_pos (by simpa using hc)]
      rfl
    · rw [if_neg hc, List.filter_cons_of_neg (by simpa using hc)]
      rfl

/-- C230: AdaBoost answers the first class whose estimators' finite weights, added up in `double` arithmetic, give the
greatest total. -/
theorem C230_boost (classes : List Int) (hne : classes ≠ []) (preds : List Int) (alpha : List Dbl)
    (hl : alpha.length = preds.length) (hf : ∀ w ∈ alpha, ∃ q, w = .fin q) :
    ∃ c, boostEvaluate preds.length alpha classes preds = .ok c ∧ FirstGreatest classes (doubleSupport alpha preds) c := by
  have key : classes.mapM (fun c => Fp.boostScore alpha preds c preds.length) = .ok (classes.map (doubleSupport alpha preds)) := by
    have : ∀ c, Fp.boostScore alpha preds c preds.length = .ok (doubleSupport alpha preds c) := by
      intro c
      rw [boost_double alpha preds hl c _ (le_refl _), List.take_of_length_le (by simp)]
      rfl
    generalize classes = cs
    induction cs with
    | nil => rfl
    | cons a l ih => rw [List.mapM_cons, this, Res_bind_ok, ih, Res_bind_ok]; rfl
  obtain ⟨c, h1, h2⟩ := maxElement_greatest classes hne (doubleSupport alpha preds)
    (fun c _ => sum_isNum _ (fun x hx => hf x (votersOf_mem hx)) _ zero_isNum)
  refine ⟨c, ?_, h2⟩
  unfold boostEvaluate
  rw [key, Res_bind_ok, h1]

theorem votersOf_ones (c : Int) : ∀ preds : List Int,
    votersOf (List.replicate preds.length (Dbl.fin 1)) preds c = List.replicate (preds.count c) (.fin 1) := by
  intro preds
  induction preds with
  | nil => rfl
  | cons q preds ih =>
    unfold votersOf at ih ⊢
    rw [List.length_cons, List.replicate_succ, List.zip_cons_cons]
    by_cases h : q = c
    · rw [List.filter_cons_of_pos (by simpa using h), List.map_cons, ih, h, List.count_cons_self, List.replicate_succ]
    · rw [List.filter_cons_of_neg (by simpa using h), ih, List.count_cons_of_ne h]

theorem ones_sum : ∀ n : Nat, n ≤ 2 ^ 53 → (List.replicate n (Dbl.fin 1)).foldl Dbl.add (.fin 0) = .fin (n : ℚ) := by
  intro n
  induction n with
  | zero => intro _; rfl
  | succ n ih =>
    intro h
    rw [List.replicate_succ', List.foldl_append, ih (by omega)]
    simp only [List.foldl_cons, List.foldl_nil, Dbl.add]
    have : (n : ℚ) + 1 = ((n + 1 : ℕ) : ℚ) := by push_cast; rfl
    rw [this]
    have hn := near_nat h
    rw [rnd_fin, hn]
    rw [hn, abs_of_nonneg (by positivity)]
    have h2 : ((n + 1 : ℕ) : ℚ) ≤ 2 ^ 53 := by exact_mod_cast h
    have h3 : (2 ^ 53 : ℚ) < huge := by decide +kernel
    linarith

/-- C230: a hard vote of up to `2^53` learners answers the first class with the most votes. -/
theorem C230_hard (classes : List Int) (hn : classes.Nodup) (hne : classes ≠ []) (preds : List Int)
    (hq : ∀ q ∈ preds, q ∈ classes) (hp : preds.length ≤ 2 ^ 53) (weights : List Dbl) :
    ∃ c, voteEvaluate false weights classes preds = .ok c ∧ FirstBest classes (fun c => preds.count c) c := by
  have h := tally_double hn (List.replicate preds.length (.fin 1)) preds 0 (List.replicate classes.length (.fin 0)) hq
    (by simp) (by simp)
  have hsup : ∀ c, doubleSupport (List.replicate preds.length (.fin 1)) preds c = .fin (preds.count c : ℚ) := by
    intro c
    unfold doubleSupport
    rw [votersOf_ones, ones_sum _ (le_trans List.count_le_length hp)]
  have hz : (classes.zip (List.replicate classes.length (Dbl.fin 0))).map (fun cv =>
      (votersOf ((List.replicate preds.length (Dbl.fin 1)).drop 0) preds cv.1).foldl Dbl.add cv.2) =
      classes.map (doubleSupport (List.replicate preds.length (.fin 1)) preds) := by
    apply List.ext_getElem (by simp)
    intro k h1 h2
    simp only [doubleSupport, List.getElem_map, List.getElem_zip, List.getElem_replicate, List.drop_zero]
  rw [hz] at h
  obtain ⟨c, h1, before, after, e1, e2, e3⟩ := maxElement_greatest classes hne
    (doubleSupport (List.replicate preds.length (.fin 1)) preds)
    (fun c _ => sum_isNum _ (fun x hx => ⟨1, List.eq_of_mem_replicate (votersOf_mem hx)⟩) _ zero_isNum)
  refine ⟨c, ?_, before, after, e1, fun c' hc' => ?_, fun c' hc' => ?_⟩
  · unfold voteEvaluate
    rw [if_neg (by simp), Res_bind_ok]
    dsimp only
    rw [h, Res_bind_ok, h1]
  · have := e2 c' hc'
    rw [hsup, hsup] at this
    simpa [Dbl.le] using this
  · have := e3 c' hc'
    rw [hsup, hsup] at this
    simpa [Dbl.lt] using this

/-- The sum of two doubles is rounded with a relative error, however small it is. -/
theorem near_add_rel {p q : ℚ} (hp : near p = p) (hq : near q = q) (hp0 : 0 ≤ p) (hq0 : 0 ≤ q) :
    (p + q) * (1 - 1 / 2 ^ 53) ≤ near (p + q) ∧ near (p + q) ≤ (p + q) * (1 + 1 / 2 ^ 53) := by
  have h53 : two (-53) = 1 / 2 ^ 53 := by decide +kernel
  have h0 : 0 ≤ p + q := by linarith
  by_cases h : two (-1022) ≤ |p + q|
  · have := abs_le.1 (near_rel h)
    rw [h53, abs_of_nonneg h0] at this
    constructor <;> linarith [this.1, this.2]
  · have : near (p + q) = p + q := by
      obtain ⟨m, hm⟩ := grid_unit hp
      obtain ⟨n, hn⟩ := grid_unit hq
      have hs : p + q = ((m + n : ℤ) : ℚ) * two (-1074) := by rw [hm, hn]; push_cast; ring
      apply near_of_grid
      refine ⟨m + n, -1074, ?_, le_refl _, hs⟩
      have hu := two_pos (-1074)
      have h22 : two (-1022) = 2 ^ 52 * two (-1074) := by decide +kernel
      rw [not_le, h22, hs, abs_mul, abs_of_pos hu] at h
      have h3 := lt_of_mul_lt_mul_right h hu.le
      have h4 : ((|m + n| : ℤ) : ℚ) < ((2 ^ 52 : ℤ) : ℚ) := by rw [Int.cast_abs]; push_cast at h3 ⊢; exact h3
      have h5 : |m + n| < 2 ^ 52 := by exact_mod_cast h4
      omega
    rw [this]
    constructor <;> nlinarith

theorem sum_rel (xs : List ℚ) (hx : ∀ x ∈ xs, IsDbl x ∧ 0 ≤ x) (hb : xs.sum * (1 + 1 / 2 ^ 53) ^ xs.length < huge) :
    ∃ t, (xs.map Dbl.fin).foldl Dbl.add (.fin 0) = .fin t ∧ near t = t ∧ 0 ≤ t ∧
      xs.sum * (1 - 1 / 2 ^ 53) ^ xs.length ≤ t ∧ t ≤ xs.sum * (1 + 1 / 2 ^ 53) ^ xs.length := by
  induction xs using List.reverseRecOn with
  | nil => exact ⟨0, rfl, near_zero, le_refl _, by simp, by simp⟩
  | append_singleton l x ih =>
    obtain ⟨hd, h0⟩ := hx x (by simp)
    have hl : ∀ y ∈ l, IsDbl y ∧ 0 ≤ y := fun y hy => hx y (by simp [hy])
    have hs0 : 0 ≤ l.sum := List.sum_nonneg (fun y hy => (hl y hy).2)
    rw [List.sum_append, List.sum_singleton, List.length_append, List.length_singleton, pow_succ] at hb
    have g1 : (1 : ℚ) ≤ (1 + 1 / 2 ^ 53) ^ l.length := one_le_pow₀ (by norm_num)
    have hb' : l.sum * (1 + 1 / 2 ^ 53) ^ l.length < huge := by
      refine lt_of_le_of_lt ?_ hb
      have : (0 : ℚ) ≤ (1 + 1 / 2 ^ 53) ^ l.length := by positivity
      nlinarith [mul_nonneg hs0 this, mul_nonneg h0 this]
    obtain ⟨t, e1, e2, e3, e4, e5⟩ := ih hl hb'
    have hr := near_add_rel e2 (isDbl_iff.1 hd).1 e3 h0
    have hup : near (t + x) ≤ (l.sum + x) * ((1 + 1 / 2 ^ 53) ^ l.length * (1 + 1 / 2 ^ 53)) := by
      have : t + x ≤ (l.sum + x) * (1 + 1 / 2 ^ 53) ^ l.length := by nlinarith
      nlinarith [hr.2]
    have hnn : 0 ≤ near (t + x) := near_nonneg (by linarith)
    refine ⟨near (t + x), ?_, near_near _, hnn, ?_, ?_⟩
    · rw [List.map_append, List.foldl_append, e1]
      simp only [List.map_cons, List.map_nil, List.foldl_cons, List.foldl_nil, Dbl.add]
      rw [rnd_fin]
      rw [abs_of_nonneg hnn]
      linarith
    · rw [List.sum_append, List.sum_singleton, List.length_append, List.length_singleton, pow_succ]
      have g0 : (1 - 1 / 2 ^ 53 : ℚ) ^ l.length ≤ 1 := pow_le_one₀ (by norm_num) (by norm_num)
      have : (l.sum + x) * (1 - 1 / 2 ^ 53) ^ l.length ≤ t + x := by nlinarith
      nlinarith [hr.1]
    · rw [List.sum_append, List.sum_singleton, List.length_append, List.length_singleton, pow_succ]
      exact hup

theorem votersOf_map (ws : List ℚ) (preds : List Int) (c : Int) :
    votersOf (ws.map Dbl.fin) preds c = (votersOf ws preds c).map Dbl.fin := by
  unfold votersOf
  rw [List.zip_map_left, List.filter_map, List.map_map, List.map_map]
  rfl

theorem votersOf_sum_le (c : Int) : ∀ (ws : List ℚ) (preds : List Int), (∀ w ∈ ws, 0 ≤ w) →
    (votersOf ws preds c).sum ≤ ws.sum ∧ (votersOf ws preds c).length ≤ ws.length := by
  intro ws
  induction ws with
  | nil => intro preds _; simp [votersOf]
  | cons w ws ih =>
    intro preds h
    have hw := h w (by simp)
    have hs : 0 ≤ ws.sum := List.sum_nonneg (fun y hy => h y (by simp [hy]))
    cases preds with
    | nil => simp [votersOf]; linarith
    | cons q preds =>
      have := ih preds (fun y hy => h y (by simp [hy]))
      unfold votersOf at this ⊢
      rw [List.zip_cons_cons]
      by_cases hc : q = c
      · rw [List.filter_cons_of_pos (by simpa using hc)]
        simp only [List.map_cons, List.sum_cons, List.length_cons]
        constructor <;> linarith [this.1, this.2]
      · rw [List.filter_cons_of_neg (by simpa using hc)]
        simp only [List.sum_cons, List.length_cons]
        constructor <;> linarith [this.1, this.2]

/-- C230: with weights that are not negative and do not overflow, the total of the voters of the class answered is at least
that of every other class up to a rounding of one part in `2^53` per voter. -/
theorem C230_near_greatest_partial (classes : List Int) (hn : classes.Nodup) (hne : classes ≠ []) (preds : List Int)
    (hq : ∀ q ∈ preds, q ∈ classes) (ws : List ℚ) (hw : ws.length = preds.length) (hw0 : ws ≠ [])
    (hd : ∀ w ∈ ws, IsDbl w ∧ 0 ≤ w) (hb : ws.sum * (1 + 1 / 2 ^ 53) ^ ws.length < huge) :
    ∃ c, voteEvaluate true (ws.map .fin) classes preds = .ok c ∧ ∀ c' ∈ classes,
      (votersOf ws preds c').sum * (1 - 1 / 2 ^ 53) ^ ws.length ≤ (votersOf ws preds c).sum * (1 + 1 / 2 ^ 53) ^ ws.length := by
  obtain ⟨c, h1, before, after, e1, e2, e3⟩ := C230_soft classes hn hne preds hq (ws.map .fin) (by simpa using hw)
    (by simpa using hw0) (fun w hw => by obtain ⟨q, _, rfl⟩ := List.mem_map.1 hw; exact ⟨q, rfl⟩)
  refine ⟨c, h1, fun c' hc' => ?_⟩
  have bnd : ∀ c, ∃ t, doubleSupport (ws.map .fin) preds c = .fin t ∧
      (votersOf ws preds c).sum * (1 - 1 / 2 ^ 53) ^ ws.length ≤ t ∧
      t ≤ (votersOf ws preds c).sum * (1 + 1 / 2 ^ 53) ^ ws.length := by
    intro c
    obtain ⟨g1, g2⟩ := votersOf_sum_le c ws preds (fun w hw => (hd w hw).2)
    have hv0 : 0 ≤ (votersOf ws preds c).sum := List.sum_nonneg (fun y hy => (hd y (votersOf_mem hy)).2)
    have up : (1 + 1 / 2 ^ 53 : ℚ) ^ (votersOf ws preds c).length ≤ (1 + 1 / 2 ^ 53) ^ ws.length :=
      pow_le_pow_right₀ (by norm_num) g2
    have dn : (1 - 1 / 2 ^ 53 : ℚ) ^ ws.length ≤ (1 - 1 / 2 ^ 53) ^ (votersOf ws preds c).length :=
      pow_le_pow_of_le_one (by norm_num) (by norm_num) g2
    have up' := mul_le_mul_of_nonneg_left up hv0
    have hp : (0 : ℚ) ≤ (1 + 1 / 2 ^ 53) ^ ws.length := by positivity
    obtain ⟨t, f1, _, _, f4, f5⟩ := sum_rel (votersOf ws preds c) (fun x hx => hd x (votersOf_mem hx)) (by
      refine lt_of_le_of_lt (up'.trans ?_) hb
      exact mul_le_mul_of_nonneg_right g1 hp)
    refine ⟨t, ?_, ?_, f5.trans up'⟩
    · unfold doubleSupport; rw [votersOf_map, f1]
    · exact (mul_le_mul_of_nonneg_left dn hv0).trans f4
  obtain ⟨t, f1, f2, f3⟩ := bnd c
  obtain ⟨t', f1', f2', f3'⟩ := bnd c'
  have := e2 c' hc'
  rw [f1, f1'] at this
  have : t' ≤ t := by simpa [Dbl.le] using this
  linarith

/-- C230 refuted: the class of the greatest total weight need not be answered, and the order of the learners decides.  Three
learners of the weights `2^53`, 1 and 1 vote for class 1 and one of weight `2^53` for class 0: the answer is 0, but 1 when the
light learners come first. -/
theorem C230_greatest_refuted :
    (votersOf ([2 ^ 53, 2 ^ 53, 1, 1] : List ℚ) [0, 1, 1, 1] 0).sum < (votersOf ([2 ^ 53, 2 ^ 53, 1, 1] : List ℚ) [0, 1, 1, 1] 1).sum ∧
    voteEvaluate true [.fin (2 ^ 53), .fin (2 ^ 53), .fin 1, .fin 1] [0, 1] [0, 1, 1, 1] = .ok 0 ∧
    voteEvaluate true [.fin (2 ^ 53), .fin 1, .fin 1, .fin (2 ^ 53)] [0, 1] [0, 1, 1, 1] = .ok 1 := by
  refine ⟨by decide +kernel, by decide +kernel, by decide +kernel⟩

/-- C230 refuted for everyday weights: a tie does not always go to the first class.  With the weights 0.1 and 0.2 against
0.3 the second class is answered, with 0.3 and 0.3 against 0.6 the first. -/
theorem C230_tie_refuted :
    voteEvaluate true [rnd (3 / 10), rnd (1 / 10), rnd (2 / 10)] [0, 1] [0, 1, 1] = .ok 1 ∧
    voteEvaluate true [rnd (6 / 10), rnd (3 / 10), rnd (3 / 10)] [0, 1] [0, 1, 1] = .ok 0 := by
  refine ⟨by decide +kernel, by decide +kernel⟩

/-- C230: one-vs-all answers the first class whose classifier gives the greatest value, when no value is NaN. -/
theorem C230_one_vs_all (classes : List Int) (hne : classes ≠ []) (val : Int → Dbl)
    (hv : ∀ c ∈ classes, val c = .inf true ∨ val c = .inf false ∨ ∃ q, val c = .fin q ∧ IsDbl q) :
    ∃ c, oneVsAll classes (classes.map val) = .ok c ∧ FirstGreatest classes val c := by
  refine maxElement_greatest classes hne val (fun c hc => ?_)
  rcases hv c hc with h | h | ⟨q, h1, h2⟩
  · exact .inr ⟨_, h⟩
  · exact .inr ⟨_, h⟩
  · exact .inl ⟨q, h1, h2⟩

/-- C230 refuted for NaN: a first classifier that gives NaN wins against every value. -/
theorem C230_nan_refuted (c : Int) (classes : List Int) (vals : List Dbl) : oneVsAll (c :: classes) (.nan :: vals) = .ok c := by
  have : ∀ (l : List Dbl) (i : Nat), Fp.maxLoop l i 0 .nan = 0 := by
    intro l
    induction l with
    | nil => intros; rfl
    | cons x l ih => intro i; unfold Fp.maxLoop; exact ih _
  change vget (c :: classes) (Fp.maxLoop vals 1 0 .nan) = _
  rw [this]
  rfl

/-- The hypotheses of the theorems about votes are met. -/
example : ([0, 1] : List Int).Nodup ∧ (∀ q ∈ ([0, 1, 1] : List Int), q ∈ ([0, 1] : List Int)) ∧
    (∀ w ∈ ([1 / 2, 1 / 4, 1 / 8] : List ℚ), IsDbl w ∧ 0 ≤ w) ∧
    ([1 / 2, 1 / 4, 1 / 8] : List ℚ).sum * (1 + 1 / 2 ^ 53) ^ 3 < huge ∧
    voteEvaluate true [.fin (1 / 2), .fin (1 / 4), .fin (1 / 8)] [0, 1] [0, 1, 1] = .ok 0 ∧
    voteEvaluate false [] [0, 1] [0, 1, 1] = .ok 1 ∧
    boostEvaluate 3 [.fin (1 / 2), .fin (1 / 4), .fin (1 / 8)] [0, 1] [0, 1, 1] = .ok 0 ∧
    oneVsAll [4, 7] [.fin (-1), .fin 2] = .ok 7 := by
  decide +kernel

end MLTK.Props
