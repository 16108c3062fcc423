import Verif.Lemmas.DoubleDsm
/-!
# C251: diverse subspaces in `double` arithmetic
-/
namespace MLTK.Props
open MLTK.Fp
open MLTK.Sampling (Filled Good exists_unused unset dsmInit)
open MLTK.Data (Res_bind_ok Res_bind_error Res_pure)

private theorem corr_list (sqrt : Dbl → Dbl) (labels : List Dbl) : ∀ (feats : List (List Dbl)) (cs : List Dbl),
    feats.mapM (fun x => qualCorrelation sqrt x labels) = .ok cs →
    cs.length = feats.length ∧ ∀ c x, feats[c]? = some x → qualCorrelation sqrt x labels = .ok (cs.getD c .nan)
  | [], cs, h => by
    simp only [List.mapM_nil, Res_pure, Except.ok.injEq] at h
    subst h
    simp
  | f :: feats, cs, h => by
    rw [List.mapM_cons] at h
    cases hf : qualCorrelation sqrt f labels with
    | error e => rw [hf] at h; simp at h
    | ok v =>
      rw [hf, Res_bind_ok] at h
      cases hr : feats.mapM (fun x => qualCorrelation sqrt x labels) with
      | error e => rw [hr] at h; simp at h
      | ok ds =>
        rw [hr, Res_bind_ok] at h
        simp only [Res_pure, Except.ok.injEq] at h
        subst h
        obtain ⟨h1, h2⟩ := corr_list sqrt labels feats ds hr
        refine ⟨by simp [h1], ?_⟩
        intro c x hc
        cases c with
        | zero => simp at hc; subst hc; simpa using hf
        | succ c => simpa using h2 c x (by simpa using hc)

private theorem corr_ok (sqrt : Dbl → Dbl) (labels : List Dbl) : ∀ (feats : List (List Dbl)),
    (∀ x ∈ feats, ∃ v, qualCorrelation sqrt x labels = .ok v) → ∃ cs, feats.mapM (fun x => qualCorrelation sqrt x labels) = .ok cs
  | [], _ => ⟨[], rfl⟩
  | f :: feats, h => by
    obtain ⟨v, hv⟩ := h f (by simp)
    obtain ⟨cs, hcs⟩ := corr_ok sqrt labels feats (fun x hx => h x (by simp [hx]))
    exact ⟨v :: cs, by rw [List.mapM_cons, hv, Res_bind_ok, hcs]; rfl⟩

/-- **C251 (partial)** If the weight is in [0, 1] and the computed correlation of every feature with the labels is a number not far below -1, a call
of `DSM` returns `k` subspaces of `n` different features of the dataset. -/
theorem C251_subspaces_partial (sqrt : Dbl → Dbl) (feats : List (List Dbl)) (labels : List Dbl) (k n : Nat) (a : ℚ) (ha : 0 ≤ a) (ha1 : a ≤ 1)
    (hc : ∀ x ∈ feats, ∃ q, qualCorrelation sqrt x labels = .ok (.fin q) ∧ -(1025 / 1024) ≤ q ∧ q ≤ 4)
    (hd : feats.length < 2 ^ 31) (hk : k < 2 ^ 31) (hn : n ≤ feats.length) :
    ∃ subs, dsmRun sqrt feats labels k n (.fin a) = .ok subs ∧ subs.length = k ∧
      ∀ s ∈ subs, s.length = n ∧ s.Nodup ∧ ∀ f ∈ s, f < feats.length := by
  obtain ⟨cs, hcs⟩ := corr_ok sqrt labels feats (fun x hx => let ⟨q, h, _⟩ := hc x hx; ⟨_, h⟩)
  obtain ⟨hlen, hget⟩ := corr_list sqrt labels feats cs hcs
  have hcorr : ∀ c < feats.length, ∃ q, (fun c => cs.getD c Dbl.nan) c = .fin q ∧ -(1025 / 1024) ≤ q ∧ q ≤ 4 := by
    intro c hcl
    obtain ⟨q, h1, h2⟩ := hc feats[c] (List.getElem_mem hcl)
    have := hget c feats[c] (List.getElem?_eq_getElem hcl)
    rw [h1] at this
    exact ⟨q, (Except.ok.inj this).symm, h2⟩
  have hun : feats.length ≤ unset := by unfold unset; omega
  obtain ⟨h1, h2⟩ := rounds_inv (fun c => cs.getD c .nan) (.fin a) feats.length k n (Filled feats.length n) ⟨[], by simp, rfl, by simp, by simp⟩ (by
    intro i hi s j hsl hj ⟨l, hl, hlen, hnd, hlt⟩
    have hex : ∃ c < feats.length, c ∉ s.getD j [] := by
      apply exists_unused
      rw [hl, List.filter_append, List.length_append]
      have h1 : ((List.replicate (n - i) unset).filter (· < feats.length)).length = 0 := by
        rw [List.length_eq_zero_iff, List.filter_eq_nil_iff]
        intro x hx
        rw [List.eq_of_mem_replicate hx]
        simpa using hun
      have h2 := List.length_filter_le (fun x => decide (x < feats.length)) l
      omega
    obtain ⟨h1, h2⟩ := choose_unusedD ha ha1 hcorr s (by rintro rfl; simp at hj) (by omega) j hex
    generalize dsmChoice (fun c => cs.getD c .nan) (.fin a) feats.length s j = b at h1 h2 ⊢
    refine ⟨l ++ [b], ?_, by simp [hlen], ?_, ?_⟩
    · rw [hl]
      obtain ⟨r, hr⟩ : ∃ r, n - i = r + 1 := ⟨n - i - 1, by omega⟩
      have hr' : n - (i + 1) = r := by omega
      rw [hr, hr', List.replicate_succ, List.set_append_right _ _ (by omega), hlen, Nat.sub_self, List.set_cons_zero]
      simp
    · refine List.nodup_append.2 ⟨hnd, by simp, ?_⟩
      intro x hx y hy hxy
      rw [List.mem_singleton] at hy
      apply h2
      rw [← hy, ← hxy, hl]
      exact List.mem_append_left _ hx
    · intro f hf
      rcases List.mem_append.1 hf with hf | hf
      · exact hlt f hf
      · rw [List.mem_singleton] at hf
        rw [hf]; exact h1)
  refine ⟨_, by rw [dsmRun, dsmCallD, hcs, Res_bind_ok]; rfl, h1, ?_⟩
  intro s hs
  obtain ⟨l, hl, hlen, hnd, hlt⟩ := h2 s hs
  rw [Nat.sub_self, List.replicate_zero, List.append_nil] at hl
  rw [hl]
  exact ⟨hlen, hnd, hlt⟩

/-- **C251 (partial)** If fewer features are asked for than the dataset has, all later calls of the same object, after any changes of the weight
within [0, 1], return `k` subspaces of `n` different features as well. -/
theorem C251_later_partial (sqrt : Dbl → Dbl) (feats : List (List Dbl)) (labels : List Dbl) (k n : Nat) (a : ℚ) (weights : List ℚ)
    (ha : ∀ w ∈ a :: weights, 0 ≤ w ∧ w ≤ 1)
    (hc : ∀ x ∈ feats, ∃ q, qualCorrelation sqrt x labels = .ok (.fin q) ∧ -(1025 / 1024) ≤ q ∧ q ≤ 4)
    (hd : feats.length < 2 ^ 31) (hk : k < 2 ^ 31) (hn : n < feats.length) :
    ∃ subs, dsmCallsD sqrt feats labels n ((a :: weights).map Dbl.fin) (dsmInit k n) = .ok subs ∧ subs.length = k ∧
      ∀ s ∈ subs, s.length = n ∧ s.Nodup ∧ ∀ f ∈ s, f < feats.length := by
  obtain ⟨cs, hcs⟩ := corr_ok sqrt labels feats (fun x hx => let ⟨q, h, _⟩ := hc x hx; ⟨_, h⟩)
  obtain ⟨hlen, hget⟩ := corr_list sqrt labels feats cs hcs
  have hcorr : ∀ c < feats.length, ∃ q, (fun c => cs.getD c Dbl.nan) c = .fin q ∧ -(1025 / 1024) ≤ q ∧ q ≤ 4 := by
    intro c hcl
    obtain ⟨q, h1, h2⟩ := hc feats[c] (List.getElem_mem hcl)
    have := hget c feats[c] (List.getElem?_eq_getElem hcl)
    rw [h1] at this
    exact ⟨q, (Except.ok.inj this).symm, h2⟩
  have again : ∀ (ws : List ℚ), (∀ w ∈ ws, 0 ≤ w ∧ w ≤ 1) → ∀ subs : List (List Nat), subs.length = k → (∀ s ∈ subs, Good feats.length n s) →
      ∃ subs', dsmCallsD sqrt feats labels n (ws.map Dbl.fin) subs = .ok subs' ∧ subs'.length = k ∧ ∀ s ∈ subs', Good feats.length n s := by
    intro ws
    induction ws with
    | nil => exact fun _ subs hl h => ⟨subs, rfl, hl, h⟩
    | cons w ws ih =>
      intro hw subs hl h
      obtain ⟨hw0, hw1⟩ := hw w (by simp)
      have key : ∀ (is : List Nat) (s : List (List Nat)), s.length = k → (∀ x ∈ s, Good feats.length n x) →
          (is.foldl (fun s i => dsmRoundD (fun c => cs.getD c .nan) (.fin w) feats.length i s) s).length = k ∧
          ∀ x ∈ is.foldl (fun s i => dsmRoundD (fun c => cs.getD c .nan) (.fin w) feats.length i s) s, Good feats.length n x := by
        intro is
        induction is with
        | nil => exact fun s hl hs => ⟨hl, hs⟩
        | cons i is ih =>
          intro s hl hs
          rw [List.foldl_cons]
          obtain ⟨h3, h4⟩ := round_inv (dsmChoice (fun c => cs.getD c .nan) (.fin w) feats.length) i (Good feats.length n) (Good feats.length n) s
            (by
              rintro s' j hsl hj ⟨g1, g2, g3⟩
              have hex : ∃ c < feats.length, c ∉ s'.getD j [] := by
                apply exists_unused
                have h2 := List.length_filter_le (fun x => decide (x < feats.length)) (s'.getD j [])
                omega
              obtain ⟨h1, h2⟩ := choose_unusedD hw0 hw1 hcorr s' (by rintro rfl; simp at hj) (by omega) j hex
              refine ⟨by rw [List.length_set, g1], g2.set h2, ?_⟩
              intro f hf
              rcases List.mem_or_eq_of_mem_set hf with hf | hf
              · exact g3 f hf
              · rw [hf]; exact h1) hs
          exact ih _ (h3.trans hl) h4
      obtain ⟨h5, h6⟩ := key (List.range n) subs hl h
      obtain ⟨subs', e, h7⟩ := ih (fun w hw' => hw w (by simp [hw'])) _ h5 h6
      refine ⟨subs', ?_, h7⟩
      rw [List.map_cons, dsmCallsD, dsmCallD, hcs, Res_bind_ok]
      exact e
  obtain ⟨ha0, ha1⟩ := ha a (by simp)
  obtain ⟨s1, e1, hl1, hg1⟩ := C251_subspaces_partial sqrt feats labels k n a ha0 ha1 hc hd hk (by omega)
  obtain ⟨subs, e, h⟩ := again weights (fun w hw => ha w (by simp [hw])) s1 hl1 hg1
  refine ⟨subs, ?_, h⟩
  rw [dsmRun] at e1
  rw [List.map_cons, dsmCallsD, e1, Res_bind_ok]
  exact e

/-- Two calls, the second with another weight. -/
example : dsmCallsD id [[.fin 1, .fin (-1)], [.fin 5, .fin 3], [.fin 2, .fin 0]] [.fin 1, .fin (-1)] 2 [.fin 1, .fin (1 / 4)] (dsmInit 2 2) =
    .ok [[2, 0], [2, 0]] := by decide +kernel

/-- **C251 (refuted)** A second call that asks for all features repeats one: all count as used. -/
theorem C251_second_refuted :
    dsmRun id [[.fin 1, .fin (-1)], [.fin 5, .fin 3]] [.fin 1, .fin (-1)] 1 2 (.fin (1 / 2)) = .ok [[0, 1]] ∧
    dsmCallsD id [[.fin 1, .fin (-1)], [.fin 5, .fin 3]] [.fin 1, .fin (-1)] 2 [.fin (1 / 2), .fin (1 / 2)] (dsmInit 1 2) = .ok [[0, 0]] := by
  constructor <;> decide +kernel

/-- The features 1, -1 and 5, 3 and 2, 0 with the labels 1, -1 (the correlation is 2, see below). -/
example : ∀ x ∈ [[Dbl.fin 1, .fin (-1)], [.fin 5, .fin 3], [.fin 2, .fin 0]], ∃ q,
    qualCorrelation id x [.fin 1, .fin (-1)] = .ok (.fin q) ∧ -(1025 / 1024) ≤ q ∧ q ≤ 4 := by
  intro x hx
  refine ⟨2, ?_, by norm_num, by norm_num⟩
  simp only [List.mem_cons, List.not_mem_nil, or_false] at hx
  rcases hx with rfl | rfl | rfl <;> decide +kernel

private theorem total_const (v : ℤ) : ∀ m : Nat, |v| * m ≤ 2 ^ 53 → Fp.total (List.replicate m (Dbl.fin (v : ℚ))) = .fin ((m * v : ℤ) : ℚ)
  | 0, _ => by simp [Fp.total]
  | m + 1, h => by
    have hm : |v| * m ≤ 2 ^ 53 := by
      push_cast at h
      nlinarith [abs_nonneg v]
    have ih := total_const v m hm
    rw [List.replicate_succ', Fp.total, List.foldl_append]
    rw [Fp.total] at ih
    rw [ih, List.foldl_cons, List.foldl_nil, Dbl.add]
    have hi : |((m + 1 : ℕ) : ℤ) * v| ≤ 2 ^ 53 := by
      rw [abs_mul, Nat.abs_cast, mul_comm]
      exact h
    have e : (((m * v : ℤ) : ℚ) + (v : ℚ)) = ((((m + 1 : ℕ) : ℤ) * v : ℤ) : ℚ) := by push_cast; ring
    rw [e, rnd_fin, near_int hi]
    rw [near_int hi]
    have : |((((m + 1 : ℕ) : ℤ) * v : ℤ) : ℚ)| ≤ 2 ^ 53 := by exact_mod_cast hi
    have h2 : (2 : ℚ) ^ 53 < huge := by decide +kernel
    linarith

private def Nought (a : Dbl) : Prop := a = .fin 0 ∨ a = .nan

private theorem rnd_zero : rnd 0 = .fin 0 := dbl0

private theorem nought_mul (b : Dbl) : Nought ((Dbl.fin 0).mul b) := by
  cases b with
  | fin q => left; simp [Dbl.mul, rnd_zero]
  | inf s => right; simp [Dbl.mul]
  | nan => right; rfl

private theorem nought_sum : ∀ (l : List Dbl) (s : Dbl), (∀ x ∈ l, Nought x) → Nought s → Nought (l.foldl Dbl.add s)
  | [], _, _, h => h
  | x :: l, s, hl, h => by
    rw [List.foldl_cons]
    apply nought_sum l _ (fun y hy => hl y (by simp [hy]))
    rcases hl x (by simp) with rfl | rfl <;> rcases h with rfl | rfl
    · left; simp [Dbl.add, rnd_zero]
    · right; rfl
    · right; rfl
    · right; rfl

private theorem nought_div {a : Dbl} (h : Nought a) (b : Dbl) : Nought (a.div b) := by
  rcases h with rfl | rfl
  · cases b with
    | fin q =>
      by_cases hq : q = 0
      · right; simp [Dbl.div, hq]
      · left; simp [Dbl.div, hq, rnd_zero]
    | inf s => left; rfl
    | nan => right; rfl
  · right; cases b <;> rfl

private theorem nought_nought {a b : Dbl} (h : Nought a) (h' : Nought b) : a.div b = .nan := by
  rcases h with rfl | rfl <;> rcases h' with rfl | rfl <;> simp [Dbl.div]

/-- **C251** The correlation that is computed for a feature with the same value, an integer, in all samples is not a number, whatever the labels are. -/
theorem C251_constant_partial (sqrt : Dbl → Dbl) (hs : sqrt (.fin 0) = .fin 0) (v : ℤ) (m : Nat) (hm : 0 < m) (hm' : m ≤ 2 ^ 53)
    (hv : |v| * m ≤ 2 ^ 53) (labels : List Dbl) (hl : labels.length = m) :
    qualCorrelation sqrt (List.replicate m (.fin (v : ℚ))) labels = .ok .nan := by
  have hm0 : (m : ℚ) ≠ 0 := by exact_mod_cast (by omega : m ≠ 0)
  have hv1 : |v| ≤ 2 ^ 53 := by
    have : (1 : ℤ) ≤ m := by omega
    nlinarith [abs_nonneg v]
  have hmean : meanPoint (List.replicate m (Dbl.fin (v : ℚ))) = .ok (.fin (v : ℚ)) := by
    rw [meanPoint, List.length_replicate, if_pos hm, total_const v m hv, ofNat_eq hm', Dbl.div, if_neg hm0]
    have e : ((m * v : ℤ) : ℚ) / (m : ℚ) = (v : ℚ) := by push_cast; field_simp
    rw [e, rnd_fin, near_int hv1]
    rw [near_int hv1]
    have : |(v : ℚ)| ≤ 2 ^ 53 := by exact_mod_cast hv1
    have h2 : (2 : ℚ) ^ 53 < huge := by decide +kernel
    linarith
  have hsub : (Dbl.fin (v : ℚ)).sub (.fin (v : ℚ)) = .fin 0 := by rw [sub_fin, sub_self, rnd_zero]
  obtain ⟨m1, hm1⟩ : ∃ m1, meanPoint labels = .ok m1 := ⟨_, by rw [meanPoint, if_pos (by omega)]⟩
  obtain ⟨c, hc, hcn⟩ : ∃ c, covarPoint (List.replicate m (Dbl.fin (v : ℚ))) labels = .ok c ∧ Nought c := by
    rw [covarPoint, if_pos (by simp [hl]), hmean, Res_bind_ok, hm1, Res_bind_ok]
    refine ⟨_, rfl, nought_div (nought_sum _ _ ?_ (.inl rfl)) _⟩
    intro x hx
    obtain ⟨i, hi, rfl⟩ := List.getElem_of_mem hx
    rw [List.getElem_zipWith, List.getElem_replicate, hsub]
    exact nought_mul _
  have hstd : stdDevPoint sqrt (List.replicate m (Dbl.fin (v : ℚ))) = .ok (.fin 0) := by
    have h0 : (Dbl.fin 0).mul (.fin 0) = .fin 0 := by simp [Dbl.mul, rnd_zero]
    have ht := total_const 0 m (by simp)
    rw [mul_zero, Int.cast_zero] at ht
    rw [stdDevPoint, varPoint, hmean, Res_bind_ok, List.map_replicate, hsub, h0, ht, List.length_replicate, ofNat_eq hm']
    simp [Dbl.div, hm0, rnd_zero, hs, Res_pure]
  obtain ⟨t, ht⟩ : ∃ t, stdDevPoint sqrt labels = .ok t := by
    rw [stdDevPoint, varPoint, hm1]
    exact ⟨_, rfl⟩
  rw [qualCorrelation, hc, Res_bind_ok, hstd, Res_bind_ok, ht, Res_bind_ok, nought_nought hcn (nought_mul t)]
  rfl

/-- Three samples with the value 7 and the labels 1, -1, 1. -/
example : 0 < 3 ∧ |(7 : ℤ)| * (3 : Nat) ≤ 2 ^ 53 ∧
    qualCorrelation id (List.replicate 3 (.fin ((7 : ℤ) : ℚ))) [.fin 1, .fin (-1), .fin 1] = .ok .nan :=
  ⟨by decide, by decide, by decide +kernel⟩

private theorem score_nan {corr : Nat → Dbl} {c : Nat} (h : corr c = .nan) (alpha : Dbl) (subs : List (List Nat)) (j : Nat)
    (hn : c ∉ subs.getD j []) : dsmScoreD corr alpha subs j c = .nan := by
  unfold dsmScoreD
  rw [if_neg hn, h]
  have h1 : alpha.mul .nan = .nan := by cases alpha <;> rfl
  rw [h1]
  cases ((Dbl.fin 1).sub alpha).mul (divMD subs j c) <;> rfl

/-- **C251 (refuted)** A feature whose correlation is not a number, and which is not the first one, is in no subspace; so a call that asks for as
many features as there are returns subspaces with repetitions.  For every dataset, weight and number of subspaces. -/
theorem C251_constant_refuted (sqrt : Dbl → Dbl) (feats : List (List Dbl)) (labels : List Dbl) (k n : Nat) (alpha : Dbl) (c : Nat)
    (x : List Dbl) (hx : feats[c]? = some x) (hc : qualCorrelation sqrt x labels = .ok .nan) (hc0 : 0 < c) (hd : feats.length < 2 ^ 31)
    (subs : List (List Nat)) (hrun : dsmRun sqrt feats labels k n alpha = .ok subs) :
    (∀ s ∈ subs, c ∉ s) ∧ (n = feats.length → ∀ s ∈ subs, ¬ s.Nodup) := by
  have hcl : c < feats.length := by
    by_contra h
    rw [List.getElem?_eq_none (by omega)] at hx
    simp at hx
  cases hcs : feats.mapM (fun x => qualCorrelation sqrt x labels) with
  | error e => rw [dsmRun, dsmCallD, hcs] at hrun; simp at hrun
  | ok cs =>
    rw [dsmRun, dsmCallD, hcs, Res_bind_ok] at hrun
    obtain rfl := (Except.ok.inj hrun)
    obtain ⟨hlen, hget⟩ := corr_list sqrt labels feats cs hcs
    have hnan : (fun c => cs.getD c Dbl.nan) c = .nan := by
      have := hget c x hx
      rw [hc] at this
      exact (Except.ok.inj this).symm
    have hunset : c ≠ unset := by unfold unset; omega
    obtain ⟨h1, h2⟩ := rounds_inv (fun c => cs.getD c .nan) alpha feats.length k n
      (fun i s => s.length = n ∧ c ∉ s ∧ ∀ f ∈ s.take i, f < feats.length)
      ⟨by simp, fun h => hunset (List.eq_of_mem_replicate h), by simp⟩ (by
      intro i hi s j hsl hj ⟨hl, hn, hlt⟩
      have hch := choice_number (dsmScoreD (fun c => cs.getD c .nan) alpha s j) feats.length
      have hne : dsmChoice (fun c => cs.getD c .nan) alpha feats.length s j ≠ c := by
        intro e
        unfold dsmChoice at e
        rcases hch with h | ⟨-, h⟩
        · omega
        · rw [e] at h
          exact h (score_nan hnan alpha s j hn)
      have hlt' : dsmChoice (fun c => cs.getD c .nan) alpha feats.length s j < feats.length := by
        unfold dsmChoice
        rcases hch with h | ⟨h, -⟩ <;> omega
      generalize dsmChoice (fun c => cs.getD c .nan) alpha feats.length s j = b at hne hlt' ⊢
      refine ⟨by rw [List.length_set, hl], fun hm => ?_, fun f hf => ?_⟩
      · rcases List.mem_or_eq_of_mem_set hm with h | h
        · exact hn h
        · exact hne h.symm
      · rw [List.take_add_one, List.getElem?_set_self (by omega), List.take_set_of_le (Nat.le_refl i)] at hf
        rcases List.mem_append.1 hf with h | h
        · exact hlt f h
        · simp only [Option.toList_some, List.mem_singleton] at h
          rw [h]; exact hlt')
    refine ⟨fun s hs => (h2 s hs).2.1, fun hn s hs hnd => ?_⟩
    obtain ⟨h3, h4, h5⟩ := h2 s hs
    rw [List.take_of_length_le (by omega)] at h5
    have hsub : (c :: s) ⊆ List.range feats.length := by
      intro f hf
      rcases List.mem_cons.1 hf with rfl | h
      · exact List.mem_range.2 hcl
      · exact List.mem_range.2 (h5 f h)
    have := (List.nodup_cons.2 ⟨h4, hnd⟩).subperm hsub |>.length_le
    rw [List.length_range, List.length_cons] at this
    omega

/-- The features 1, -1 and 3, 3 with the labels 1, -1: both places of both subspaces are given to the first feature. -/
example : dsmRun id [[.fin 1, .fin (-1)], [.fin 3, .fin 3]] [.fin 1, .fin (-1)] 2 2 (.fin (1 / 2)) = .ok [[0, 0], [0, 0]] := by decide +kernel

/-- **C251 (refuted)** If the correlation of the first feature is not a number, that feature is the first one of every subspace, whatever the other
features, the weight and the diversity are. -/
theorem C251_first_refuted (sqrt : Dbl → Dbl) (x : List Dbl) (feats : List (List Dbl)) (labels : List Dbl) (k n : Nat) (alpha : Dbl)
    (hc : qualCorrelation sqrt x labels = .ok .nan) (hn : 0 < n)
    (subs : List (List Nat)) (hrun : dsmRun sqrt (x :: feats) labels k n alpha = .ok subs) : ∀ s ∈ subs, s.head? = some 0 := by
  cases hcs : (x :: feats).mapM (fun x => qualCorrelation sqrt x labels) with
  | error e => rw [dsmRun, dsmCallD, hcs] at hrun; simp at hrun
  | ok cs =>
    rw [dsmRun, dsmCallD, hcs, Res_bind_ok] at hrun
    obtain rfl := (Except.ok.inj hrun)
    obtain ⟨hlen, hget⟩ := corr_list sqrt labels (x :: feats) cs hcs
    have hnan : (fun c => cs.getD c Dbl.nan) 0 = .nan := by
      have := hget 0 x rfl
      rw [hc] at this
      exact (Except.ok.inj this).symm
    obtain ⟨h1, h2⟩ := rounds_inv (fun c => cs.getD c .nan) alpha (x :: feats).length k n
      (fun i s => s.length = n ∧ (i = 0 → s = List.replicate n unset) ∧ (0 < i → s.head? = some 0))
      ⟨by simp, fun _ => rfl, fun h => absurd h (by omega)⟩ (by
      intro i hi s j hsl hj ⟨hl, h0, h1⟩
      refine ⟨by rw [List.length_set, hl], fun h => absurd h (by omega), fun _ => ?_⟩
      cases i with
      | zero =>
        have hnm : 0 ∉ s.getD j [] := by
          rw [h0 rfl]
          intro h
          exact absurd (List.eq_of_mem_replicate h) (by unfold unset; omega)
        have e : dsmChoice (fun c => cs.getD c .nan) alpha (x :: feats).length s j = 0 :=
          choice_nan _ _ (score_nan hnan alpha s j hnm)
        rw [e]
        cases hs : s.getD j [] with
        | nil => rw [hs] at hl; simp at hl; omega
        | cons a l => simp
      | succ i =>
        have := h1 (by omega)
        cases hs : s.getD j [] with
        | nil => rw [hs] at this; simp at this
        | cons a l => rw [hs] at this; simpa using this)
    exact fun s hs => (h2 s hs).2.2 hn

/-- **C251 (refuted)** Features that are all different in all samples can be repeated, too.  The covariance is divided by the number of samples less
one and the variances by the number of samples, so the correlation of two samples can be -2, and a used feature has a higher score: with the
features 2, -2 and 3, 1, the labels -1, 1 and the weight 1, the subspace of two features is the first feature, twice. -/
theorem C251_negative_refuted (sqrt : Dbl → Dbl) (h1 : sqrt (.fin 1) = .fin 1) (h4 : sqrt (.fin 4) = .fin 2) :
    (∀ x ∈ [[Dbl.fin 2, .fin (-2)], [.fin 3, .fin 1]], qualCorrelation sqrt x [.fin (-1), .fin 1] = .ok (.fin (-2))) ∧
    dsmRun sqrt [[.fin 2, .fin (-2)], [.fin 3, .fin 1]] [.fin (-1), .fin 1] 1 2 (.fin 1) = .ok [[0, 0]] := by
  have v1 : varPoint [Dbl.fin 2, .fin (-2)] = .ok (.fin 4) := by decide +kernel
  have v2 : varPoint [Dbl.fin 3, .fin 1] = .ok (.fin 1) := by decide +kernel
  have v3 : varPoint [Dbl.fin (-1), .fin 1] = .ok (.fin 1) := by decide +kernel
  have c1 : covarPoint [Dbl.fin 2, .fin (-2)] [.fin (-1), .fin 1] = .ok (.fin (-4)) := by decide +kernel
  have c2 : covarPoint [Dbl.fin 3, .fin 1] [.fin (-1), .fin 1] = .ok (.fin (-2)) := by decide +kernel
  have d : (Dbl.fin (-2)).div ((Dbl.fin 1).mul (.fin 1)) = .fin (-2) := by decide +kernel
  have d' : (Dbl.fin (-4)).div ((Dbl.fin 2).mul (.fin 1)) = .fin (-2) := by decide +kernel
  have q1 : qualCorrelation sqrt [.fin 2, .fin (-2)] [.fin (-1), .fin 1] = .ok (.fin (-2)) := by
    simp only [qualCorrelation, stdDevPoint, v1, v3, c1, Res_bind_ok, Res_pure, h1, h4, d']
  have q2 : qualCorrelation sqrt [.fin 3, .fin 1] [.fin (-1), .fin 1] = .ok (.fin (-2)) := by
    simp only [qualCorrelation, stdDevPoint, v2, v3, c2, Res_bind_ok, Res_pure, h1, d]
  refine ⟨?_, ?_⟩
  · intro x hx
    simp only [List.mem_cons, List.not_mem_nil, or_false] at hx
    rcases hx with rfl | rfl
    · exact q1
    · exact q2
  · rw [dsmRun, dsmCallD, List.mapM_cons, q1, Res_bind_ok, List.mapM_cons, q2, List.mapM_nil]
    decide +kernel

end MLTK.Props
