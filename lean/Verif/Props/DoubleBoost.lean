import Verif.Model.DoubleBoost
import Verif.Props.DoubleVote
import Verif.Props.DoubleNorm
import Verif.Props.DoubleKMeans
import Verif.Props.DoubleLms
/-!
# C234: boosting in `double` arithmetic
-/
namespace MLTK.Props
open MLTK.Fp MLTK.Spec
open MLTK.Data (Res_bind_ok Res_bind_error Res_pure)

attribute [local irreducible] Fp.rnd Fp.near Fp.huge Fp.two

variable {T : Type}

theorem pow_le_two {n : ℕ} (hn : n ≤ 2 ^ 52) : ((1 : ℚ) + 1 / 2 ^ 53) ^ n ≤ 2 := by
  have h1 := one_add_mul_le_pow (a := -(1 : ℚ) / (2 ^ 53 + 1)) (by norm_num) n
  have h2 : (1 + -(1 : ℚ) / (2 ^ 53 + 1)) * (1 + 1 / 2 ^ 53) = 1 := by norm_num
  have h3 : (1 + -(1 : ℚ) / (2 ^ 53 + 1)) ^ n * (1 + 1 / 2 ^ 53) ^ n = 1 := by rw [← mul_pow, h2, one_pow]
  have hn' : (n : ℚ) ≤ 2 ^ 52 := by exact_mod_cast hn
  have h4 : (1 : ℚ) / 2 ≤ (1 + -(1 : ℚ) / (2 ^ 53 + 1)) ^ n := by
    refine le_trans ?_ h1
    have : (n : ℚ) * (-1 / (2 ^ 53 + 1)) ≥ 2 ^ 52 * (-1 / (2 ^ 53 + 1)) := by
      have h5 : (-(1 : ℚ) / (2 ^ 53 + 1)) ≤ 0 := by norm_num
      nlinarith
    have h6 : (2 : ℚ) ^ 52 * (-1 / (2 ^ 53 + 1)) ≥ -(1 / 2) := by norm_num
    linarith
  have hpos : (0 : ℚ) < (1 + 1 / 2 ^ 53) ^ n := by positivity
  nlinarith

/-- Equal weights: normalised they are equal weights again. -/
theorem equal_weights {n : ℕ} (hn0 : 0 < n) (hn : n ≤ 2 ^ 52) {w : ℚ} (hw : IsDbl w) (hw0 : 0 < w) (hw1 : w ≤ 1) :
    ∃ s w', total (List.replicate n (.fin w)) = .fin s ∧ 0 < s ∧ (Dbl.fin w).div (.fin s) = .fin w' ∧ IsDbl w' ∧ 0 < w' ∧ w' ≤ 1 := by
  have hnear := (isDbl_iff.1 hw).1
  have hn' : (n : ℚ) ≤ 2 ^ 52 := by exact_mod_cast hn
  have hn1 : (1 : ℚ) ≤ n := by exact_mod_cast hn0
  have hp := pow_le_two hn
  have hp0 : (0 : ℚ) < (1 + 1 / 2 ^ 53) ^ n := by positivity
  have hbound : (n : ℚ) * w * (1 + 1 / 2 ^ 53) ^ n ≤ 2 * (n * w) := by
    have : 0 ≤ (n : ℚ) * w := by positivity
    nlinarith
  have hsmall : (2 : ℚ) * (n * w) ≤ 2 ^ 53 := by nlinarith
  have hhuge : (2 : ℚ) ^ 53 < huge := by decide +kernel
  obtain ⟨s, h1, _, _, _, h5⟩ := sum_rel (List.replicate n w) (fun x hx => by
    rw [(List.mem_replicate.1 hx).2]; exact ⟨hw, hw0.le⟩) (by
      rw [List.sum_replicate, nsmul_eq_mul, List.length_replicate]; linarith)
  rw [List.sum_replicate, nsmul_eq_mul, List.length_replicate] at h5
  rw [List.map_replicate] at h1
  have hws : w ≤ s := by
    have := (sum_D0 (List.replicate n (.fin w)) (fun x hx => by
      rw [(List.mem_replicate.1 hx).2]; exact .inl ⟨w, rfl, hw, hw0.le⟩) _ zero_D0).2.2 (.fin w)
      (List.mem_replicate.2 ⟨by omega, rfl⟩)
    rw [h1] at this
    simpa [Dbl.le] using this
  have hs0 : 0 < s := lt_of_lt_of_le hw0 hws
  have hq1 : w / s ≤ 1 := by rw [div_le_one hs0]; exact hws
  have hq2 : 1 / 2 ^ 53 ≤ w / s := by
    rw [le_div_iff₀ hs0]
    have : s ≤ 2 * (n * w) := h5.trans hbound
    nlinarith
  have hlow : IsDbl (1 / 2 ^ 53) := by decide +kernel
  have hone : IsDbl 1 := by decide +kernel
  obtain ⟨w', e1, e2, e3, _⟩ := rnd_between hlow hone hq2 hq1
  exact ⟨s, w', h1, hs0, by rw [div_fin hs0, e1], rnd_isDbl e1, lt_of_lt_of_le (by norm_num) e2, e3⟩

theorem zeros_sum (n : ℕ) : (List.replicate n (Dbl.fin 0)).foldl Dbl.add (.fin 0) = .fin 0 :=
  sum_zero _ (fun _ hx => (List.mem_replicate.1 hx).2)

theorem no_miss_weights (n : ℕ) (w : Dbl) : missWeights (List.replicate n w) (List.replicate n false) = List.replicate n (.fin 0) := by
  unfold missWeights
  rw [List.zipWith_replicate, Nat.min_self]
  rfl

/-- A round without mistakes. -/
theorem perfect_round {log exp : Dbl → Dbl} {nc : ℕ} (hnc : 2 ≤ nc) {l : ℚ} (hl : log (Dbl.ofNat (nc - 1)) = .fin l) (hl0 : 0 ≤ l)
    (hl1 : l ≤ 64) (hexp : exp (.fin 0) = .fin 1) {n : ℕ} (hn0 : 0 < n) (hn : n ≤ 2 ^ 52) {w : ℚ} (hw : IsDbl w)
    (hw0 : 0 < w) (hw1 : w ≤ 1) :
    ∃ w' a, adaRound log exp nc (List.replicate n (.fin w)) (List.replicate n false) = (List.replicate n (.fin w'), .fin a) ∧
      IsDbl w' ∧ 0 < w' ∧ w' ≤ 1 ∧ IsDbl a ∧ 1 ≤ a := by
  obtain ⟨s, w', h1, hs, h2, h3, h4, h5⟩ := equal_weights hn0 hn hw hw0 hw1
  have hone : IsDbl 1 := by decide +kernel
  have h65 : IsDbl 65 := by decide +kernel
  obtain ⟨a, ha, ha1, _, _⟩ := rnd_between (q := 1 + l) hone h65 (by linarith) (by linarith)
  have h0 : rnd 0 = .fin 0 := by decide +kernel
  have hdot : pointDot (List.replicate n (.fin w)) (List.replicate n (.fin 0)) = .fin 0 := by
    unfold pointDot
    rw [List.zipWith_replicate, Nat.min_self]
    have : (Dbl.fin w).mul (.fin 0) = .fin 0 := by simp only [Dbl.mul, mul_zero]; exact h0
    rw [this, zeros_sum]
  have herr : (Dbl.fin 0).div (.fin s) = .fin 0 := by rw [div_fin hs, zero_div, h0]
  have hdec : decSize nc = nc - 1 := by unfold decSize; rw [if_neg (by omega)]
  have halpha : estimatorWeight log nc (.fin 0) = .fin a := by
    unfold estimatorWeight
    rw [if_neg (by decide), hdec, hl]
    exact ha
  have hws : (Dbl.fin w).mul (exp ((Dbl.fin a).mul (.fin 0))) = .fin w := by
    rw [show (Dbl.fin a).mul (.fin 0) = .fin 0 by simp only [Dbl.mul, mul_zero]; exact h0, hexp]
    simp only [Dbl.mul, mul_one]
    have := isDbl_iff.1 hw
    rw [rnd_fin (by rw [this.1]; exact this.2), this.1]
  refine ⟨w', a, ?_, h3, h4, h5, rnd_isDbl ha, ha1⟩
  unfold adaRound
  simp only [no_miss_weights, hdot, h1, herr, halpha, List.zipWith_replicate, Nat.min_self, hws, List.map_replicate, h2]

/-- All rounds without mistakes. -/
theorem perfect_loop {log exp : Dbl → Dbl} {nc : ℕ} (hnc : 2 ≤ nc) {l : ℚ} (hl : log (Dbl.ofNat (nc - 1)) = .fin l) (hl0 : 0 ≤ l)
    (hl1 : l ≤ 64) (hexp : exp (.fin 0) = .fin 1) (fit : Nat → List (Pt T) → List T → Int) (seed : Nat) (samples : List (Pt T))
    (hn0 : 0 < samples.length) (hn : samples.length ≤ 2 ^ 52) : ∀ (n i : ℕ) (w : ℚ), IsDbl w → 0 < w → w ≤ 1 →
    (∀ k < n, ∀ p ∈ samples, fit (seed + (i + k)) samples p.x = p.y) →
    ∃ w' as, adaLoop log exp fit seed nc samples n i (List.replicate samples.length (.fin w)) =
        ((List.range n).map (fun k => fit (seed + (i + k)) samples), as, List.replicate samples.length (.fin w')) ∧
      IsDbl w' ∧ 0 < w' ∧ w' ≤ 1 ∧ as.length = n ∧ ∀ a ∈ as, ∃ q, a = .fin q ∧ IsDbl q ∧ 1 ≤ q := by
  intro n
  induction n with
  | zero => intro i w h1 h2 h3 _; exact ⟨w, [], rfl, h1, h2, h3, rfl, by simp⟩
  | succ n ih =>
    intro i w h1 h2 h3 hf
    have hmiss : samples.map (fun p => decide (p.y ≠ fit (seed + i) samples p.x)) = List.replicate samples.length false := by
      rw [List.eq_replicate_iff]
      refine ⟨by simp, fun b hb => ?_⟩
      obtain ⟨p, hp, rfl⟩ := List.mem_map.1 hb
      have := hf 0 (by omega) p hp
      rw [Nat.add_zero] at this
      simp [this]
    obtain ⟨w', a, e1, e2, e3, e4, e5, e6⟩ := perfect_round hnc hl hl0 hl1 hexp hn0 hn h1 h2 h3
    obtain ⟨w'', as, f1, f2, f3, f4, f5, f6⟩ := ih (i + 1) w' e2 e3 e4 (fun k hk p hp => by
      have := hf (k + 1) (by omega) p hp
      rwa [show i + (k + 1) = i + 1 + k by omega] at this)
    refine ⟨w'', .fin a :: as, ?_, f2, f3, f4, by simp [f5], ?_⟩
    · unfold adaLoop
      dsimp only
      rw [hmiss, e1]
      dsimp only
      rw [f1]
      dsimp only
      congr 1
      rw [List.range_succ_eq_map, List.map_cons, List.map_map, Nat.add_zero]
      congr 1
      apply List.map_congr_left
      intro k _
      simp only [Function.comp_apply]
      congr 1
      omega
    · intro b hb
      rcases List.mem_cons.1 hb with rfl | hb
      · exact ⟨a, rfl, e5, e6⟩
      · exact f6 b hb

theorem start_weight {n : ℕ} (hn0 : 0 < n) (hn : n ≤ 2 ^ 52) :
    ∃ w, (Dbl.fin 1).div (Dbl.ofNat n) = .fin w ∧ IsDbl w ∧ 0 < w ∧ w ≤ 1 := by
  have hq : (0 : ℚ) < n := by exact_mod_cast hn0
  have hn' : (n : ℚ) ≤ 2 ^ 52 := by exact_mod_cast hn
  have hn1 : (1 : ℚ) ≤ n := by exact_mod_cast hn0
  have hlow : IsDbl (1 / 2 ^ 52) := by decide +kernel
  have hone : IsDbl 1 := by decide +kernel
  obtain ⟨w, e1, e2, e3, _⟩ := rnd_between (q := 1 / n) hlow hone (one_div_le_one_div_of_le hq hn')
    (by rw [div_le_one hq]; exact hn1)
  exact ⟨w, by rw [ofNat_eq (by omega), div_fin hq, e1], rnd_isDbl e1, lt_of_lt_of_le (by norm_num) e2, e3⟩

theorem votersOf_all {K : Type} (ws : List K) (y : Int) : votersOf ws (List.replicate ws.length y) y = ws := by
  induction ws with
  | nil => rfl
  | cons a l ih =>
    unfold votersOf at ih ⊢
    simpa [List.replicate_succ] using ih

theorem votersOf_none {K : Type} (ws : List K) {y c : Int} (h : y ≠ c) : votersOf ws (List.replicate ws.length y) c = [] := by
  induction ws with
  | nil => rfl
  | cons a l ih =>
    unfold votersOf at ih ⊢
    simpa [List.replicate_succ, h] using ih

/-- Estimators that agree on `y`, with weights of at least one, are followed. -/
theorem agreed {as : List Dbl} (hne : as ≠ []) (has : ∀ a ∈ as, ∃ q, a = .fin q ∧ IsDbl q ∧ 1 ≤ q) {classes : List Int} {y : Int}
    (hy : y ∈ classes) : boostEvaluate as.length as classes (List.replicate as.length y) = .ok y := by
  obtain ⟨c, h1, before, after, _, h3, _⟩ := C230_boost classes (List.ne_nil_of_mem hy) (List.replicate as.length y) as (by simp)
    (fun a ha => by obtain ⟨q, hq, _⟩ := has a ha; exact ⟨q, hq⟩)
  rw [List.length_replicate] at h1
  rw [h1]
  by_contra hc
  have hyc : y ≠ c := fun h => hc (by rw [h])
  have hle := h3 y hy
  unfold doubleSupport at hle
  rw [votersOf_all, votersOf_none as hyc] at hle
  obtain ⟨a, ha⟩ := List.exists_mem_of_ne_nil as hne
  have hD : ∀ a ∈ as, D0 a := fun a ha => by
    obtain ⟨q, hq, h1, h2⟩ := has a ha
    exact .inl ⟨q, hq, h1, by linarith⟩
  have hz := (sum_D0 as hD _ zero_D0).1.eq_zero hle
  rw [sum_zero_iff as hD] at hz
  obtain ⟨q, hq, _, h2⟩ := has a ha
  have := hz a ha
  rw [hq] at this
  have := Dbl.fin.inj this
  linarith

/-- **C234** In `double` arithmetic AdaBoost of estimators that answer every training sample by its label answers every training
sample by its label, whatever the number of rounds, if there are at least two classes; the weights of the samples stay equal,
positive and at most one.  Of `exp` and `log` only their values at zero and at the number of other classes are used. -/
theorem C234_perfect_partial (log exp : Dbl → Dbl) (hexp : exp (.fin 0) = .fin 1) (fit : Nat → List (Pt T) → List T → Int) (seed n : ℕ)
    (hn : 0 < n) (samples : List (Pt T)) (hs : samples.length ≤ 2 ^ 52) (classes : List Int) (hc : 2 ≤ classes.length)
    (hlog : ∃ l, log (Dbl.ofNat (classes.length - 1)) = .fin l ∧ 0 ≤ l ∧ l ≤ 64)
    (hfit : ∀ i < n, ∀ p ∈ samples, fit (seed + i) samples p.x = p.y) (hs1 : samples ≠ []) :
    ∃ (learners : List (List T → Int)) (alpha : List Dbl) (w : ℚ),
      adaTrain log exp fit seed n classes.length samples = (learners, alpha, List.replicate samples.length (.fin w)) ∧
      0 < w ∧ w ≤ 1 ∧ ∀ p ∈ samples, p.y ∈ classes → adaEvaluate learners alpha classes p.x = .ok p.y := by
  obtain ⟨l, hl, hl0, hl1⟩ := hlog
  have hs0 : 0 < samples.length := List.length_pos_iff.2 hs1
  obtain ⟨w, e1, e2, e3, e4⟩ := start_weight hs0 hs
  obtain ⟨w', as, f1, f2, f3, f4, f5, f6⟩ := perfect_loop hc hl hl0 hl1 hexp fit seed samples hs0 hs n 0 w e2 e3 e4
    (fun k hk p hp => by rw [Nat.zero_add]; exact hfit k hk p hp)
  refine ⟨(List.range n).map (fun k => fit (seed + (0 + k)) samples), as, w', ?_, f3, f4, fun p hp hy => ?_⟩
  · unfold adaTrain
    rw [e1, f1]
  · unfold adaEvaluate
    have hpred : ((List.range n).map (fun k => fit (seed + (0 + k)) samples)).map (fun l => l p.x) = List.replicate as.length p.y := by
      rw [List.eq_replicate_iff]
      refine ⟨by simp [f5], fun b hb => ?_⟩
      simp only [List.map_map, List.mem_map, List.mem_range, Function.comp_apply] at hb
      obtain ⟨k, hk, rfl⟩ := hb
      rw [Nat.zero_add]
      exact hfit k hk p hp
    rw [hpred]
    simp only [List.length_map, List.length_range]
    rw [← f5]
    exact agreed (by intro h; rw [h] at f5; simp at f5; omega) f6 hy

theorem nan_divL (a : Dbl) : Dbl.nan.div a = .nan := by cases a <;> rfl

/-- A round without mistakes on samples of one class makes every weight NaN, whatever it was. -/
theorem lone_round {log exp : Dbl → Dbl} (hlog : log (.fin 0) = .inf true) (hexp : exp .nan = .nan) (n : ℕ) (w : Dbl)
    (hnot : (Dbl.fin 0).lt ((pointDot (List.replicate n w) (List.replicate n (.fin 0))).div (total (List.replicate n w))) = false) :
    adaRound log exp 1 (List.replicate n w) (List.replicate n false) = (List.replicate n .nan, .inf true) := by
  have halpha : estimatorWeight log 1 ((pointDot (List.replicate n w) (List.replicate n (.fin 0))).div (total (List.replicate n w))) =
      .inf true := by
    unfold estimatorWeight
    rw [hnot, if_neg (by simp), show decSize 1 = 0 from rfl, ofNat_eq (by norm_num), Nat.cast_zero, hlog]
    rfl
  unfold adaRound
  have hin : (Dbl.inf true).mul (.fin 0) = .nan := by simp [Dbl.mul]
  simp only [no_miss_weights, halpha, List.zipWith_replicate, Nat.min_self, hin, hexp, nan_mulR, List.map_replicate, nan_divL]

/-- **C234 (refuted: one class)** On samples of a single class, all answered correctly, the first round makes the weight of every
sample NaN, where they stay, and the weights of all estimators minus infinity, whatever the number of rounds. -/
theorem C234_one_class_refuted (log exp : Dbl → Dbl) (hlog : log (.fin 0) = .inf true) (hexp : exp .nan = .nan)
    (fit : Nat → List (Pt T) → List T → Int) (seed n : ℕ) (hn : 0 < n) (samples : List (Pt T)) (hs0 : samples ≠ [])
    (hs : samples.length ≤ 2 ^ 52) (hfit : ∀ i < n, ∀ p ∈ samples, fit (seed + i) samples p.x = p.y) :
    ∃ learners, adaTrain log exp fit seed n 1 samples =
      (learners, List.replicate n (.inf true), List.replicate samples.length .nan) := by
  have hpos : 0 < samples.length := List.length_pos_iff.2 hs0
  have key : ∀ (n i : ℕ) (w : Dbl), (∀ k < n, ∀ p ∈ samples, fit (seed + (i + k)) samples p.x = p.y) →
      (Dbl.fin 0).lt ((pointDot (List.replicate samples.length w) (List.replicate samples.length (.fin 0))).div
        (total (List.replicate samples.length w))) = false → (n = 0 → w = .nan) →
      ∃ learners, adaLoop log exp fit seed 1 samples n i (List.replicate samples.length w) =
        (learners, List.replicate n (.inf true), List.replicate samples.length .nan) := by
    intro n
    induction n with
    | zero => intro i w _ _ h; exact ⟨[], by rw [h rfl]; rfl⟩
    | succ n ih =>
      intro i w hf hz _
      have hmiss : samples.map (fun p => decide (p.y ≠ fit (seed + i) samples p.x)) = List.replicate samples.length false := by
        rw [List.eq_replicate_iff]
        refine ⟨by simp, fun b hb => ?_⟩
        obtain ⟨p, hp, rfl⟩ := List.mem_map.1 hb
        have := hf 0 (by omega) p hp
        rw [Nat.add_zero] at this
        simp [this]
      have hround := lone_round hlog hexp samples.length w hz
      have hnan : pointDot (List.replicate samples.length .nan) (List.replicate samples.length (.fin 0)) = .nan := by
        obtain ⟨m, hm⟩ : ∃ m, samples.length = m + 1 := ⟨samples.length - 1, by omega⟩
        unfold pointDot
        rw [List.zipWith_replicate, Nat.min_self, hm, List.replicate_succ, List.foldl_cons,
          show Dbl.nan.mul (.fin 0) = .nan from rfl, nan_addR]
        exact fold_nan (fun x : Dbl => x) _
      obtain ⟨ls, hls⟩ := ih (i + 1) .nan (fun k hk p hp => by
        have := hf (k + 1) (by omega) p hp
        rwa [show i + (k + 1) = i + 1 + k by omega] at this) (by rw [hnan, nan_divL]; rfl) (fun _ => rfl)
      refine ⟨fit (seed + i) samples :: ls, ?_⟩
      unfold adaLoop
      dsimp only
      rw [hmiss, hround]
      dsimp only
      rw [hls]
      rfl
  obtain ⟨w, e1, e2, e3, e4⟩ := start_weight hpos hs
  unfold adaTrain
  rw [e1]
  obtain ⟨s, _, h1, hs1, _⟩ := equal_weights hpos hs e2 e3 e4
  refine key n 0 (.fin w) (fun k hk p hp => by rw [Nat.zero_add]; exact hfit k hk p hp) ?_ (fun h => by omega)
  have h0 : rnd 0 = .fin 0 := by decide +kernel
  have hdot : pointDot (List.replicate samples.length (.fin w)) (List.replicate samples.length (.fin 0)) = .fin 0 := by
    unfold pointDot
    rw [List.zipWith_replicate, Nat.min_self]
    have : (Dbl.fin w).mul (.fin 0) = .fin 0 := by simp only [Dbl.mul, mul_zero]; exact h0
    rw [this, zeros_sum]
  rw [hdot, h1, div_fin hs1, zero_div, h0]
  rfl

/-- A base estimator that remembers the sign. -/
def signFit : Nat → List (Pt ℚ) → List ℚ → Int := fun _ _ x => if x.headD 0 < 0 then -1 else 1

/-- The hypotheses are met: three samples of two classes; three of one class. -/
example : let s : List (Pt ℚ) := [{ x := [1], y := 1 }, { x := [-2], y := -1 }, { x := [3], y := 1 }]
    (∀ i < 5, ∀ p ∈ s, signFit (7 + i) s p.x = p.y) ∧ (Dbl.ofNat ([1, -1].length - 1) = .fin 1) ∧
    (adaTrain (fun _ => .fin 0) (fun _ => .fin 1) signFit 7 2 2 s).2.1 = [.fin 1, .fin 1] ∧
    adaEvaluate (adaTrain (fun _ => .fin 0) (fun _ => .fin 1) signFit 7 2 2 s).1 [.fin 1, .fin 1] [1, -1] [-2] = .ok (-1) := by
  decide +kernel

end MLTK.Props
