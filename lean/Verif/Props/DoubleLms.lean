import Verif.Lemmas.DoubleSum
import Verif.Model.DoubleLms
import Verif.Props.DoubleKMeans
import Verif.Props.DoubleDual
import Verif.Props.DoubleVote
/-!
# C232: least mean squares in `double` arithmetic
-/
namespace MLTK.Props
open MLTK.Fp
open MLTK.Perc (Sample)
open MLTK.Data (Res_bind_ok Res_bind_error Res_pure)

attribute [local irreducible] Fp.rnd Fp.near Fp.huge Fp.two

theorem nan_mulL (a : Dbl) : Dbl.nan.mul a = .nan := by cases a <;> rfl
theorem nan_mulR (a : Dbl) : a.mul .nan = .nan := by cases a <;> rfl
theorem nan_subR (a : Dbl) : a.sub .nan = .nan := nan_addR _

theorem fold_nan {α : Type} (g : α → Dbl) : ∀ l : List α, l.foldl (fun (f : Dbl) k => f.add (g k)) Dbl.nan = Dbl.nan := by
  intro l
  induction l with
  | nil => rfl
  | cons a l ih => rw [List.foldl_cons, nan_addL, ih]

theorem fold_nan_of_mem {α : Type} (g : α → Dbl) : ∀ (l : List α) (b : Dbl), (∃ a ∈ l, g a = .nan) →
    l.foldl (fun (f : Dbl) k => f.add (g k)) b = Dbl.nan := by
  intro l
  induction l with
  | nil => intro b h; obtain ⟨a, ha, _⟩ := h; simp at ha
  | cons a l ih =>
    intro b h
    rw [List.foldl_cons]
    obtain ⟨a', ha, hg⟩ := h
    rcases List.mem_cons.1 ha with rfl | ha
    · rw [hg, nan_addR, fold_nan]
    · exact ih _ ⟨a', ha, hg⟩

/-- Nothing but NaN. -/
def allNan (dim : Nat) : LmsState := ⟨List.replicate dim .nan, .nan⟩

theorem nan_error (dim : Nat) (rate cost : Dbl) (s : LmsState) (p : Sample Dbl) (hw : s.w.length = dim) (hp : p.x.length = dim)
    (he : p.y.sub (lmsValue dim s.w p.x s.bias) = .nan) :
    lmsSample dim rate (s, cost) p = .ok (allNan dim, .nan) := by
  unfold lmsSample
  rw [if_neg (by simp [hp]), if_neg (by simp [hw, hp])]
  simp only [he, nan_mulR, nan_mulL, nan_addR]
  unfold allNan
  congr 3
  apply List.ext_getElem (by simp [hw, hp])
  intro i h1 h2
  simp

theorem nan_stays (dim : Nat) (rate cost : Dbl) (p : Sample Dbl) (hp : p.x.length = dim) :
    lmsSample dim rate (allNan dim, cost) p = .ok (allNan dim, .nan) := by
  apply nan_error dim rate cost _ p (by simp [allNan]) hp
  unfold lmsValue allNan
  dsimp only
  rw [fold_nan (fun k => (p.x.getD k (.fin 0)).mul ((List.replicate dim Dbl.nan).getD k (.fin 0))), nan_subR]

theorem nan_rest (dim : Nat) (rate : Dbl) : ∀ (l : List (Sample Dbl)) (cost : Dbl), (∀ p ∈ l, p.x.length = dim) →
    ∃ c, l.foldlM (lmsSample dim rate) (allNan dim, cost) = .ok (allNan dim, c) ∧ (cost = .nan → c = .nan) ∧ (l ≠ [] → c = .nan) := by
  intro l
  induction l with
  | nil => intro cost _; exact ⟨cost, rfl, id, fun h => absurd rfl h⟩
  | cons p l ih =>
    intro cost h
    obtain ⟨c, h1, h2, _⟩ := ih .nan (fun q hq => h q (by simp [hq]))
    refine ⟨c, ?_, fun _ => h2 rfl, fun _ => h2 rfl⟩
    rw [List.foldlM_cons, nan_stays dim rate cost p (h p (by simp)), Res_bind_ok, h1]

/-- A pass over samples of the right size keeps the number of weights. -/
theorem lmsSample_length (dim : Nat) (rate : Dbl) (s : LmsState × Dbl) (p : Sample Dbl) (hw : s.1.w.length = dim)
    (hp : p.x.length = dim) : ∃ r, lmsSample dim rate s p = .ok r ∧ r.1.w.length = dim := by
  unfold lmsSample
  rw [if_neg (by simp [hp]), if_neg (by simp [hw, hp])]
  exact ⟨_, rfl, by simp [hw, hp]⟩

theorem poisoned (dim : Nat) (rate : Dbl) : ∀ (l : List (Sample Dbl)) (s : LmsState) (cost : Dbl), s.w.length = dim →
    (∀ p ∈ l, p.x.length = dim) → (∃ p ∈ l, p.y = .nan ∨ .nan ∈ p.x) →
    l.foldlM (lmsSample dim rate) (s, cost) = .ok (allNan dim, .nan) := by
  intro l
  induction l with
  | nil => intro s cost _ _ h; obtain ⟨p, hp, _⟩ := h; simp at hp
  | cons p l ih =>
    intro s cost hw hl hb
    have hp := hl p (by simp)
    have hl' : ∀ q ∈ l, q.x.length = dim := fun q hq => hl q (by simp [hq])
    rw [List.foldlM_cons]
    by_cases hbad : p.y = .nan ∨ .nan ∈ p.x
    · have he : p.y.sub (lmsValue dim s.w p.x s.bias) = .nan := by
        rcases hbad with h | h
        · rw [h, nan_subL]
        · obtain ⟨k, hk, hv⟩ := List.mem_iff_getElem.1 h
          unfold lmsValue
          rw [fold_nan_of_mem, nan_subR]
          refine ⟨k, by simpa [← hp] using hk, ?_⟩
          rw [List.getD_eq_getElem _ _ hk, hv, nan_mulL]
      rw [nan_error dim rate cost s p hw hp he, Res_bind_ok]
      obtain ⟨c, h1, h2, _⟩ := nan_rest dim rate l .nan hl'
      rw [h1, h2 rfl]
    · obtain ⟨r, h1, h2⟩ := lmsSample_length dim rate (s, cost) p hw hp
      rw [h1, Res_bind_ok]
      refine ih r.1 r.2 h2 hl' ?_
      obtain ⟨q, hq, hn⟩ := hb
      rcases List.mem_cons.1 hq with rfl | hq
      · exact absurd hn hbad
      · exact ⟨q, hq, hn⟩

theorem nan_leL (a : Dbl) : Dbl.nan.le a = false := by cases a <;> rfl

theorem nan_loop (rate eps : Dbl) (dim : Nat) (samples : List (Sample Dbl)) (hs : ∀ p ∈ samples, p.x.length = dim)
    (hne : samples ≠ []) : ∀ (n steps : Nat) (prev : Dbl), (prev = .nan ∨ 0 < n) →
    lmsLoop rate eps (fun _ => false) dim samples n steps (allNan dim) prev = .ok (allNan dim, steps + n, .nan) := by
  intro n
  induction n with
  | zero => intro steps prev h; rcases h with rfl | h
            · rfl
            · omega
  | succ n ih =>
    intro steps prev _
    obtain ⟨c, h1, _, h3⟩ := nan_rest dim rate samples (.fin 0) hs
    obtain rfl := h3 hne
    unfold lmsLoop lmsPass
    rw [h1]
    simp only [Res_bind_ok, Res_pure, nan_mulL, nan_subL, show Dbl.nan.abs = .nan from rfl, nan_leL]
    rw [if_neg (by simp), if_neg (by simp), ih _ _ (.inl rfl)]
    congr 3
    omega

/-- C232 refuted: one NaN among the features or targets makes every weight and the bias NaN, whatever the other samples and
the rate; training uses up all its passes and reports success, and every point of the right size is answered by NaN. -/
theorem C232_nan_refuted (rate eps : Dbl) (maxIt : Nat) (hm : 0 < maxIt) (dim : Nat) (samples : List (Sample Dbl))
    (hs : ∀ p ∈ samples, p.x.length = dim) (hb : ∃ p ∈ samples, p.y = .nan ∨ .nan ∈ p.x) (bias : Dbl) :
    ∃ s, lmsTrain rate eps maxIt (fun _ => false) dim samples bias = .ok (true, s, maxIt, .nan) ∧
      s.w = List.replicate dim .nan ∧ s.bias = .nan ∧ ∀ x : List Dbl, x.length = dim → lmsEvaluate s x = .nan := by
  have hne : samples ≠ [] := by rintro rfl; obtain ⟨p, hp, _⟩ := hb; simp at hp
  refine ⟨allNan dim, ?_, rfl, rfl, fun x hx => ?_⟩
  · obtain ⟨n, rfl⟩ : ∃ n, maxIt = n + 1 := ⟨maxIt - 1, by omega⟩
    unfold lmsTrain lmsLoop lmsPass
    rw [poisoned dim rate samples _ _ (by simp) hs hb]
    simp only [Res_bind_ok, Res_pure, nan_mulL, nan_subL, show Dbl.nan.abs = .nan from rfl, nan_leL]
    rw [if_neg (by simp), if_neg (by simp), nan_loop rate eps dim samples hs hne _ _ _ (.inl rfl), Res_bind_ok]
    congr 4
    omega
  · unfold lmsEvaluate allNan
    rw [if_neg (by simp [hx])]
    exact fold_nan (fun i => ((List.replicate dim Dbl.nan).getD i (.fin 0)).mul (x.getD i (.fin 0))) _

/-- The state and cost after `n` passes none of which stops at the tolerance `eps`. -/
def lmsGoesOn (rate eps : Dbl) (dim : Nat) (samples : List (Sample Dbl)) : Nat → LmsState → Dbl → Option (LmsState × Dbl)
  | 0, s, prev => some (s, prev)
  | n+1, s, prev =>
    match lmsPass dim rate samples s with
    | .ok r => if ((r.2.sub prev).abs).le eps then none else lmsGoesOn rate eps dim samples n r.1 r.2
    | .error _ => none

theorem le_trans_fin {a : Dbl} {p q : ℚ} (h : p ≤ q) (ha : a.le (.fin p) = true) : a.le (.fin q) = true := by
  cases a with
  | fin x => simp only [Dbl.le, decide_eq_true_eq] at ha ⊢; linarith
  | inf s => exact ha
  | nan => exact ha

theorem lmsLoop_goesOn (rate : Dbl) (eps bound : ℚ) (hb : eps ≤ bound) (dim : Nat) (samples : List (Sample Dbl)) (m : Nat) :
    ∀ (n steps : Nat) (s : LmsState) (prev : Dbl) (s' : LmsState) (prev' : Dbl),
    lmsGoesOn rate (.fin bound) dim samples n s prev = some (s', prev') →
    lmsLoop rate (.fin eps) (fun _ => false) dim samples (n + m) steps s prev =
      lmsLoop rate (.fin eps) (fun _ => false) dim samples m (steps + n) s' prev' := by
  intro n
  induction n with
  | zero =>
    intro steps s prev s' prev' h
    simp only [lmsGoesOn, Option.some.injEq, Prod.mk.injEq] at h
    rw [h.1, h.2, Nat.zero_add, Nat.add_zero]
  | succ n ih =>
    intro steps s prev s' prev' h
    unfold lmsGoesOn at h
    rw [show n + 1 + m = (n + m) + 1 by omega]
    conv_lhs => unfold lmsLoop
    cases hp : lmsPass dim rate samples s with
    | error f => rw [hp] at h; simp at h
    | ok r =>
      rw [hp] at h
      simp only at h
      by_cases hc : ((r.2.sub prev).abs).le (.fin bound) = true
      · rw [if_pos hc] at h; simp at h
      · rw [if_neg hc] at h
        rw [Res_bind_ok, if_neg (fun h' => hc (le_trans_fin hb h')), if_neg (by simp), ih _ _ _ _ _ h,
          show steps + 1 + n = steps + (n + 1) by omega]


/-- C232 refuted for finite data: on the single sample with the feature 1000 and the target 1, rate 1/2 and a tolerance of
at most 1/4, every training of at least 60 passes reports success and leaves NaN: every point is answered by NaN. -/
theorem C232_overflow_refuted (eps : ℚ) (he : eps ≤ 1 / 4) (maxIt : Nat) (hm : 60 < maxIt) :
    ∃ s, lmsTrain (.fin (1 / 2)) (.fin eps) maxIt (fun _ => false) 1 [⟨[.fin 1000], .fin 1⟩] (.fin 0) =
      .ok (true, s, maxIt, .nan) ∧ s.w = [.nan] ∧ s.bias = .nan ∧ ∀ a : Dbl, lmsEvaluate s [a] = .nan := by
  have h60 : (lmsGoesOn (.fin (1 / 2)) (.fin (1 / 4)) 1 [⟨[.fin 1000], .fin 1⟩] 60 ⟨[.fin 0], .fin 0⟩ (.fin 0)).map Prod.fst =
      some (allNan 1) := by decide +kernel
  obtain ⟨⟨s', prev'⟩, h1, h2⟩ := Option.map_eq_some_iff.1 h60
  simp only at h2
  subst h2
  refine ⟨allNan 1, ?_, rfl, rfl, fun a => ?_⟩
  · obtain ⟨m, rfl⟩ : ∃ m, maxIt = 60 + m := ⟨maxIt - 60, by omega⟩
    unfold lmsTrain
    have := lmsLoop_goesOn (.fin (1 / 2)) eps (1 / 4) he 1 [⟨[.fin 1000], .fin 1⟩] m 60 0 _ _ _ _ h1
    rw [show List.replicate 1 (Dbl.fin 0) = [.fin 0] from rfl, this,
      nan_loop _ _ 1 _ (by simp) (by simp) _ _ _ (.inr (by omega)), Res_bind_ok]
    rfl
  · unfold lmsEvaluate allNan
    rw [if_neg (by simp)]
    exact fold_nan (fun i => ((List.replicate 1 Dbl.nan).getD i (.fin 0)).mul (([a] : List Dbl).getD i (.fin 0))) _

/-- C232: training and `evaluate` compute the same value for a sample, so a solution that gives every sample its target is a
fixed point of training: a pass leaves it as it is, at cost zero, and `evaluate` answers every sample by its target. -/
theorem C232_fixed_point_partial (rate : ℚ) (dim : Nat) (w : List ℚ) (b : ℚ) (hw : w.length = dim) (hd : ∀ a ∈ w, IsDbl a)
    (hbd : IsDbl b) (samples : List (Sample Dbl)) (hs : ∀ p ∈ samples, p.x.length = dim ∧ ∀ a ∈ p.x, ∃ q, a = .fin q)
    (hfit : ∀ p ∈ samples, ∃ y : ℚ, p.y = .fin y ∧ lmsEvaluate ⟨w.map .fin, .fin b⟩ p.x = .fin y) :
    lmsPass dim (.fin rate) samples ⟨w.map .fin, .fin b⟩ = .ok (⟨w.map .fin, .fin b⟩, .fin 0) := by
  have h0 : rnd 0 = .fin 0 := by decide +kernel
  have hrep : ∀ {q : ℚ}, IsDbl q → rnd q = .fin q := by
    intro q h
    have := isDbl_iff.1 h
    rw [rnd_fin (by rw [this.1]; exact this.2), this.1]
  have hstep : ∀ p ∈ samples, lmsSample dim (.fin rate) (⟨w.map .fin, .fin b⟩, .fin 0) p = .ok (⟨w.map .fin, .fin b⟩, .fin 0) := by
    intro p hp
    obtain ⟨hl, hx⟩ := hs p hp
    obtain ⟨y, hy, hev⟩ := hfit p hp
    have hval : lmsValue dim (w.map .fin) p.x (.fin b) = .fin y := by
      rw [← hev]
      unfold lmsValue lmsEvaluate
      rw [if_neg (by simp [hl, hw])]
      simp only [List.length_map, hw]
      congr 1
      funext f k
      rw [dmul_comm]
    unfold lmsSample
    rw [if_neg (by simp [hl]), if_neg (by simp [hl, hw])]
    simp only [hval, hy]
    have he : (Dbl.fin y).sub (.fin y) = .fin 0 := by rw [sub_fin, sub_self, h0]
    have hb0 : (Dbl.fin b).add (.fin 0) = .fin b := by simp only [Dbl.add, add_zero]; exact hrep hbd
    have hr0 : (Dbl.fin rate).mul (.fin 0) = .fin 0 := by simp only [Dbl.mul, mul_zero]; exact h0
    have h00 : (Dbl.fin 0).add ((Dbl.fin 0).mul (.fin 0)) = .fin 0 := by decide +kernel
    rw [he, hb0, hr0, h00]
    congr 3
    apply List.ext_getElem (by simp [hl, hw])
    intro i h1 h2
    rw [List.getElem_zipWith, List.getElem_map]
    have hi : i < p.x.length := by simp at h1; omega
    have hiw : i < w.length := by simp at h1; omega
    obtain ⟨q, hq⟩ := hx _ (List.getElem_mem hi)
    rw [hq]
    have : (Dbl.fin 0).mul (.fin q) = .fin 0 := by simp only [Dbl.mul, zero_mul]; exact h0
    rw [this]
    simp only [Dbl.add, add_zero]
    exact hrep (hd _ (List.getElem_mem hiw))
  have hfold : ∀ l : List (Sample Dbl), (∀ p ∈ l, p ∈ samples) →
      l.foldlM (lmsSample dim (.fin rate)) (⟨w.map .fin, .fin b⟩, .fin 0) = .ok (⟨w.map .fin, .fin b⟩, .fin 0) := by
    intro l
    induction l with
    | nil => intro _; rfl
    | cons p l ih =>
      intro h
      rw [List.foldlM_cons, hstep p (h p (by simp)), Res_bind_ok, ih (fun q hq => h q (by simp [hq]))]
  unfold lmsPass
  rw [hfold samples (fun _ h => h), Res_bind_ok]
  have : (Dbl.fin 0).mul (.fin (1 / 2)) = .fin 0 := by simp only [Dbl.mul, zero_mul]; exact h0
  simp only [this]
  rfl

/-- The hypotheses are met: training on one sample reaches such a solution in two passes. -/
example : (lmsTrain (.fin (1 / 2)) (.fin 0) 10 (fun _ => false) 1 [⟨[.fin 0], .fin 3⟩] (.fin 0)).toOption =
      some (true, ⟨[.fin 0], .fin 3⟩, 2, .fin 0) ∧ lmsEvaluate ⟨[.fin 2], .fin 3⟩ [.fin 4] = .fin 11 ∧
    lmsPass 1 (.fin (1 / 2)) [⟨[.fin 4], .fin 11⟩] ⟨[.fin 2], .fin 3⟩ = .ok (⟨[.fin 2], .fin 3⟩, .fin 0) := by
  decide +kernel

end MLTK.Props
