import Verif.Model.DoubleSizes
import Verif.Lemmas.Double
import Verif.Props.Split
import Verif.Props.Features
import Verif.Props.Sampling
/-!
# C215-C218: sizes and grids in `double` arithmetic

`IsDbl q`: the rational number `q` is a finite value of type `double`.
-/
namespace MLTK.Props
open MLTK.Fp MLTK.Spec
open MLTK.Data (Res_bind_ok Res_bind_error Res_pure)

attribute [local irreducible] Fp.rnd Fp.near Fp.huge Fp.two

theorem dbl_small_pos {q : ℚ} (n : ℕ) (hn : n ≤ 2 ^ 60) (h0 : 0 < n) (h : 1 / (n : ℚ) ≤ q) : two (-1022) ≤ |q| := by
  have hn' : (n : ℚ) ≤ 2 ^ 60 := by exact_mod_cast hn
  have h0' : (0 : ℚ) < n := by exact_mod_cast h0
  have h1 : 1 / (2 ^ 60 : ℚ) ≤ 1 / (n : ℚ) := one_div_le_one_div_of_le h0' hn'
  have h2 : two (-1022) ≤ 1 / (2 ^ 60 : ℚ) := by decide +kernel
  exact (h2.trans (h1.trans h)).trans (le_abs_self q)

theorem u_eq : two (-53) = 1 / 2 ^ 53 := by decide +kernel

/-- Rounding a quotient of two integers does not reach the next integer. -/
theorem floor_near_div {n k : ℕ} (hk : 0 < k) (hn : n < 2 ^ 53) (hk' : k < 2 ^ 53) :
    ⌊near ((n : ℚ) / k)⌋ = ((n / k : ℕ) : ℤ) := by
  have hkq : (0 : ℚ) < k := by exact_mod_cast hk
  rw [Int.floor_eq_iff]
  constructor
  · have h1 : ((n / k : ℕ) : ℚ) ≤ (n : ℚ) / k := by
      rw [le_div_iff₀ hkq]; exact_mod_cast Nat.div_mul_le_self n k
    have h2 := near_mono h1
    rw [near_nat ((Nat.div_le_self n k).trans hn.le)] at h2
    exact_mod_cast h2
  · rcases Nat.eq_zero_or_pos n with rfl | h0
    · simp [near_zero]
    · have hq : 1 / (k : ℚ) ≤ (n : ℚ) / k := by
        have : (1 : ℚ) ≤ n := by exact_mod_cast h0
        gcongr
      have hr := near_rel (dbl_small_pos k (by omega) hk hq)
      have hnq : (n : ℚ) < 2 ^ 53 := by exact_mod_cast hn
      rw [abs_of_nonneg (show 0 ≤ (n : ℚ) / k by positivity), u_eq] at hr
      have hlt : near ((n : ℚ) / k) < (n : ℚ) / k + 1 / k := by
        have := (abs_le.mp hr).2
        have h3 : (n : ℚ) / k * (1 / 2 ^ 53) < 1 / k := by
          rw [div_mul_div_comm, div_lt_div_iff₀ (by positivity) hkq]
          nlinarith
        linarith
      have h4 : (n : ℚ) / k + 1 / k ≤ ((n / k : ℕ) : ℚ) + 1 := by
        rw [← add_div, div_le_iff₀ hkq]
        have : n + 1 ≤ (n / k + 1) * k := by
          have := Nat.lt_div_mul_add (a := n) hk; nlinarith
        exact_mod_cast this
      have h5 : ((((n / k : ℕ) : ℤ)) : ℚ) = ((n / k : ℕ) : ℚ) := by norm_cast
      rw [h5]
      linarith

theorem div_ofNat {n k : ℕ} (hk : 0 < k) (hn : n ≤ 2 ^ 53) (hk' : k ≤ 2 ^ 53) :
    (Dbl.ofNat n).div (Dbl.ofNat k) = .fin (near ((n : ℚ) / k)) ∧ IsDbl (near ((n : ℚ) / k)) := by
  have hkq : (0 : ℚ) < k := by exact_mod_cast hk
  have hle : (n : ℚ) / k ≤ n := div_le_self (by positivity) (by exact_mod_cast hk)
  obtain ⟨x, h1, _, _, h2⟩ := rnd_between (a := ((0 : ℕ) : ℚ)) (isDbl_nat (n := 0) (by norm_num)) (isDbl_nat hn)
    (by push_cast; positivity) hle
  rw [ofNat_eq hn, ofNat_eq hk']
  simp only [Dbl.div]
  rw [if_neg hkq.ne', h1, h2]
  exact ⟨rfl, by rw [← h2]; exact rnd_isDbl h1⟩

theorem sizeOf_fin {q : ℚ} (h0 : -1 < q) (h1 : q < 2 ^ 64) : Fp.sizeOf (.fin q) = .ok ⌊q⌋.toNat := by
  have : Dbl.toSize (.fin q) = some ⌊q⌋.toNat := if_pos ⟨h0, by push_cast; exact h1⟩
  unfold Fp.sizeOf
  rw [this]

/-! ## C215 -/

theorem partSize_eq {n k : ℕ} (hk : 0 < k) (hn : n < 2 ^ 53) (hk' : k < 2 ^ 53) : partSize n k = .ok (n / k) := by
  unfold partSize
  rw [(div_ofNat hk hn.le hk'.le).1]
  simp only [Dbl.floor]
  rw [floor_near_div hk hn hk']
  have h1 : ((n / k : ℕ) : ℚ) ≤ n := by exact_mod_cast Nat.div_le_self n k
  have h2 : (n : ℚ) < 2 ^ 53 := by exact_mod_cast hn
  have h3 : (0 : ℚ) ≤ ((n / k : ℕ) : ℚ) := Nat.cast_nonneg _
  have h := sizeOf_fin (q := ((n / k : ℕ) : ℚ)) (by linarith) (by linarith)
  rw [Int.floor_natCast, Int.toNat_natCast] at h
  push_cast at h ⊢
  exact h

/-- **C215** In `double` arithmetic, the plain split of fewer than 2^53 samples into fewer than 2^53 parts gives every
part exactly `size / k` samples, rounded down, and loses only the remainder. -/
theorem C215_split_sizes {T : Type} (m : Mem T) (d : MLTK.Data) (h : Consistent m d)
    (hidx : d.size ≤ d.index.length) (k : Nat) (hk : 0 < k) (hk' : k < 2 ^ 53) (hn : d.size < 2 ^ 53) (keep : Bool)
    (σ : List Nat → List Nat) (hσ : ∀ l, (σ l).Perm l) :
    ∃ m' parts, ∃ lost : List (Pt T), Fp.splitSample m d k false keep σ = .ok (m', parts) ∧
      parts.length = k ∧ (∀ p ∈ parts, p.size = d.size / k) ∧ lost.length = d.size % k ∧
      (((parts.flatMap (samples m')) ++ lost).map content).Perm ((samples m d).map content) := by
  obtain ⟨m', parts, lost, e, h1, h2, h3, h4, _⟩ := C10_plain_split_partial m d h hidx k hk keep σ hσ
  refine ⟨m', parts, lost, ?_, h1, h2, h3, h4⟩
  rw [← e]
  unfold Fp.splitSample MLTK.Data.splitSample
  rw [partSize_eq hk hn hk', Res_bind_ok, if_neg hk.ne']

/-- Three samples in two parts. -/
example : Consistent demoMem demoData ∧ demoData.size < 2 ^ 53 ∧
    (Fp.splitSample demoMem demoData 2 false true id).toOption.map (fun r => r.2.map MLTK.Data.size) = some [1, 1] := by
  refine ⟨demo_consistent, by decide, by decide +kernel⟩

/-! ## C216 -/

/-- What one class gets, in `double`s: within one of the exact share, and not more than the class has. -/
theorem share_bounds {c s n : ℕ} (hc : 0 < c) (hcn : c ≤ n) (hs : 0 < s) (hsn : s ≤ n) (hn : n ≤ 2 ^ 50) :
    ∃ b : ℚ, Fp.share n s c = .fin b ∧ IsDbl b ∧ 1 / 2 ^ 50 ≤ b ∧ |b - (c : ℚ) * s / n| < 1 := by
  have hnq : (0 : ℚ) < n := by exact_mod_cast (show 0 < n by omega)
  have hn50 : (n : ℚ) ≤ 2 ^ 50 := by exact_mod_cast hn
  have hcq : (1 : ℚ) ≤ c := by exact_mod_cast hc
  have hsq : (1 : ℚ) ≤ s := by exact_mod_cast hs
  have hcnq : (c : ℚ) ≤ n := by exact_mod_cast hcn
  have hsnq : (s : ℚ) ≤ n := by exact_mod_cast hsn
  obtain ⟨e1, d1⟩ := div_ofNat (n := c) (k := n) (by omega) (by omega) (by omega)
  set a := near ((c : ℚ) / n) with ha
  have hx1 : 1 / (n : ℚ) ≤ (c : ℚ) / n := by gcongr
  have hx2 : (c : ℚ) / n ≤ 1 := by rw [div_le_one hnq]; exact hcnq
  have hr1 := near_rel (dbl_small_pos n (by omega) (by omega) hx1)
  rw [← ha, abs_of_nonneg (show 0 ≤ (c : ℚ) / n by positivity), u_eq] at hr1
  have hlow : (1 / 2 ^ 50 : ℚ) ≤ a := by
    have h1 : (1 / 2 ^ 50 : ℚ) ≤ (c : ℚ) / n := (one_div_le_one_div_of_le hnq hn50).trans hx1
    have h2 := near_mono h1
    rwa [show near (1 / 2 ^ 50 : ℚ) = 1 / 2 ^ 50 by decide +kernel] at h2
  have hup : a ≤ 1 := by
    have h2 := near_mono hx2
    rwa [show near (1 : ℚ) = 1 by decide +kernel] at h2
  have hlow2 : (1 / 2 ^ 50 : ℚ) ≤ a * s := by nlinarith
  have hr2 := near_rel (q := a * s) (by
    have h1 : two (-1022) ≤ (1 / 2 ^ 50 : ℚ) := by decide +kernel
    exact (h1.trans hlow2).trans (le_abs_self _))
  rw [abs_of_nonneg (show 0 ≤ a * s by linarith [show (0 : ℚ) ≤ 1 / 2 ^ 50 by positivity]), u_eq] at hr2
  have hb1 : (1 / 2 ^ 50 : ℚ) ≤ near (a * s) := by
    have h2 := near_mono hlow2
    rwa [show near (1 / 2 ^ 50 : ℚ) = 1 / 2 ^ 50 by decide +kernel] at h2
  have hb2 : near (a * s) ≤ s := by
    have h1 : a * s ≤ (s : ℚ) := by nlinarith
    have h2 := near_mono h1
    rwa [near_nat (by omega)] at h2
  have hfin : |near (a * s)| < huge := by
    rw [abs_of_nonneg (by linarith [show (0 : ℚ) ≤ 1 / 2 ^ 50 by positivity])]
    exact lt_of_le_of_lt hb2 (nat_lt_huge (by omega))
  refine ⟨near (a * s), ?_, isDbl_iff.mpr ⟨near_near _, hfin⟩, hb1, ?_⟩
  · unfold Fp.share
    rw [e1, ofNat_eq (by omega : s ≤ 2 ^ 53)]
    simp only [Dbl.mul]
    exact rnd_fin hfin
  · -- the two roundings together move the share by less than one
    rw [abs_le] at hr1 hr2
    have hcs : (c : ℚ) * s / n = (c : ℚ) / n * s := by ring
    have hs50 : (s : ℚ) ≤ 2 ^ 50 := hsnq.trans hn50
    have has : a * s ≤ 2 ^ 50 := by nlinarith
    have hxs : (c : ℚ) / n * s ≤ 2 ^ 50 := by nlinarith
    have hd1 : (a - (c : ℚ) / n) * s ≤ (c : ℚ) / n * (1 / 2 ^ 53) * s := by
      exact mul_le_mul_of_nonneg_right hr1.2 (by linarith)
    have hd2 : -((c : ℚ) / n * (1 / 2 ^ 53) * s) ≤ (a - (c : ℚ) / n) * s := by
      have := mul_le_mul_of_nonneg_right hr1.1 (show (0 : ℚ) ≤ s by linarith)
      linarith
    rw [hcs, abs_lt]
    constructor <;> nlinarith

theorem sub_one_exact {b : ℚ} (hb : IsDbl b) (h1 : 1 ≤ b) (h2 : b ≤ 2 ^ 53) : near (b - 1) = b - 1 := by
  obtain ⟨g1, _⟩ := isDbl_iff.mp hb
  obtain ⟨m, e, hm, he, hq⟩ := near_grid b
  rw [g1] at hq
  apply near_of_grid
  rcases le_or_gt 0 e with h0 | h0
  · obtain ⟨k, hk, _⟩ := two_div_int h0
    rw [show two 0 = 1 by decide +kernel, div_one] at hk
    have hbi : b - 1 = ((m * k - 1 : ℤ) : ℚ) := by rw [hq, hk]; push_cast; ring
    rw [hbi]
    apply grid_int
    have hi1 : ((m * k - 1 : ℤ) : ℚ) ≤ ((2 ^ 53 : ℤ) : ℚ) := by rw [← hbi]; push_cast; linarith
    have hi2 : ((0 : ℤ) : ℚ) ≤ ((m * k - 1 : ℤ) : ℚ) := by rw [← hbi]; push_cast; linarith
    rw [abs_of_nonneg (by exact_mod_cast hi2)]
    exact_mod_cast hi1
  · obtain ⟨k, _, hk⟩ := two_div_int h0.le
    rw [show two 0 = 1 by decide +kernel] at hk
    have hpos := two_pos e
    refine ⟨m - k, e, ?_, he, by rw [hq]; push_cast; linarith⟩
    have hk0 : 0 ≤ k := by
      by_contra h; have : (k : ℚ) ≤ 0 := by exact_mod_cast (not_le.mp h).le
      nlinarith
    have hmk : 0 ≤ m - k := by
      by_contra h
      have : ((m - k : ℤ) : ℚ) < 0 := by exact_mod_cast not_le.mp h
      push_cast at this
      nlinarith
    rw [abs_of_nonneg hmk]
    have := le_abs_self m
    omega

/-- Both sizes computed from a share fit together: the draws are made from the first samples of the class. -/
theorem quota_upper {c s n : ℕ} (hc : 0 < c) (hcn : c ≤ n) (hs : 0 < s) (hsn : s ≤ n) (hn : n ≤ 2 ^ 50) :
    ∃ q : ℕ, Fp.quota (Fp.share n s c) = .ok q ∧ Fp.upper (Fp.share n s c) = .ok (q - 1) ∧ 1 ≤ q ∧ q ≤ c ∧
      q ≤ max 1 (c * s / n) + 1 ∧ max 1 (c * s / n) ≤ q + 1 := by
  obtain ⟨b, e, hd, h1, h2⟩ := share_bounds hc hcn hs hsn hn
  have hnq : (0 : ℚ) < n := by exact_mod_cast (show 0 < n by omega)
  have hex1 : ((c * s / n : ℕ) : ℚ) ≤ (c : ℚ) * s / n := by
    rw [le_div_iff₀ hnq]; exact_mod_cast Nat.div_mul_le_self (c * s) n
  have hex2 : (c : ℚ) * s / n < ((c * s / n : ℕ) : ℚ) + 1 := by
    rw [div_lt_iff₀ hnq]
    have := Nat.lt_div_mul_add (a := c * s) (b := n) (by omega)
    have h3 : c * s < (c * s / n + 1) * n := by nlinarith
    exact_mod_cast h3
  have hexc : (c : ℚ) * s / n ≤ c := by
    rw [div_le_iff₀ hnq]
    have : (s : ℚ) ≤ n := by exact_mod_cast hsn
    have : (0 : ℚ) ≤ c := Nat.cast_nonneg _
    nlinarith
  have hcq : (c : ℚ) ≤ 2 ^ 50 := by exact_mod_cast hcn.trans hn
  rw [abs_lt] at h2
  rw [e]
  have hb0 : (0 : ℚ) < 1 / 2 ^ 50 := by positivity
  by_cases hb : b < 1
  · refine ⟨1, ?_, ?_, le_refl _, hc, by omega, ?_⟩
    · unfold Fp.quota
      rw [show Dbl.lt (.fin b) (.fin 1) = true from decide_eq_true hb, if_pos rfl]
      decide +kernel
    · have hlo : near (-(1 - 1 / 2 ^ 50)) ≤ near (b - 1) := near_mono (by linarith)
      have hhi : near (b - 1) ≤ near 0 := near_mono (by linarith)
      rw [show near (-(1 - 1 / 2 ^ 50)) = -(1 - 1 / 2 ^ 50) by decide +kernel] at hlo
      rw [near_zero] at hhi
      have hfin : |near (b - 1)| < huge := by
        have : (1 : ℚ) < huge := by decide +kernel
        rw [abs_lt]; constructor <;> linarith
      have hr : rnd (b + -1) = .fin (near (b - 1)) := by rw [← sub_eq_add_neg]; exact rnd_fin hfin
      unfold Fp.upper
      simp only [Dbl.sub, Dbl.neg, Dbl.add]
      rw [hr, sizeOf_fin (by linarith) (by linarith)]
      congr 1
      have hf : ⌊near (b - 1)⌋ < 1 := by rw [Int.floor_lt]; push_cast; linarith
      omega
    · have : ((c * s / n : ℕ) : ℚ) < ((2 : ℕ) : ℚ) := by push_cast; linarith
      have : c * s / n < 2 := by exact_mod_cast this
      omega
  · have hb' : 1 ≤ b := not_lt.mp hb
    have hbc : b < c + 1 := by linarith
    have hf1 : (1 : ℤ) ≤ ⌊b⌋ := by rw [Int.le_floor]; push_cast; exact hb'
    have hfc : ⌊b⌋ < (c : ℤ) + 1 := by rw [Int.floor_lt]; push_cast; exact hbc
    have hfr1 : (⌊b⌋ : ℚ) ≤ b := Int.floor_le b
    have hfr2 : b < ⌊b⌋ + 1 := Int.lt_floor_add_one b
    obtain ⟨q, hq⟩ := Int.eq_ofNat_of_zero_le (a := ⌊b⌋) (by omega)
    rw [hq] at hf1 hfc hfr1 hfr2
    push_cast at hfr1 hfr2
    have hq1 : 1 ≤ q := by omega
    have hqc : q ≤ c := by omega
    refine ⟨q, ?_, ?_, hq1, hqc, ?_, ?_⟩
    · unfold Fp.quota
      rw [show Dbl.lt (.fin b) (.fin 1) = false from decide_eq_false hb]
      simp only [Dbl.floor, Bool.false_eq_true, if_false]
      rw [hq]
      have h64 : ((q : ℤ) : ℚ) < 2 ^ 64 := by push_cast; linarith
      have h0 : (-1 : ℚ) < ((q : ℤ) : ℚ) := by push_cast; linarith [show (0 : ℚ) ≤ (q : ℚ) from Nat.cast_nonneg _]
      rw [sizeOf_fin h0 h64, Int.floor_intCast, Int.toNat_natCast]
    · have hr : rnd (b + -1) = .fin (b - 1) := by
        rw [← sub_eq_add_neg]
        have hx := sub_one_exact hd hb' (by linarith)
        rw [rnd_fin (by
          rw [hx, abs_of_nonneg (by linarith)]
          have : (2 ^ 52 : ℚ) < huge := by decide +kernel
          linarith), hx]
      unfold Fp.upper
      simp only [Dbl.sub, Dbl.neg, Dbl.add]
      rw [hr, sizeOf_fin (by linarith) (by linarith), Int.floor_sub_one, hq]
      congr 1
      omega
    · have : (q : ℚ) < ((c * s / n + 2 : ℕ) : ℚ) := by push_cast; linarith
      have : q < c * s / n + 2 := by exact_mod_cast this
      omega
    · have : ((c * s / n : ℕ) : ℚ) < ((q + 2 : ℕ) : ℚ) := by push_cast; linarith
      have : c * s / n < q + 2 := by exact_mod_cast this
      omega

theorem length_le_sum {α : Type} : ∀ (classes : List (List α)) (c : List α), c ∈ classes →
    c.length ≤ (classes.map List.length).sum
  | [], c, h => by simp at h
  | a :: l, c, h => by
    rcases List.mem_cons.mp h with rfl | h
    · simp
    · have := length_le_sum l c h
      simp only [List.map_cons, List.sum_cons]; omega

theorem zip_maps {α β γ : Type} (f : α → β) (g : α → γ) : ∀ l : List α,
    l.zip ((l.map f).zip (l.map g)) = l.map (fun c => (c, f c, g c))
  | [] => rfl
  | a :: l => by simp only [List.map_cons, List.zip_cons_cons, zip_maps f g l]

theorem forall₂_mem {α β : Type} {R : α → β → Prop} : ∀ {l : List α} {l' : List β}, List.Forall₂ R l l' →
    List.Forall₂ (fun a b => a ∈ l ∧ R a b) l l'
  | [], [], _ => .nil
  | a :: l, b :: l', .cons h t =>
    .cons ⟨by simp, h⟩ ((forall₂_mem t).imp (fun x y hxy => ⟨List.mem_cons_of_mem _ hxy.1, hxy.2⟩))

/-- **C216** (partial: see the refutation for the exact share) In `double` arithmetic, sampling with replacement from at
most 2^50 samples draws from every class its share of the sample size, rounded down and at least one, up to one sample more
or less; all draws are samples of that class. -/
theorem C216_sampling_partial {α : Type} (draw : Nat → Nat → Nat) (hdraw : InRange draw) (fuel : Nat)
    (classes : List (List α)) (samp : Nat) (h1 : 0 < samp) (h2 : samp ≤ (classes.map List.length).sum)
    (hne : ∀ c ∈ classes, c ≠ []) (hsz : (classes.map List.length).sum ≤ 2 ^ 50) :
    ∃ out, Fp.sampling draw fuel classes samp true = .ok (some out) ∧
      List.Forall₂ (fun c o => o.length ≤ max 1 (c.length * samp / (classes.map List.length).sum) + 1 ∧
        max 1 (c.length * samp / (classes.map List.length).sum) ≤ o.length + 1 ∧ ∀ x ∈ o, x ∈ c) classes out := by
  set sz := (classes.map List.length).sum with hszd
  have hq : ∀ c ∈ classes, ∃ q : ℕ, Fp.quota (Fp.share sz samp c.length) = .ok q ∧
      Fp.upper (Fp.share sz samp c.length) = .ok (q - 1) ∧ 1 ≤ q ∧ q ≤ c.length ∧
      q ≤ max 1 (c.length * samp / sz) + 1 ∧ max 1 (c.length * samp / sz) ≤ q + 1 := fun c hc =>
    quota_upper (List.length_pos_of_ne_nil (hne c hc)) (length_le_sum classes c hc) h1 h2 hsz
  let q : List α → ℕ := fun c => ((Fp.quota (Fp.share sz samp c.length)).toOption).getD 0
  have hqq : ∀ c ∈ classes, Fp.quota (Fp.share sz samp c.length) = .ok (q c) ∧
      Fp.upper (Fp.share sz samp c.length) = .ok (q c - 1) ∧ 1 ≤ q c ∧ q c ≤ c.length ∧
      q c ≤ max 1 (c.length * samp / sz) + 1 ∧ max 1 (c.length * samp / sz) ≤ q c + 1 := by
    intro c hc
    obtain ⟨k, e, rest⟩ := hq c hc
    have : q c = k := by simp only [q, e]; rfl
    rw [this]; exact ⟨e, rest⟩
  have eU : (classes.map (fun c => Fp.share sz samp c.length)).mapM Fp.upper = .ok (classes.map (fun c => q c - 1)) := by
    rw [List.mapM_map]
    exact Feat.mapM_ok _ _ _ (fun c hc => (hqq c hc).2.1)
  have eQ : (classes.map (fun c => Fp.share sz samp c.length)).mapM Fp.quota = .ok (classes.map q) := by
    rw [List.mapM_map]
    exact Feat.mapM_ok _ _ _ (fun c hc => (hqq c hc).1)
  obtain ⟨out, e1, e2⟩ := drawAll_repl draw hdraw fuel q classes ([], 0)
    (fun c hc => ⟨(hqq c hc).2.2.1, (hqq c hc).2.2.2.1⟩)
  refine ⟨out, ?_, ?_⟩
  · unfold Fp.sampling
    simp only [← hszd]
    rw [if_neg (by omega), eU, Res_bind_ok, eQ, Res_bind_ok, ← e1]
    rw [zip_maps]
  · refine (List.Forall₂.imp ?_ (forall₂_mem e2))
    rintro c o ⟨hc, g1, g2⟩
    rw [g1]
    exact ⟨(hqq c hc).2.2.2.2.1, (hqq c hc).2.2.2.2.2, fun x hx => List.mem_of_mem_take (g2 x hx)⟩

/-- A class with two samples and one with five, of which half are sampled. -/
example : InRange (fun _ _ => 0) ∧ (Fp.sampling (fun _ hi => hi) 1 [[1, 2], [3, 4, 5, 6, 7]] 4 true) =
    .ok (some [[1], [4, 4]]) := ⟨fun _ _ => Nat.zero_le _, by decide +kernel⟩

/-- **C216 refuted**: sampling all 22 samples of a dataset of 15 and 7, which should draw 15 and 7, draws only 14 and 7:
`15.0 / 22 * 22` is a little less than 15. -/
theorem C216_share_refuted (draw : Nat → Nat → Nat) (hdraw : InRange draw) (fuel : Nat) :
    ∃ (classes : List (List Nat)) (samp : Nat) (out : List (List Nat)), (∀ c ∈ classes, c ≠ []) ∧
      samp = (classes.map List.length).sum ∧ Fp.sampling draw fuel classes samp true = .ok (some out) ∧
      out.map List.length = [14, 7] ∧ classes.map (fun c => c.length * samp / (classes.map List.length).sum) = [15, 7] := by
  let classes : List (List Nat) := [List.range 15, List.range 7]
  have eq1 : Fp.quota (Fp.share 22 22 15) = .ok 14 ∧ Fp.upper (Fp.share 22 22 15) = .ok 13 ∧
      Fp.quota (Fp.share 22 22 7) = .ok 7 ∧ Fp.upper (Fp.share 22 22 7) = .ok 6 := by decide +kernel
  obtain ⟨q1, u1, q2, u2⟩ := eq1
  let q : List Nat → ℕ := fun c => if c.length = 15 then 14 else 7
  obtain ⟨out, e1, e2⟩ := drawAll_repl draw hdraw fuel q classes ([], 0) (by decide)
  refine ⟨classes, 22, out, by decide, by decide, ?_, ?_, by decide⟩
  · rw [← e1]
    unfold Fp.sampling
    simp only [classes, q, List.map_cons, List.map_nil, List.length_range, List.sum_cons, List.sum_nil, List.mapM_cons,
      List.mapM_nil]
    norm_num only
    rw [q1, u1, q2, u2]
    rfl
  · have e3 : out.map List.length = classes.map q := by
      clear e1
      generalize classes = cl at e2
      induction e2 with
      | nil => rfl
      | cons h _ ih => simp only [List.map_cons, h.1, ih]
    rw [e3]; decide

/-! ## C217 -/

theorem near_le_half {q : ℚ} (h0 : 0 ≤ q) (h : q ≤ 2 ^ 52) : |near q - q| ≤ 1 / 2 := by
  rcases h0.eq_or_lt with rfl | hq
  · rw [near_zero]; norm_num
  · refine (near_err q).trans ?_
    have h2 : lg q ≤ 52 := lg_le hq (lt_of_le_of_lt h (by decide +kernel))
    have h3 : ulpExp q ≤ 0 := by rw [ulpExp_pos hq]; omega
    have h4 := two_le h3
    rw [show two 0 = 1 by decide +kernel] at h4
    linarith

theorem rsm_dims {r : ℚ} (hr : IsDbl r) (h0 : 0 ≤ r) (h1 : r ≤ 1) (dims : ℕ) (hd : dims ≤ 2 ^ 52) :
    ∃ n : ℕ, Fp.rsmInit (.fin r) dims = .ok (n, List.range dims) ∧ n ≤ dims ∧ (0 < r → 0 < dims → 0 < n) ∧
      r * (dims : ℚ) - 1 / 2 ≤ n ∧ (n : ℚ) < r * (dims : ℚ) + 3 / 2 := by
  have hdq : (0 : ℚ) ≤ dims := Nat.cast_nonneg _
  have hd52 : (dims : ℚ) ≤ 2 ^ 52 := by exact_mod_cast hd
  have hq0 : 0 ≤ r * (dims : ℚ) := mul_nonneg h0 hdq
  have hq1 : r * (dims : ℚ) ≤ dims := by nlinarith
  have hx0 : 0 ≤ near (r * dims) := near_nonneg hq0
  have hx1 : near (r * dims) ≤ dims := by
    have := near_mono hq1
    rwa [near_nat (by omega)] at this
  have hfin : |near (r * dims)| < huge := by
    rw [abs_of_nonneg hx0]; exact lt_of_le_of_lt hx1 (nat_lt_huge (by omega))
  have hc0 : 0 ≤ ⌈near (r * dims)⌉ := Int.ceil_nonneg hx0
  have hc1 : ⌈near (r * dims)⌉ ≤ (dims : ℤ) := by rw [Int.ceil_le]; push_cast; exact hx1
  have hc2 : near (r * dims) ≤ (⌈near (r * dims)⌉ : ℚ) := Int.le_ceil _
  have hc3 : (⌈near (r * dims)⌉ : ℚ) < near (r * dims) + 1 := Int.ceil_lt_add_one _
  have herr := abs_le.mp (near_le_half hq0 (hq1.trans hd52))
  have hpos : 0 < r → 0 < dims → 0 < ⌈near (r * dims)⌉ := by
    intro hr0 hd0
    have h5 : r ≤ r * dims := by
      have : (1 : ℚ) ≤ dims := by exact_mod_cast hd0
      nlinarith
    have h6 := near_mono h5
    rw [(isDbl_iff.mp hr).1] at h6
    rw [Int.ceil_pos]; linarith
  obtain ⟨n, hn⟩ := Int.eq_ofNat_of_zero_le hc0
  rw [hn] at hc1 hc2 hc3 hpos
  push_cast at hc2 hc3
  refine ⟨n, ?_, by omega, fun a b => by have := hpos a b; omega, by linarith, by linarith⟩
  unfold Fp.rsmInit
  rw [ofNat_eq (by omega : dims ≤ 2 ^ 53)]
  simp only [Dbl.mul]
  rw [rnd_fin hfin]
  simp only [Dbl.ceil]
  rw [hn]
  have hn53 : ((n : ℤ) : ℚ) < 2 ^ 64 := by push_cast; linarith
  have hn0 : (-1 : ℚ) < ((n : ℤ) : ℚ) := by push_cast; linarith [show (0 : ℚ) ≤ (n : ℚ) from Nat.cast_nonneg _]
  rw [sizeOf_fin hn0 hn53, Int.floor_intCast, Int.toNat_natCast, Res_bind_ok]
  rfl

/-- **C217** (partial: see the refutation) In `double` arithmetic, for every fraction `r` in `[0,1]` and at most 2^52
features, every sequence of calls of the random subspace method returns the same number of features each time, all different
and all below `dims`; the number is at least `r * dims - 1/2` and below `r * dims + 3/2`. -/
theorem C217_random_subspaces_partial (r : ℚ) (hr : IsDbl r) (h0 : 0 ≤ r) (h1 : r ≤ 1) (dims : Nat) (hd : dims ≤ 2 ^ 52)
    (σs : List (List Nat → List Nat)) (hσ : ∀ σ ∈ σs, ∀ l, (σ l).Perm l) :
    ∃ n feats ls, Fp.rsmInit (.fin r) dims = .ok (n, feats) ∧ MLTK.Sampling.rsmCalls n σs feats = .ok ls ∧
      (r * (dims : ℚ) - 1 / 2 ≤ n ∧ (n : ℚ) < r * (dims : ℚ) + 3 / 2) ∧ (0 < r → 0 < dims → 0 < n) ∧
      ls.length = σs.length ∧ ∀ l ∈ ls, l.length = n ∧ l.Nodup ∧ ∀ f ∈ l, f < dims := by
  obtain ⟨n, e, hn, hp, hl, hu⟩ := rsm_dims hr h0 h1 dims hd
  -- the exact model with the fraction n/dims asks for the same number of features
  have hex : ∃ r' : ℚ, 0 ≤ r' ∧ r' ≤ 1 ∧ MLTK.Sampling.rsmInit r' dims = .ok (n, List.range dims) := by
    rcases Nat.eq_zero_or_pos dims with rfl | hd0
    · refine ⟨0, le_refl _, by norm_num, ?_⟩
      have : n = 0 := by omega
      subst this
      simp [MLTK.Sampling.rsmInit]
    · have hdq : (0 : ℚ) < dims := by exact_mod_cast hd0
      refine ⟨(n : ℚ) / dims, by positivity, by rw [div_le_one hdq]; exact_mod_cast hn, ?_⟩
      have : (n : ℚ) / dims * dims = ((n : ℤ) : ℚ) := by push_cast; field_simp
      unfold MLTK.Sampling.rsmInit
      rw [this, Int.ceil_intCast, if_neg (by omega), Int.toNat_natCast]
  obtain ⟨r', a0, a1, e'⟩ := hex
  obtain ⟨n', feats, ls, b1, b2, _, b3, b4⟩ := C95_random_subspaces_partial r' a0 a1 dims σs hσ
  rw [e'] at b1
  simp only [Except.ok.injEq, Prod.mk.injEq] at b1
  obtain ⟨rfl, rfl⟩ := b1
  exact ⟨n, List.range dims, ls, e, b2, ⟨hl, hu⟩, hp, b3, b4⟩

/-- **C217 refuted**: asked for the fraction `7.0 / 25` of 25 features, the method returns 8 features. -/
theorem C217_count_refuted : ∃ k dims n : ℕ, ∃ r : ℚ, 0 < k ∧ k ≤ dims ∧
    (Dbl.ofNat k).div (Dbl.ofNat dims) = .fin r ∧ (Fp.rsmInit (.fin r) dims).toOption.map Prod.fst = some n ∧ n = k + 1 :=
  ⟨7, 25, 8, near (7 / 25), by decide, by decide, by decide +kernel, by decide +kernel, rfl⟩

/-- A fraction of `0.25` of eight features: two features, in the order of the shuffle. -/
example : IsDbl (1 / 4) ∧ Fp.rsmInit (.fin (1 / 4)) 8 = .ok (2, List.range 8) ∧
    MLTK.Sampling.rsmCalls 2 [id, List.reverse] (List.range 8) = .ok [[0, 1], [7, 6]] := by decide +kernel

/-! ## C218 -/

/-- Finite values and `+∞`. -/
def NotBelow (a : Dbl) : Prop := a = .inf false ∨ ∃ q, a = .fin q ∧ IsDbl q

theorem add_nonneg_le {v h : Dbl} (hv : NotBelow v) (hh : h = .inf false ∨ ∃ q, h = .fin q ∧ 0 ≤ q) :
    NotBelow (v.add h) ∧ v.le (v.add h) = true := by
  rcases hv with rfl | ⟨q, rfl, hq⟩
  · rcases hh with rfl | ⟨p, rfl, hp⟩
    · exact ⟨Or.inl rfl, rfl⟩
    · exact ⟨Or.inl rfl, rfl⟩
  · rcases hh with rfl | ⟨p, rfl, hp⟩
    · exact ⟨Or.inl rfl, rfl⟩
    · obtain ⟨g1, g2⟩ := isDbl_iff.mp hq
      have hge : q ≤ near (q + p) := by
        have := near_mono (show q ≤ q + p by linarith)
        rwa [g1] at this
      rw [abs_lt] at g2
      simp only [Dbl.add]
      by_cases hb : huge ≤ near (q + p)
      · have : rnd (q + p) = .inf false := by
          unfold Fp.rnd
          rw [if_neg (by linarith), if_pos hb]
        rw [this]
        exact ⟨Or.inl rfl, rfl⟩
      · have hf : |near (q + p)| < huge := abs_lt.mpr ⟨by linarith, not_le.mp hb⟩
        rw [rnd_fin hf]
        exact ⟨Or.inr ⟨_, rfl, isDbl_iff.mpr ⟨near_near _, hf⟩⟩, decide_eq_true hge⟩

theorem linLoop_chain {h : Dbl} (hh : h = .inf false ∨ ∃ q, h = .fin q ∧ 0 ≤ q) : ∀ (n : ℕ) (v : Dbl), NotBelow v →
    (Fp.linLoop h n v).IsChain (fun a b => a.le b = true)
  | 0, v, _ => List.isChain_nil
  | 1, v, _ => by simp [Fp.linLoop]
  | n + 2, v, hv => by
    have h1 := add_nonneg_le hv hh
    have ih := linLoop_chain hh (n + 1) (v.add h) h1.1
    simp only [Fp.linLoop] at ih ⊢
    exact List.IsChain.cons_cons h1.2 ih

theorem linLoop_length (h : Dbl) : ∀ (n : ℕ) (v : Dbl), (Fp.linLoop h n v).length = n
  | 0, _ => rfl
  | n + 1, v => by simp only [Fp.linLoop, List.length_cons, linLoop_length h n]

/-- **C218** (partial: see the refutation) In `double` arithmetic, `linspace(lower, upper, N)` for `lower <= upper` gives `N`
numbers, the first is `lower`, and no number is smaller than the one before it. -/
theorem C218_linspace_partial (lo hi : ℚ) (hlo : IsDbl lo) (hle : lo ≤ hi) (N : ℕ) (h2 : 2 ≤ N)
    (hN : N ≤ 2 ^ 53) :
    (Fp.linspace (.fin lo) (.fin hi) N).length = N ∧ (Fp.linspace (.fin lo) (.fin hi) N).head? = some (.fin lo) ∧
      (Fp.linspace (.fin lo) (.fin hi) N).IsChain (fun a b => a.le b = true) := by
  have hstep : ∀ d : Dbl, d = .inf false ∨ (∃ q, d = .fin q ∧ 0 ≤ q) →
      (d.div (Dbl.ofNat (N - 1)) = .inf false ∨ ∃ q, d.div (Dbl.ofNat (N - 1)) = .fin q ∧ 0 ≤ q) := by
    rw [ofNat_eq (by omega : N - 1 ≤ 2 ^ 53)]
    have hNpos : (0 : ℚ) < ((N - 1 : ℕ) : ℚ) := by exact_mod_cast (show 0 < N - 1 by omega)
    rintro d (rfl | ⟨q, rfl, hq⟩)
    · left
      simp only [Dbl.div]
      rw [decide_eq_false (by linarith)]
      rfl
    · simp only [Dbl.div]
      rw [if_neg hNpos.ne']
      have h0 := near_nonneg (show 0 ≤ q / ((N - 1 : ℕ) : ℚ) by positivity)
      have := huge_pos
      unfold Fp.rnd
      rw [if_neg (by linarith)]
      by_cases hb : huge ≤ near (q / ((N - 1 : ℕ) : ℚ))
      · left; rw [if_pos hb]
      · right; rw [if_neg hb]; exact ⟨_, rfl, h0⟩
  have hdiff : (Dbl.sub (.fin hi) (.fin lo)) = .inf false ∨ ∃ q, Dbl.sub (.fin hi) (.fin lo) = .fin q ∧ 0 ≤ q := by
    simp only [Dbl.sub, Dbl.neg, Dbl.add]
    have h0 := near_nonneg (show 0 ≤ hi + -lo by linarith)
    have := huge_pos
    unfold Fp.rnd
    rw [if_neg (by linarith)]
    by_cases hb : huge ≤ near (hi + -lo)
    · left; rw [if_pos hb]
    · right; rw [if_neg hb]; exact ⟨_, rfl, h0⟩
  unfold Fp.linspace
  rw [if_neg (by omega : ¬ N = 0)]
  refine ⟨linLoop_length _ _ _, ?_, linLoop_chain (hstep _ hdiff) N _ (Or.inr ⟨lo, rfl, hlo⟩)⟩
  obtain ⟨n, rfl⟩ : ∃ n, N = n + 1 := ⟨N - 1, by omega⟩
  rfl

/-- **C218 refuted**: the last of the ten numbers of `linspace(0, 1, 10)` is larger than 1, that of `linspace(0, 1, 11)`
smaller. -/
theorem C218_last_refuted :
    ((Fp.linspace (.fin 0) (.fin 1) 10).getLast?.map (fun v => Dbl.lt (.fin 1) v) = some true) ∧
    ((Fp.linspace (.fin 0) (.fin 1) 11).getLast?.map (fun v => v.lt (.fin 1)) = some true) := by decide +kernel

/-- Five numbers that need no rounding. -/
example : IsDbl 0 ∧ Fp.linspace (.fin 0) (.fin 1) 5 = [.fin 0, .fin (1 / 4), .fin (1 / 2), .fin (3 / 4), .fin 1] := by
  decide +kernel

end MLTK.Props
