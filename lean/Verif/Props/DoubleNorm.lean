import Verif.Lemmas.DoubleSum
import Verif.Model.DoubleNorm
import Verif.Props.DoubleMetric
import Verif.Props.DoubleVote
/-!
# C231: normalising in `double` arithmetic
-/
namespace MLTK.Props
open MLTK.Fp

attribute [local irreducible] Fp.rnd Fp.near Fp.huge Fp.two

theorem div_fin {a c : ℚ} (hc : 0 < c) : (Dbl.fin a).div (.fin c) = rnd (a / c) := by
  simp only [Dbl.div]; rw [if_neg hc.ne']

theorem rnd_mono {p q : ℚ} (h : p ≤ q) : (rnd p).le (rnd q) = true := by
  have hm := near_mono h
  have hh := huge_pos
  by_cases p1 : near p ≤ -huge
  · have : rnd p = .inf true := by
      have := rnd_inf (q := -p) (by rw [near_neg]; linarith)
      rw [rnd_neg] at this
      cases h' : rnd p with
      | fin x => rw [h'] at this; simp [Dbl.neg] at this
      | inf s => rw [h'] at this; simp [Dbl.neg] at this; rw [this]
      | nan => exact absurd h' (rnd_ne_nan p)
    rw [this]
    rcases rnd_isNum q with ⟨x, hx, _⟩ | ⟨s, hx⟩ <;> rw [hx] <;> simp [Dbl.le]
  · by_cases q1 : huge ≤ near q
    · rw [rnd_inf q1]
      rcases rnd_isNum p with ⟨x, hx, _⟩ | ⟨s, hx⟩ <;> rw [hx] <;> simp [Dbl.le]
    · rw [rnd_fin (abs_lt.2 ⟨by linarith, by linarith⟩), rnd_fin (abs_lt.2 ⟨by linarith, by linarith⟩)]
      simpa [Dbl.le] using hm

/-- C231: when the norm is a positive number, normalising keeps the order and the signs of the components: a greater
component never becomes smaller, zero stays zero. -/
theorem C231_order_partial (power root : Dbl → Dbl) (p : List ℚ) (c : ℚ) (hc : 0 < c)
    (hn : normBy power root (atPoint p) = .fin c) :
    (normalizeBy power root (atPoint p)).length = p.length ∧
    (∀ (i j : ℕ) (a b : ℚ), p[i]? = some a → p[j]? = some b → ∃ x y, (normalizeBy power root (atPoint p))[i]? = some x ∧
      (normalizeBy power root (atPoint p))[j]? = some y ∧ (a ≤ b → x.le y = true) ∧ (a = 0 → x = .fin 0) ∧
      (0 ≤ a → (Dbl.fin 0).le x = true) ∧ (a ≤ 0 → x.le (.fin 0) = true)) := by
  have h0 : rnd 0 = .fin 0 := by decide +kernel
  refine ⟨by simp [normalizeBy, atPoint], fun i j a b hi hj => ⟨rnd (a / c), rnd (b / c), ?_, ?_, ?_, ?_, ?_, ?_⟩⟩
  · rw [normalizeBy, hn]; simp only [atPoint, List.getElem?_map, hi, Option.map_some, div_fin hc]
  · rw [normalizeBy, hn]; simp only [atPoint, List.getElem?_map, hj, Option.map_some, div_fin hc]
  · intro h; exact rnd_mono (div_le_div_of_nonneg_right h hc.le)
  · rintro rfl; rw [zero_div, h0]
  · intro h; rw [← h0]; exact rnd_mono (div_nonneg h hc.le)
  · intro h; rw [← h0]; exact rnd_mono (div_nonpos_of_nonpos_of_nonneg h hc.le)

/-- C231: with the sum norm (`q = 1`) of a point of finite components that are not all zero and whose sum does not overflow,
every component comes out between -1 and 1. -/
theorem C231_sum_norm_partial (p : List ℚ) (hp : ∀ a ∈ p, IsDbl a) (hne : ∃ a ∈ p, a ≠ 0)
    (hfin : normBy id id (atPoint p) ≠ .inf false) :
    ∃ c, normBy id id (atPoint p) = .fin c ∧ 0 < c ∧ ∀ (i : ℕ) (a : ℚ), p[i]? = some a → ∃ x,
      (normalizeBy id id (atPoint p))[i]? = some (Dbl.fin x) ∧ -1 ≤ x ∧ x ≤ 1 ∧ x = near (a / c) := by
  have hnorm : normBy id id (atPoint p) = (p.map (fun a => Dbl.fin |a|)).foldl Dbl.add (.fin 0) := by
    unfold normBy total atPoint
    rw [List.map_map]; rfl
  have hD : ∀ x ∈ p.map (fun a => Dbl.fin |a|), D0 x := by
    intro x hx
    obtain ⟨a, ha, rfl⟩ := List.mem_map.1 hx
    refine .inl ⟨|a|, rfl, ?_, abs_nonneg a⟩
    have := isDbl_iff.1 (hp a ha)
    rw [isDbl_iff]
    constructor
    · rcases abs_choice a with h | h <;> rw [h]
      · exact this.1
      · rw [near_neg, this.1]
    · rw [abs_abs]; exact this.2
  obtain ⟨h1, h2, h3⟩ := sum_D0 _ hD _ zero_D0
  rw [← hnorm] at h1 h2 h3
  rcases h1 with ⟨c, hc, hcd, hc0⟩ | h
  · have hle : ∀ a ∈ p, |a| ≤ c := by
      intro a ha
      have := h3 (.fin |a|) (List.mem_map.2 ⟨a, ha, rfl⟩)
      rw [hc] at this
      simpa [Dbl.le] using this
    have hcp : 0 < c := by
      obtain ⟨a, ha, hz⟩ := hne
      exact (abs_pos.2 hz).trans_le (hle a ha)
    refine ⟨c, hc, hcp, fun i a hi => ⟨near (a / c), ?_, ?_, ?_, rfl⟩⟩
    · have ha : a ∈ p := List.mem_of_getElem? hi
      have hb := abs_le.1 (hle a ha)
      have : |a / c| ≤ 1 := by rw [abs_div, abs_of_pos hcp, div_le_one hcp]; exact hle a ha
      rw [normalizeBy, hc]; simp only [atPoint, List.getElem?_map, hi, Option.map_some, div_fin hcp]
      rw [(rnd_small (by linarith)).1]
    · have ha : a ∈ p := List.mem_of_getElem? hi
      have h4 : -1 ≤ a / c := by rw [le_div_iff₀ hcp]; linarith [(abs_le.1 (hle a ha)).1]
      have := near_mono h4
      rwa [show near (-1) = -1 by decide +kernel] at this
    · have ha : a ∈ p := List.mem_of_getElem? hi
      have h4 : a / c ≤ 1 := by rw [div_le_one hcp]; exact (abs_le.1 (hle a ha)).2
      have := near_mono h4
      rwa [show near 1 = 1 by decide +kernel] at this
  · exact absurd h hfin

/-- C231 refuted, large and small points: with the Euclidean norm a point of the component `2^600` becomes the zero point and
one of the component `2^-600` becomes infinite, whatever the square root, as long as that of infinity is infinity and that of
zero is zero. -/
theorem C231_overflow_refuted (root : Dbl → Dbl) (h1 : root (.inf false) = .inf false) (h0 : root (.fin 0) = .fin 0) :
    IsDbl (2 ^ 600) ∧ IsDbl (1 / 2 ^ 600) ∧
    normalizeBy (fun v => v.mul v) root [.fin (2 ^ 600), .fin 1] = [.fin 0, .fin 0] ∧
    normalizeBy (fun v => v.mul v) root [.fin (1 / 2 ^ 600), .fin 0] = [.inf false, .nan] := by
  have e1 : total ([Dbl.fin (2 ^ 600), .fin 1].map (fun v => v.abs.mul v.abs)) = .inf false := by decide +kernel
  have e2 : total ([Dbl.fin (1 / 2 ^ 600), .fin 0].map (fun v => v.abs.mul v.abs)) = .fin 0 := by decide +kernel
  refine ⟨by decide +kernel, by decide +kernel, ?_, ?_⟩
  · unfold normalizeBy normBy
    rw [e1, h1]; decide +kernel
  · unfold normalizeBy normBy
    rw [e2, h0]; decide +kernel

/-- C231 refuted for datasets: a sample of the feature `2^600` becomes all zeros, the constant feature too. -/
theorem C231_dataset_refuted (root : Dbl → Dbl) (h1 : root (.inf false) = .inf false) :
    normalizeSample (fun v => v.mul v) root [.fin (2 ^ 600)] = [.fin 0, .fin 0] := by
  have e1 : (total ([Dbl.fin (2 ^ 600)].map (fun v => v.abs.mul v.abs))).add ((Dbl.fin 1).abs.mul (Dbl.fin 1).abs) = .inf false := by
    decide +kernel
  unfold normalizeSample
  dsimp only
  rw [e1, h1]; decide +kernel

/-- C231 refuted, ten ones and the sum norm: the normalised point does not have norm one, and normalising it again changes
it. -/
theorem C231_unit_refuted :
    let p : List Dbl := List.replicate 10 (.fin 1)
    (normBy id id (normalizeBy id id p)).lt (.fin 1) = true ∧ normalizeBy id id (normalizeBy id id p) ≠ normalizeBy id id p := by
  decide +kernel

/-- The hypotheses are met. -/
example : normBy id id (atPoint [3, -1]) = .fin 4 ∧ normalizeBy id id (atPoint [3, -1]) = [.fin (3 / 4), .fin (-1 / 4)] ∧
    normalizeSample id id (atPoint [3]) = [.fin (3 / 4), .fin (1 / 4)] := by
  decide +kernel

end MLTK.Props
