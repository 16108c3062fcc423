import Verif.Model.DataMore
import Verif.Spec.DataMore
import Verif.Lemmas.DataCopy
namespace MLTK.Data
open MLTK.Spec

theorem powerSum_nonneg (p : ℝ) (x : List ℝ) : 0 ≤ powerSum p x := by
  apply List.sum_nonneg
  intro a ha
  obtain ⟨v, _, rfl⟩ := List.mem_map.1 ha
  exact Real.rpow_nonneg (abs_nonneg v) p

/-- The number by which `normalize` divides a sample with features `x`. -/
noncomputable def divisor (p : ℝ) (x : List ℝ) : ℝ := (powerSum p x + 1) ^ (1 / p)

theorem divisor_pos (p : ℝ) (x : List ℝ) : 0 < divisor p x :=
  Real.rpow_pos_of_pos (by have := powerSum_nonneg p x; linarith) _

theorem divisor_pow {p : ℝ} (hp : 0 < p) (x : List ℝ) : divisor p x ^ p = powerSum p x + 1 := by
  have := powerSum_nonneg p x
  unfold divisor
  rw [← Real.rpow_mul (by linarith), one_div, inv_mul_cancel₀ (ne_of_gt hp), Real.rpow_one]

theorem powerSum_div (p : ℝ) (x : List ℝ) {c : ℝ} (hc : 0 < c) :
    powerSum p (x.map (· / c)) = powerSum p x / c ^ p := by
  unfold powerSum
  induction x with
  | nil => simp
  | cons a as ih =>
    simp only [List.map_cons, List.sum_cons] at ih ⊢
    rw [ih, abs_div, abs_of_pos hc, Real.div_rpow (abs_nonneg a) (le_of_lt hc), add_div]

theorem powerSum_augmented (p : ℝ) (x : List ℝ) : powerSum p (x ++ [1]) = powerSum p x + 1 := by
  simp [powerSum]

/-- The normalised features. -/
noncomputable def unitRow (p : ℝ) (x : List ℝ) : List ℝ := (x ++ [1]).map (· / divisor p x)

theorem unitRow_powerSum {p : ℝ} (hp : 0 < p) (x : List ℝ) : powerSum p (unitRow p x) = 1 := by
  have := powerSum_nonneg p x
  unfold unitRow
  rw [powerSum_div p _ (divisor_pos p x), divisor_pow hp, powerSum_augmented, div_self (by linarith)]

theorem foldlM_powers (p : ℝ) (x : List ℝ) (n : Nat) (hn : n ≤ x.length) :
    (List.range n).foldlM (fun (s : ℝ) j => (do
      let v ← vget x j
      pure (s + |v| ^ p) : Res ℝ)) 0 = .ok (powerSum p (x.take n)) := by
  induction n with
  | zero => simp [powerSum]
  | succ n ih =>
    rw [List.range_succ, List.foldlM_append, ih (by omega)]
    have hlt : n < x.length := by omega
    have hv : vget x n = .ok x[n] := by simp [hlt]
    simp only [Res_bind_ok, List.foldlM_cons, List.foldlM_nil, hv, Res_pure]
    rw [List.take_add_one]
    simp [powerSum, hlt]

theorem normalizeRow_ok {p : ℝ} {n : Nat} {x : List ℝ} (hn : n ≤ x.length) :
    normalizeRow p n x = .ok (unitRow p (x.take n)) := by
  have hset : vset (resizeTo x (n + 1)) n (1 : ℝ) = .ok (x.take n ++ [1]) := by
    have hl : n < (resizeTo x (n + 1)).length := by simp [resizeTo]; omega
    unfold vset
    rw [if_pos hl]
    congr 1
    apply List.ext_getElem
    · simp [resizeTo]; omega
    · intro i h1 h2
      simp only [List.length_append, List.length_take, List.length_cons, List.length_nil] at h2
      have h2' : i ≤ n := by omega
      rw [List.getElem_set]
      by_cases hi : n = i
      · subst hi
        rw [if_pos rfl, List.getElem_append_right (by simp)]
        simp
      · rw [if_neg hi]
        have hlt : i < n := by omega
        rw [List.getElem_append_left (by simp; omega)]
        simp only [resizeTo]
        rw [List.getElem_append_left (by simp; omega)]
        simp
  have hget : vget (x.take n ++ [(1 : ℝ)]) n = .ok 1 := by
    rw [vget_eq_ok, List.getElem?_append_right (by simp)]
    simp [hn]
  simp only [normalizeRow, foldlM_powers p x n hn, Res_bind_ok, hset, hget, abs_one, Real.one_rpow]
  have := divisor_pos p (x.take n)
  unfold divisor at this
  rw [if_neg (ne_of_gt this)]
  rfl

/-- The loop of `normalize`. -/
theorem normalizeLoop_ok {p : ℝ} {n : Nat} : ∀ (rs : List Nat) (m : Mem ℝ),
    (∀ r ∈ rs, ∃ q, m[r]? = some q ∧ n ≤ q.x.length) →
    ∃ m', normalizeLoop p n m rs = .ok m' ∧ m'.length = m.length ∧ (∀ r, r ∉ rs → m'[r]? = m[r]?) ∧
      (∀ r ∈ rs, ∃ q y, m[r]? = some q ∧ y.length = n ∧ m'[r]? = some { q with x := unitRow p y } ∧
        (rs.Nodup → y = q.x.take n))
  | [], m, _ => ⟨m, rfl, rfl, fun _ _ => rfl, by simp⟩
  | r :: rs, m, h => by
    obtain ⟨q, hq, hn⟩ := h r (by simp)
    have hlt : r < m.length := (List.getElem?_eq_some_iff.1 hq).1
    have hget : ∀ s, (m.set r { q with x := unitRow p (q.x.take n) })[s]? =
        if s = r then some { q with x := unitRow p (q.x.take n) } else m[s]? := by
      intro s
      by_cases hs : s = r
      · subst hs; rw [if_pos rfl, List.getElem?_set_self hlt]
      · rw [if_neg hs, List.getElem?_set_ne (fun e => hs e.symm)]
    have hlen : (unitRow p (q.x.take n)).length = n + 1 := by simp [unitRow, hn]
    obtain ⟨m', e, hl, hout, hin⟩ := normalizeLoop_ok (p := p) (n := n) rs
      (m.set r { q with x := unitRow p (q.x.take n) }) (by
        intro s hs
        rw [hget]
        by_cases hsr : s = r
        · rw [if_pos hsr]; exact ⟨_, rfl, by simp only [hlen]; omega⟩
        · rw [if_neg hsr]; exact h s (by simp [hs]))
    refine ⟨m', ?_, ?_, ?_, ?_⟩
    · simp only [normalizeLoop, deref_of_get hq, Res_bind_ok, normalizeRow_ok hn]
      exact e
    · rw [hl]; simp
    · intro s hs
      have h1 : s ≠ r := fun he => hs (by simp [he])
      have h2 : s ∉ rs := fun he => hs (by simp [he])
      rw [hout s h2, hget, if_neg h1]
    · intro s hs
      by_cases hsr : s ∈ rs
      · obtain ⟨q', y, hq', hy, hm', hnd⟩ := hin s hsr
        rw [hget] at hq'
        by_cases he : s = r
        · subst he
          rw [if_pos rfl] at hq'
          obtain rfl := Option.some.inj hq'
          exact ⟨q, y, hq, hy, by simpa using hm', fun h' => absurd hsr (List.nodup_cons.1 h').1⟩
        · rw [if_neg he] at hq'
          exact ⟨q', y, hq', hy, hm', fun h' => hnd (List.nodup_cons.1 h').2⟩
      · have he : s = r := by simpa [hsr] using hs
        subst he
        refine ⟨q, q.x.take n, hq, by simp [hn], ?_, fun _ => rfl⟩
        rw [hout s hsr, hget, if_pos rfl]

theorem Rectangular.dim_eq {T : Type} {m : Mem T} {d : Data} {n : Nat} (h : Rectangular m d n) (hne : d.points ≠ []) :
    dim m d = .ok n := by
  unfold dim
  cases hp : d.points with
  | nil => exact absurd hp hne
  | cons r rs =>
    obtain ⟨q, hq⟩ := h.live r (by simp [hp])
    simp only [deref_of_get hq, Res_bind_ok, Res_pure]
    congr 1
    apply h.dims
    unfold samples
    rw [List.mem_filterMap]
    exact ⟨r, by simp [hp], hq⟩

/-- What `normalize` does to a rectangular dataset. -/
theorem normalize_ok {m : Mem ℝ} {d : Data} {n : Nat} (h : Rectangular m d n) (hne : d.points ≠ []) (p : ℝ) :
    ∃ m', normalize m d p =
        .ok (m', { d with mdim := n + 1, fnames := d.fnames ++ [((n + 1 : Nat) : Int)], normalized := true }) ∧
      m'.length = m.length ∧ (∀ r, r ∉ d.points → m'[r]? = m[r]?) ∧
      (∀ r ∈ d.points, ∃ q y, m[r]? = some q ∧ q.x.length = n ∧ y.length = n ∧
        m'[r]? = some { q with x := unitRow p y } ∧ (d.points.Nodup → y = q.x)) := by
  have hrow : ∀ r ∈ d.points, ∃ q, m[r]? = some q ∧ q.x.length = n := by
    intro r hr
    obtain ⟨q, hq⟩ := h.live r hr
    exact ⟨q, hq, h.dims q (List.mem_filterMap.2 ⟨r, hr, hq⟩)⟩
  obtain ⟨m', e, hl, hout, hin⟩ := normalizeLoop_ok (p := p) (n := n) d.points m (by
    intro r hr
    obtain ⟨q, hq, hx⟩ := hrow r hr
    exact ⟨q, hq, le_of_eq hx.symm⟩)
  have hin' : ∀ r ∈ d.points, ∃ q y, m[r]? = some q ∧ q.x.length = n ∧ y.length = n ∧
      m'[r]? = some { q with x := unitRow p y } ∧ (d.points.Nodup → y = q.x) := by
    intro r hr
    obtain ⟨q, y, hq, hy, hm, hnd⟩ := hin r hr
    obtain ⟨q', hq', hx⟩ := hrow r hr
    obtain rfl := Option.some.inj (hq.symm.trans hq')
    exact ⟨q, y, hq, hx, hy, hm, fun h' => by rw [hnd h', ← hx, List.take_length]⟩
  refine ⟨m', ?_, hl, hout, hin'⟩
  have hdim : dim m' d = .ok (n + 1) := by
    unfold dim
    cases hp : d.points with
    | nil => exact absurd hp hne
    | cons r rs =>
      obtain ⟨q, y, _, _, hy, hm, _⟩ := hin' r (by simp [hp])
      simp only [deref_of_get hm, Res_bind_ok, Res_pure]
      simp [unitRow, hy]
  have hsz : ¬ d.points.length < d.msize := by rw [h.msize]; omega
  simp only [normalize, Rectangular.dim_eq h hne, Res_bind_ok, if_neg hsz]
  rw [show d.points.take d.msize = d.points by rw [h.msize, List.take_length]]
  simp only [e, Res_bind_ok, hdim]
  rfl

end MLTK.Data
