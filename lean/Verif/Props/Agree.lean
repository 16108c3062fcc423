import Verif.Props.Voting
import Verif.Props.Neighbors
/-!
# C210, C211: what wrappers and nearest neighbours answer for the samples they were trained on
-/
namespace MLTK.Props
open MLTK.Spec MLTK.Vote
open MLTK.Data (Res_bind_ok Res_bind_error Res_pure)

section
variable {T K : Type} [Field K] [LinearOrder K] [IsStrictOrderedRing K]

/-- What the classifier in row `i` and column `j` answers at `x`, when a classifier trained on a dataset is the function `fit`
makes of its samples. -/
def cellAnswer (fit : List (Pt T) → List T → K) (m : Mem T) (rows : List (List (Option Data))) (x : List T) (i j : Nat) : K :=
  match (rows.getD i []).getD j none with
  | some t => fit (samples m t) x
  | none => 0

/-- **C210 (one-vs-one).**  If every base classifier answers the samples it was trained on by their labels, the wrapper answers
every sample of the dataset by its class. -/
theorem C210_one_vs_one (fit : List (Pt T) → List T → K) (m : Mem T) (d : Data) (h : Consistent m d) :
    ∃ m' rows, trainOvO d m d.classes = .ok (m', rows) ∧
      ((∀ row ∈ rows, ∀ t, some t ∈ row → ∀ q ∈ samples m' t, fit (samples m' t) q.x = ((q.y : Int) : K)) →
        ∀ p ∈ samples m d, evaluateOvO d.classes (cellAnswer fit m' rows p.x) = .ok p.y) := by
  obtain ⟨e, rows, h1, h2, h3⟩ := C44_train m d h
  refine ⟨m ++ e, rows, h1, fun hfit p hp => ?_⟩
  have hc : p.y ∈ d.classes := h.counts.covers _ (List.mem_map.2 ⟨p, hp, rfl⟩)
  obtain ⟨i, hi, hiy⟩ := List.mem_iff_getElem.1 hc
  have hi' : d.classes[i]? = some p.y := by rw [List.getElem?_eq_getElem hi, hiy]
  -- a classifier between the class of the sample and another class answers the sample rightly
  have key : ∀ a b ca cb, d.classes[a]? = some ca → d.classes[b]? = some cb → ca ≠ cb → (p.y = ca ∨ p.y = cb) →
      cellAnswer fit (m ++ e) rows p.x a b = if p.y = ca then 1 else -1 := by
    intro a b ca cb ha hb hne hor
    obtain ⟨row, o, r1, r2, r3⟩ := h3 a b ca cb ha hb
    unfold TrainedOn at r3
    rw [if_neg hne] at r3
    obtain ⟨t, rfl, _, _, _, ht⟩ := r3
    have hq : { p with y := if p.y = ca then 1 else -1 } ∈ samples (m ++ e) t := by
      rw [ht]
      unfold oneAgainst
      refine List.mem_map.2 ⟨p, List.mem_filter.2 ⟨hp, ?_⟩, rfl⟩
      simpa using hor
    have := hfit row (List.mem_of_getElem? r1) t (List.mem_of_getElem? r2) _ hq
    unfold cellAnswer
    have e2 : (rows.getD a []).getD b none = some t := by simp [List.getD_eq_getElem?_getD, r1, r2]
    rw [e2]
    simp only at this ⊢
    rw [this]
    split <;> simp
  refine C44_undefeated d.classes h.counts.nodup _ i p.y hi' fun j hj hji => ?_
  have hj' : d.classes[j]? = some d.classes[j] := List.getElem?_eq_getElem hj
  have hne : d.classes[j] ≠ p.y := fun he => hji ((h.counts.nodup.getElem_inj_iff).1 (he.trans hiy.symm))
  refine ⟨?_, ?_⟩
  · rw [key i j _ _ hi' hj' hne.symm (Or.inl rfl), if_pos rfl]
  · rw [key j i _ _ hj' hi' hne (Or.inr rfl), if_neg hne.symm]
    intro h'
    linarith

/-- **C210 (one-vs-all).**  If every base classifier answers the samples it was trained on with a value of the sign of their
labels, the wrapper answers every sample of the dataset by its class. -/
theorem C210_one_vs_all (fit : List (Pt T) → List T → K) (m : Mem T) (d : Data) (h : Consistent m d) :
    ∃ m' ts, trainOvA d m d.classes = .ok (m', ts) ∧
      ((∀ t ∈ ts, ∀ q ∈ samples m' t, 0 < ((q.y : Int) : K) * fit (samples m' t) q.x) →
        ∀ p ∈ samples m d, evaluateOvA d.classes (ts.map (fun t => fit (samples m' t) p.x)) = .ok p.y) := by
  obtain ⟨e, ts, h1, h2, h3⟩ := C45_train m d h
  refine ⟨m ++ e, ts, h1, fun hfit p hp => ?_⟩
  have hc : p.y ∈ d.classes := h.counts.covers _ (List.mem_map.2 ⟨p, hp, rfl⟩)
  obtain ⟨i, hi, hiy⟩ := List.mem_iff_getElem.1 hc
  obtain ⟨k, c, e1, e2, e3, e4, _⟩ := C45_argmax d.classes (List.ne_nil_of_mem hc)
    (ts.map (fun t => fit (samples (m ++ e) t) p.x)) (by simpa using h2)
  have val : ∀ j (hj : j < d.classes.length), 0 < (if p.y = d.classes[j] then (1 : K) else -1) *
      (ts.map (fun t => fit (samples (m ++ e) t) p.x)).getD j 0 := by
    intro j hj
    obtain ⟨t, t1, _, _, t2⟩ := h3 j _ (List.getElem?_eq_getElem hj)
    have hq : { p with y := if p.y = d.classes[j] then 1 else -1 } ∈ samples (m ++ e) t := by
      rw [t2]; exact List.mem_map.2 ⟨p, hp, rfl⟩
    have := hfit t (List.mem_of_getElem? t1) _ hq
    rw [List.getD_eq_getElem?_getD, List.getElem?_map, t1, Option.map_some, Option.getD_some]
    simp only at this
    split_ifs at this ⊢ with hp' <;> simpa using this
  have hk : k < d.classes.length := e3
  have hik : d.classes[k] = p.y := by
    by_contra hne
    have v1 := val i hi
    have v2 := val k hk
    rw [if_pos hiy.symm] at v1
    rw [if_neg (fun he => hne he.symm)] at v2
    have := e4 i hi
    simp only at this
    linarith
  rw [e1]
  rw [List.getElem?_eq_getElem hk, Option.some.injEq, hik] at e2
  rw [e2]

end

/-- The hypotheses are met by the dataset of the copy properties and a classifier that answers right. -/
example : ∃ m' rows, trainOvO demoData demoMem demoData.classes = .ok (m', rows) ∧
    evaluateOvO demoData.classes (cellAnswer (fun l x => (((l.find? (fun q => q.x = x)).map Pt.y).getD 0 : ℚ)) m' rows [2]) = .ok (-1) := by
  refine ⟨_, _, rfl, by decide +kernel⟩

/-! ### Nearest neighbour -/
section
open MLTK.Knn
variable {T K : Type} [Field K] [LinearOrder K] [IsStrictOrderedRing K]

/-- **C211.**  With one neighbour, a training sample is answered by its label if no sample of another class is at distance
zero from it. -/
theorem C211_own_label {nth : NthFn} (hnth : NthElement nth) (c : Cfg K) (hb : c.brute = true) (hk : c.k = 1)
    (hpre : c.precomputed = false) (dist : List T → List T → Res K) (samples : List (Pt T)) (classes : List Int)
    (hcl : ∀ q ∈ samples, q.y ∈ classes) (p : Pt T) (hp : p ∈ samples) (d : Pt T → K)
    (hd : ∀ q ∈ samples, dist p.x q.x = .ok (d q)) (h0 : d p = 0) (hpos : ∀ q ∈ samples, q.y ≠ p.y → 0 < d q) :
    ∃ pr, evaluate nth c dist p.x.length samples classes p = .ok (p.y, pr) := by
  obtain ⟨i, hi, hip⟩ := List.mem_iff_getElem.1 hp
  have hlen : c.k ≤ samples.length := by rw [hk]; omega
  obtain ⟨S, r, pr, hS, hev, a, b, hsplit, hmax, _⟩ := C43_majority_partial hnth c hb hpre dist samples classes p hlen
    (List.ne_nil_of_mem (hcl p hp)) (fun j => d (samples.getD j p))
    (fun j q hj => by
      have hm := List.mem_of_getElem? hj
      rw [List.getD_eq_getElem?_getD, hj, Option.getD_some]
      exact hd q hm)
  obtain ⟨j, rfl⟩ := Finset.card_eq_one.1 (hS.card.trans hk)
  have hj := hS.inside j (by simp)
  have hjd : samples.getD j p = samples[j] := by rw [List.getD_eq_getElem?_getD, List.getElem?_eq_getElem hj]; rfl
  have hyj : samples[j].y = p.y := by
    by_contra hne
    have h1 := hpos samples[j] (List.getElem_mem hj) hne
    by_cases hij : i = j
    · subst hij; exact hne (by rw [hip])
    · have h2 := hS.nearest j (by simp) i hi (by simpa using hij)
      simp only [hjd] at h2
      rw [List.getD_eq_getElem?_getD, List.getElem?_eq_getElem hi, Option.getD_some, hip, h0] at h2
      exact absurd h1 (not_lt.2 h2)
  refine ⟨pr, ?_⟩
  rw [hev]
  have hr : r = p.y := by
    by_contra hne
    have h1 := hmax p.y (hcl p hp)
    have e1 : votesIn samples {j} p.y = 1 := by
      unfold votesIn
      rw [Finset.filter_singleton, if_pos (by simp [List.getElem?_eq_getElem hj, hyj]), Finset.card_singleton]
    have e2 : votesIn samples {j} r = 0 := by
      unfold votesIn
      rw [Finset.filter_singleton, if_neg (by simp [List.getElem?_eq_getElem hj, hyj]; exact fun h => hne h.symm), Finset.card_empty]
    rw [e1, e2] at h1
    omega
  rw [hr]

end

/-- The hypotheses are met: three samples on a line. -/
example : (∀ q ∈ [(⟨[1], 1, 0, 1⟩ : Pt ℚ), ⟨[2], -1, 0, 2⟩, ⟨[2], -1, 0, 3⟩], q.y ∈ [1, -1]) ∧
    (⟨[2], -1, 0, 3⟩ : Pt ℚ) ∈ [(⟨[1], 1, 0, 1⟩ : Pt ℚ), ⟨[2], -1, 0, 2⟩, ⟨[2], -1, 0, 3⟩] ∧
    ∀ q ∈ [(⟨[1], 1, 0, 1⟩ : Pt ℚ), ⟨[2], -1, 0, 2⟩, ⟨[2], -1, 0, 3⟩], q.y ≠ -1 → 0 < |q.x.getD 0 0 - 2| := by
  decide +kernel

end MLTK.Props
