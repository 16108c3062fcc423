import Verif.Props.DataFrom
import Verif.Spec.DataIndex
import Verif.Model.Perceptron
import Verif.Lemmas.AosRun
/-!
# C165: a pass in the order of the index visits every sample
-/
namespace MLTK.Props
open MLTK MLTK.Data MLTK.Spec

variable {T : Type}

private theorem inOrder_iota (d : Data) : InOrder d ↔ d.index = iota 0 d.points.length := by
  unfold InOrder iota
  have : (fun i : Nat => (0 : Int) + i) = Int.ofNat := by funext i; simp
  constructor <;> intro h <;> rw [h] <;> simp [Function.comp_def]

private theorem shift_fold (l : List Int) (pid n : Nat) (hpid : 0 < pid) (hn : n ≤ l.length) (j : Nat) :
    ((List.range n).foldl (fun idx i => if i ≥ pid then idx.set (i - 1) (idx.getD i 0 - 1) else idx) l)[j]? =
      if pid ≤ j + 1 ∧ j + 1 < n then (l[j + 1]?).map (· - 1) else l[j]? := by
  induction n generalizing j with
  | zero => simp
  | succ n ih =>
    rw [List.range_succ, List.foldl_append]
    simp only [List.foldl_cons, List.foldl_nil]
    have ih' := ih (by omega)
    by_cases hp : n ≥ pid
    · rw [if_pos hp, List.getElem?_set]
      have hget : ((List.range n).foldl (fun idx i => if i ≥ pid then idx.set (i - 1) (idx.getD i 0 - 1) else idx) l)[n]? = l[n]? := by
        rw [ih']; simp
      have hlen : ((List.range n).foldl (fun idx i => if i ≥ pid then idx.set (i - 1) (idx.getD i 0 - 1) else idx) l).length =
          l.length := by
        generalize List.range n = rs
        clear ih ih' hget
        have : ∀ l : List Int, (rs.foldl (fun idx i => if i ≥ pid then idx.set (i - 1) (idx.getD i 0 - 1) else idx) l).length =
            l.length := by
          induction rs with
          | nil => intro l; rfl
          | cons a rs ih =>
            intro l
            rw [List.foldl_cons, ih]
            split <;> simp
        exact this l
      by_cases hj : n - 1 = j
      · have hj' : j + 1 = n := by omega
        subst hj'
        have hl : j + 1 < l.length := by omega
        rw [if_pos (by omega), if_pos (by rw [hlen]; omega), if_pos ⟨by omega, by omega⟩, List.getD_eq_getElem?_getD, hget,
          List.getElem?_eq_getElem hl]
        rfl
      · rw [if_neg hj, ih']
        by_cases h2 : pid ≤ j + 1 ∧ j + 1 < n
        · rw [if_pos h2, if_pos ⟨h2.1, by omega⟩]
        · rw [if_neg h2, if_neg (by omega)]
    · rw [if_neg hp, ih']
      by_cases h2 : pid ≤ j + 1 ∧ j + 1 < n
      · rw [if_pos h2, if_pos ⟨h2.1, by omega⟩]
      · rw [if_neg h2, if_neg (by omega)]

/-- What a removal does to the index. -/
private theorem shiftIndex_get (l : List Int) (n pid : Nat) (hpid : 0 < pid) (hl : n ≤ l.length) (hne : l ≠ []) (j : Nat) (hj : j < n) :
    (shiftIndex l n pid)[j]? = if pid ≤ j + 1 ∧ j + 1 < n then (l[j + 1]?).map (· - 1) else l[j]? := by
  unfold shiftIndex
  rw [if_neg hne, Nat.sub_eq_zero_of_le hl, List.replicate_zero, List.append_nil, shift_fold _ _ _ hpid (by simp [hl])]
  split
  · rename_i h
    rw [List.getElem?_take, if_pos h.2]
  · rw [List.getElem?_take, if_pos hj]

private theorem shiftIndex_length (l : List Int) (n pid : Nat) (hl : n ≤ l.length) (hne : l ≠ []) :
    (shiftIndex l n pid).length = n := by
  unfold shiftIndex
  rw [if_neg hne, Nat.sub_eq_zero_of_le hl, List.replicate_zero, List.append_nil]
  have : ∀ (rs : List Nat) (l : List Int), (rs.foldl (fun idx i => if i ≥ pid then idx.set (i - 1) (idx.getD i 0 - 1) else idx) l).length =
      l.length := by
    intro rs
    induction rs with
    | nil => intro l; rfl
    | cons a rs ih =>
      intro l
      rw [List.foldl_cons, ih]
      split <;> simp
  rw [this]
  simp [hl]

private theorem removed_index {m : Mem T} {d d' : Data} {pid : Int} (e : removePoint m d pid = .ok (d', true)) :
    0 < pid ∧ d'.index = shiftIndex d.index d.msize pid.toNat ∧ d'.points.length + 1 = d.points.length ∧ 2 ≤ d.msize := by
  unfold removePoint at e
  split at e
  · cases e
  · rename_i h1
    split at e
    · cases e
    · rename_i h0
      simp only at e
      obtain ⟨lr, _, e⟩ := Aos.bind_inv e
      obtain ⟨last, _, e⟩ := Aos.bind_inv e
      split at e
      · cases e
      · rename_i hp
        obtain ⟨pos, _, e⟩ := Aos.bind_inv e
        cases pos with
        | none => cases e
        | some k =>
          obtain ⟨r, hr, e⟩ := Aos.bind_inv e
          obtain ⟨p, _, e⟩ := Aos.bind_inv e
          obtain ⟨ds, _, e⟩ := Aos.bind_inv e
          cases e
          rw [vget_eq_ok] at hr
          have hk := (List.getElem?_eq_some_iff.1 hr).1
          refine ⟨by omega, rfl, ?_, by omega⟩
          simp [List.length_eraseIdx, hk]
          omega

/-- **C165 is false after a removal:** the index of a dataset in order does not change, so it keeps one entry more than there are
samples, and that entry is the position of none. -/
theorem C165_removed_refuted (m : Mem T) (d d' : Data) (pid : Int) (h : Consistent m d) (ho : InOrder d)
    (e : removePoint m d pid = .ok (d', true)) :
    d'.index = d.index ∧ d'.index.length = d'.points.length + 1 ∧ ((d'.points.length : Nat) : Int) ∈ d'.index := by
  obtain ⟨h1, h2, h3, h4⟩ := removed_index e
  rw [inOrder_iota] at ho
  have hms := h.msize
  have hn : d.index ≠ [] := by
    intro h0
    have := congrArg List.length ho
    rw [h0] at this
    simp at this
    omega
  have hlen : d.msize ≤ d.index.length := by rw [ho, hms]; simp
  have key : shiftIndex d.index d.msize pid.toNat = d.index := by
    apply List.ext_getElem?
    intro j
    by_cases hj : j < d.msize
    · rw [shiftIndex_get _ _ _ (by omega) hlen hn j hj]
      split
      · rename_i hc
        rw [ho, iota_getElem? _ _ _ (by omega), iota_getElem? _ _ _ (by omega)]
        simp
      · rfl
    · rw [List.getElem?_eq_none (by rw [shiftIndex_length _ _ _ hlen hn]; omega),
        List.getElem?_eq_none (by rw [ho, iota_length]; omega)]
  have hi : d'.index = iota 0 (d'.points.length + 1) := by rw [h2, key, ho, h3]
  refine ⟨by rw [h2, key], by rw [hi]; simp, ?_⟩
  rw [hi, iota_succ]
  simp

private theorem take_iota (n k : Nat) (h : n ≤ k) : (iota 0 k).take n = (List.range n).map Int.ofNat := by
  apply List.ext_getElem?
  intro i
  by_cases hi : i < n
  · rw [List.getElem?_take, if_pos hi, iota_getElem? _ _ _ (by omega)]
    simp [hi]
  · rw [List.getElem?_eq_none (by simp; omega), List.getElem?_eq_none (by simp; omega)]

/-- **C165 (one step each)** A dataset in order stays in order when a sample is inserted; a pass still visits every sample once
after one removal; and `resetIndex` puts every dataset in order. -/
theorem C165_step_partial (m : Mem T) (d : Data) (h : Consistent m d) :
    (∀ m' d' p keep, InOrder d → insertVal m d p keep = .ok (m', d', true) → InOrder d') ∧
    (∀ d' pid, InOrder d → removePoint m d pid = .ok (d', true) → VisitsAll d') ∧
    InOrder (resetIndex d) := by
  refine ⟨?_, ?_, ?_⟩
  · intro m' d' p keep ho e
    have hr : (m ++ [p])[m.length]? = some p := by simp
    rcases insertPtr_consistent (consistent_alloc h [p]) hr keep with ⟨_, _, e'⟩ | ⟨_, m1, d1, e', _, _, _, hp, _, _, _, _, hi⟩
    · unfold insertVal at e
      rw [e'] at e
      cases e
    · unfold insertVal at e
      rw [e'] at e
      cases e
      rw [inOrder_iota] at ho ⊢
      rw [hi, ho, hp, List.length_append, List.length_singleton, iota_succ]
      simp
  · intro d' pid ho e
    obtain ⟨h1, h2, h3⟩ := C165_removed_refuted m d d' pid h ho e
    rw [inOrder_iota] at ho
    unfold VisitsAll visited
    rw [h1, ho, take_iota]
    have := congrArg List.length (h1.trans ho)
    rw [iota_length] at this
    omega
  · rw [inOrder_iota]; rfl

example : InOrder demoData := rfl

/-- **C165 is false after a removal and two insertions:** a pass visits the last sample but one twice and the last one never. -/
theorem C165_repeated_refuted (m : Mem T) (d d' : Data) (pid : Int) (h : Consistent m d) (ho : InOrder d)
    (e : removePoint m d pid = .ok (d', true)) (hc : Consistent m d') (p q : Pt T) (k1 k2 : Bool) (hp : p.x.length = d'.mdim)
    (hq : q.x.length = d'.mdim) :
    ∃ m1 d1 m2 d2, insertVal m d' p k1 = .ok (m1, d1, true) ∧ insertVal m1 d1 q k2 = .ok (m2, d2, true) ∧
      (visited d2).count ((d2.points.length : Int) - 2) = 2 ∧ ((d2.points.length : Int) - 1) ∉ visited d2 := by
  obtain ⟨h1, h2, _⟩ := C165_removed_refuted m d d' pid h ho e
  have hr : (m ++ [p])[m.length]? = some p := by simp
  rcases insertPtr_consistent (consistent_alloc hc [p]) hr k1 with ⟨_, hne, _⟩ | ⟨_, m1, d1, e1, hc1, _, _, hp1, hd1, _, _, _, hi1⟩
  · exact absurd hp hne
  · have hr' : (m1 ++ [q])[m1.length]? = some q := by simp
    rcases insertPtr_consistent (consistent_alloc hc1 [q]) hr' k2 with ⟨_, hne, _⟩ | ⟨_, m2, d2, e2, _, _, _, hp2, _, _, _, _, hi2⟩
    · exact absurd (by rw [hd1, hp, hq]) hne
    · refine ⟨m1, d1, m2, d2, e1, e2, ?_⟩
      obtain ⟨n, hn⟩ : ∃ n, n = d'.points.length := ⟨_, rfl⟩
      have hix : d'.index = iota 0 (n + 1) := by
        rw [inOrder_iota] at ho
        rw [h1, ho]
        congr 1
        have := congrArg List.length (h1.trans ho)
        rw [iota_length] at this
        omega
      have hl1 : d1.points.length = n + 1 := by rw [hp1]; simp [hn]
      have hl2 : d2.points.length = n + 2 := by rw [hp2]; simp [hl1]
      have hv : visited d2 = iota 0 (n + 1) ++ [(n : Int)] := by
        unfold visited
        rw [hi2, hi1, hix, hl1, hl2, ← hn, List.append_assoc, List.take_append, List.take_of_length_le (by simp)]
        simp
      have hmem : ∀ z : Int, z ∈ iota 0 (n + 1) ↔ 0 ≤ z ∧ z < n + 1 := by
        intro z
        simp only [iota, List.mem_map, List.mem_range]
        constructor
        · rintro ⟨a, ha, rfl⟩; omega
        · rintro ⟨ha, hb⟩; exact ⟨z.toNat, by omega, by omega⟩
      have hnd : (iota 0 (n + 1)).Nodup := by
        unfold iota
        refine List.Nodup.map_on ?_ List.nodup_range
        intro a _ b _ hab
        have : (0 : Int) + a = 0 + b := hab
        omega
      rw [hv, hl2]
      constructor
      · have h3 : ((n + 2 : Nat) : Int) - 2 = n := by omega
        rw [h3, List.count_append, List.count_eq_one_of_mem hnd ((hmem _).2 ⟨by omega, by omega⟩)]
        simp
      · intro hin
        rcases List.mem_append.1 hin with h3 | h3
        · have := ((hmem _).1 h3).2
          omega
        · simp only [List.mem_singleton] at h3
          omega

/-- Three samples, the first removed, two more inserted: the order of a pass. -/
example : ∃ m d, runOps (T := Int) [] Data.empty (demoOps ++ [.remove 1, .insert (.val ⟨[4], 1, 0, 0⟩ false),
      .insert (.val ⟨[5], -1, 0, 0⟩ false)]) = .ok (m, d) ∧ visited d = [0, 1, 2, 2] ∧ ¬ VisitsAll d :=
  ⟨_, _, rfl, rfl, by unfold VisitsAll; decide⟩

/-- **C165 is false for the result of training:** whatever is put at a position the index leaves out, primal perceptron training
ends in the same way with the same separator. -/
theorem C165_training_refuted {K : Type} [Field K] [LinearOrder K] (lm : Perc.Libm K) (cfg : Perc.Cfg K) (clock : Nat → Bool)
    (dim : Nat) (d : Data) (samples : List (Perc.Sample K)) (index : List Nat) (s0 : Perc.PState K) (k : Nat)
    (hs : samples.length = d.points.length) (hi : d.index = index.map Int.ofNat) (hk : (k : Int) ∉ visited d) (p : Perc.Sample K)
    (hp : ∀ r, samples[k]? = some r → p.x.length = r.x.length) :
    Perc.primalTrain lm cfg clock dim (samples.set k p) index s0 = Perc.primalTrain lm cfg clock dim samples index s0 := by
  have hk' : k ∉ index.take samples.length := by
    intro h
    apply hk
    unfold visited
    rw [hi, ← hs, ← List.map_take]
    exact List.mem_map.2 ⟨k, h, rfl⟩
  have hscan : ∀ (l : List Nat), k ∉ l → ∀ s e, Perc.primalScan lm dim cfg.rate (samples.set k p) l s e =
      Perc.primalScan lm dim cfg.rate samples l s e := by
    intro l
    induction l with
    | nil => intro _ s e; rfl
    | cons a l ih =>
      intro h s e
      have ha : k ≠ a := fun h' => h (by simp [h'])
      have hg : (samples.set k p).getD a default = samples.getD a default := by
        rw [List.getD_eq_getElem?_getD, List.getD_eq_getElem?_getD, List.getElem?_set_ne ha]
      have hl : k ∉ l := fun h' => h (by simp [h'])
      rw [Perc.primalScan, Perc.primalScan, hg]
      simp only [ih hl]
  have hpass : Perc.primalPass lm dim cfg.rate (samples.set k p) index = Perc.primalPass lm dim cfg.rate samples index := by
    funext s
    unfold Perc.primalPass
    rw [List.length_set, hscan _ hk']
  have hrange : ∀ w, Perc.inRange dim (samples.set k p) index w = Perc.inRange dim samples index w := by
    intro w
    have hx : (∀ r ∈ samples.set k p, dim ≤ r.x.length) ↔ (∀ r ∈ samples, dim ≤ r.x.length) := by
      constructor
      · intro h r hr
        obtain ⟨i, hi'⟩ := List.mem_iff_getElem?.1 hr
        by_cases hik : k = i
        · subst hik
          rw [← hp r hi']
          exact h p (List.mem_iff_getElem?.2 ⟨k, by rw [List.getElem?_set_self (List.getElem?_eq_some_iff.1 hi').1]⟩)
        · exact h r (List.mem_iff_getElem?.2 ⟨i, by rw [List.getElem?_set_ne hik]; exact hi'⟩)
      · intro h r hr
        obtain ⟨i, hi'⟩ := List.mem_iff_getElem?.1 hr
        by_cases hik : k = i
        · subst hik
          have hkl : k < samples.length := by
            have := (List.getElem?_eq_some_iff.1 hi').1
            simpa using this
          rw [List.getElem?_set_self hkl] at hi'
          cases hi'
          rw [hp _ (List.getElem?_eq_getElem hkl)]
          exact h _ (List.getElem_mem hkl)
        · rw [List.getElem?_set_ne hik] at hi'
          exact h r (List.mem_iff_getElem?.2 ⟨i, hi'⟩)
    unfold Perc.inRange
    simp only [List.length_set, hx]
  unfold Perc.primalTrain
  simp only [hpass, hrange]

/-- **C165 is false when a trainer or `setIndex` has permuted the index:** if position 0 stands in a later place than the removed
id, the pass after the removal starts with the position `-1`. -/
theorem C165_permuted_refuted (m : Mem T) (d d' : Data) (pid : Int) (h : Consistent m d) (hl : d.points.length ≤ d.index.length)
    (j : Nat) (hj : j < d.points.length) (hz : d.index[j]? = some 0) (hpj : pid ≤ j)
    (e : removePoint m d pid = .ok (d', true)) : -1 ∈ visited d' := by
  obtain ⟨h1, h2, h3, h4⟩ := removed_index e
  have hms := h.msize
  have hn : d.index ≠ [] := by rintro h0; rw [h0] at hz; simp at hz
  obtain ⟨i, rfl⟩ : ∃ i, j = i + 1 := ⟨j - 1, by omega⟩
  have hg : d'.index[i]? = some (-1) := by
    rw [h2, shiftIndex_get _ _ _ (by omega) (by omega) hn i (by omega), if_pos ⟨by omega, by omega⟩, hz]
    rfl
  unfold visited
  exact List.mem_iff_getElem?.2 ⟨i, by rw [List.getElem?_take, if_pos (by omega)]; exact hg⟩

example : ∃ d', removePoint demoMem { demoData with index := [2, 1, 0] } 1 = .ok (d', true) ∧ visited d' = [0, -1] := ⟨_, rfl, rfl⟩

end MLTK.Props
