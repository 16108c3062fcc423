import Verif.Props.DataRemove
/-!
# C68: which removals keep the ids different
-/
namespace MLTK.Props
open MLTK MLTK.Data MLTK.Spec

variable {T : Type}

/-- The ids of the samples are 1, 2, …, n in order, as after insertions only. -/
def Numbered (m : Mem T) (d : Data) : Prop := (samples m d).map Pt.id = (List.range (samples m d).length).map (· + 1)

private theorem insert_fresh {m : Mem T} {d : Data} (h : Consistent m d) (p : Pt T) :
    (InsOp.exec m d (.val p false) = .ok (m ++ [p], d, false) ∧ d.points ≠ [] ∧ p.x.length ≠ d.mdim ∧ samples (m ++ [p]) d = samples m d) ∨
    ∃ m' d', InsOp.exec m d (.val p false) = .ok (m', d', true) ∧ Consistent m' d' ∧
      samples m' d' = samples m d ++ [{ p with id := (samples m d).length + 1 }] := by
  have hv : ∀ r ∈ d.points, r < m.length := fun r hr => let ⟨_, hp⟩ := h.live r hr; (List.getElem?_eq_some_iff.1 hp).1
  have hr : (m ++ [p])[m.length]? = some p := by simp
  have hlen : (samples m d).length = d.points.length := h.livePts.length
  rcases insertPtr_consistent (consistent_alloc h [p]) hr false with ⟨h1, h2, e⟩ | ⟨_, m', d', e, hc, hm, _, hp, _⟩
  · exact .inl ⟨e, h1, h2, samples_alloc hv [p]⟩
  · refine .inr ⟨m', d', e, hc, ?_⟩
    have hm' : m' = m ++ [{ p with id := d.points.length + 1 }] := by
      rw [hm, if_neg (by simp), List.set_append_right _ _ (Nat.le_refl _), Nat.sub_self, List.set_cons_zero]
    rw [samples, hp, List.filterMap_append, hm', hlen]
    congr 1
    · exact samples_alloc (d := d) hv [_]
    · simp

private theorem numbered_nodup {m : Mem T} {d : Data} (h : Numbered m d) : ((samples m d).map Pt.id).Nodup := by
  rw [h]
  exact List.Nodup.map (fun a b h => Nat.succ.inj h) List.nodup_range

private theorem numbered_get {m : Mem T} {d : Data} (h : Numbered m d) (k : Nat) (hk : k < (samples m d).length) : ((samples m d)[k]).id = k + 1 := by
  have e := congrArg (fun l => l[k]?) h
  simp only [List.getElem?_map, List.getElem?_eq_getElem hk, List.getElem?_range hk, Option.map_some, Option.some.injEq] at e
  exact e

private theorem numbered_last {m : Mem T} {d : Data} (h : Numbered m d) {last : Pt T} (hl : (samples m d).getLast? = some last) :
    last.id = (samples m d).length ∧ 0 < (samples m d).length := by
  rw [List.getLast?_eq_getElem?] at hl
  obtain ⟨h1, h2⟩ := List.getElem?_eq_some_iff.1 hl
  have := numbered_get h _ h1
  rw [h2] at this
  omega

private theorem numbered_find {m : Mem T} {d : Data} (h : Numbered m d) (k : Nat) (hk : k < (samples m d).length) :
    (samples m d).findIdx? (fun p => p.id == k + 1) = some k := by
  rw [List.findIdx?_eq_some_iff_getElem]
  refine ⟨hk, by simp [numbered_get h k hk], ?_⟩
  intro j hj
  have := numbered_get h j (by omega)
  simp [this]
  omega

/-- **C68 (refuted)** The removal of any sample but the last one makes the ids collide at the next insertion: whatever dataset with the ids
1, …, n it is done on, and whatever sample is inserted, afterwards two samples have the id n. -/
theorem C68_removal_refuted (m : Mem T) (d : Data) (h : Consistent m d) (hn : Numbered m d) (pid : Nat) (h1 : 1 ≤ pid)
    (h2 : pid < d.size) (p : Pt T) (hp : p.x.length = d.mdim) :
    ∃ m' d', runOps m d [.remove pid, .insert (.val p false)] = .ok (m', d') ∧
      2 ≤ ((samples m' d').filter (fun q => q.id = d.size)).length ∧ ¬ ((samples m' d').map Pt.id).Nodup := by
  have hlen : (samples m d).length = d.size := h.livePts.length
  obtain ⟨k, rfl⟩ : ∃ k, pid = k + 1 := ⟨pid - 1, by omega⟩
  have hne : samples m d ≠ [] := by intro he; rw [he] at hlen; simp at hlen; omega
  have hlast := List.getLast?_eq_some_getLast hne
  obtain ⟨hl, -⟩ := numbered_last hn hlast
  have hk : k < (samples m d).length := by omega
  obtain ⟨d1, e1, e2, e3, -, -, e5⟩ := removePoint_present h (pid := ((k + 1 : ℕ) : ℤ)) (k := k) (by omega) hlast (by omega)
    (by omega) (by simpa using numbered_find hn k hk)
  have hlen1 : (samples m d1).length + 1 = d.size := by
    rw [e2, List.length_eraseIdx, if_pos hk]; omega
  rcases insert_fresh e3 p with ⟨_, _, hbad, _⟩ | ⟨m', d', e, -, hs⟩
  · exact absurd (hp.trans e5.symm) hbad
  · have hin : (samples m d)[d.size - 1]'(by omega) ∈ samples m d1 := by
      rw [e2, List.mem_eraseIdx_iff_getElem]
      exact ⟨d.size - 1, by omega, by omega, rfl⟩
    have hid : ((samples m d)[d.size - 1]'(by omega)).id = d.size := by
      rw [numbered_get hn _ (by omega)]; omega
    have hcount : 2 ≤ ((samples m' d').filter (fun q => q.id = d.size)).length := by
      rw [hs, List.filter_append, List.length_append]
      have a1 : 0 < ((samples m d1).filter (fun q => decide (q.id = d.size))).length :=
        List.length_pos_iff.2 (List.ne_nil_of_mem (List.mem_filter.2 ⟨hin, by simpa using hid⟩))
      have a2 : ([{ p with id := (samples m d1).length + 1 }].filter (fun q : Pt T => decide (q.id = d.size))).length = 1 := by
        rw [List.filter_cons_of_pos (by simpa using hlen1)]; rfl
      omega
    refine ⟨m', d', ?_, hcount, ?_⟩
    · simp only [runOps, e1, Res_bind_ok, e]
    · intro hnd
      rw [hs, List.map_append] at hnd
      exact (List.nodup_append.1 hnd).2.2 _ (List.mem_map_of_mem hin) _ (by simp : (samples m d1).length + 1 ∈ _) (by rw [hid]; omega)

/-- Three samples, the second one is removed. -/
example : ∃ m d, runOps (T := Int) [] Data.empty
    [.insert (.val ⟨[1], 1, 0, 0⟩ false), .insert (.val ⟨[2], -1, 0, 0⟩ false), .insert (.val ⟨[3], 1, 0, 0⟩ false)] = .ok (m, d) ∧
    Numbered m d ∧ 2 < d.size ∧ d.mdim = 1 :=
  ⟨_, _, rfl, rfl, by decide, rfl⟩

/-- **C68 (partial)** If every removal of a history asks for the id of the last sample, or for one that is not positive or greater than all ids, the
ids stay 1, …, n. -/
theorem C68_last_partial (m0 : Mem T) (d0 : Data) (h0 : Consistent m0 d0) (hn0 : Numbered m0 d0) (ops : List (PointOp T))
    (hins : ∀ op, PointOp.insert op ∈ ops → ∃ p, op = .val p false)
    (hrem : ∀ pre pid suf m1 d1, ops = pre ++ .remove pid :: suf → runOps m0 d0 pre = .ok (m1, d1) → pid ≤ 0 ∨ (d1.size : ℤ) ≤ pid)
    (m : Mem T) (d : Data) (hrun : runOps m0 d0 ops = .ok (m, d)) : Numbered m d ∧ ((samples m d).map Pt.id).Nodup := by
  suffices hs : Numbered m d from ⟨hs, numbered_nodup hs⟩
  induction ops generalizing m0 d0 with
  | nil => simp only [runOps, Except.ok.injEq, Prod.mk.injEq] at hrun; obtain ⟨rfl, rfl⟩ := hrun; exact hn0
  | cons op ops ih =>
    have hins' : ∀ op, PointOp.insert op ∈ ops → ∃ p, op = .val p false := fun o ho => hins o (List.mem_cons_of_mem _ ho)
    cases op with
    | insert op =>
      obtain ⟨p, rfl⟩ := hins op (by simp)
      have step : ∀ m1 d1 b, InsOp.exec m0 d0 (.val p false) = .ok (m1, d1, b) → Consistent m1 d1 → Numbered m1 d1 → Numbered m d := by
        intro m1 d1 b e hc hn
        refine ih m1 d1 hc hn hins' ?_ (by simpa only [runOps, e, Res_bind_ok] using hrun)
        intro pre pid suf m2 d2 he hr
        exact hrem (.insert (.val p false) :: pre) pid suf m2 d2 (by rw [he]; rfl) (by simpa only [runOps, e, Res_bind_ok] using hr)
      rcases insert_fresh h0 p with ⟨e, -, -, hs⟩ | ⟨m1, d1, e, hc, hs⟩
      · exact step _ _ _ e (consistent_alloc h0 [p]) (by unfold Numbered at *; rw [hs]; exact hn0)
      · refine step _ _ _ e hc ?_
        unfold Numbered at *
        rw [hs, List.map_append, hn0, List.length_append, List.length_singleton, List.range_succ, List.map_append]
        rfl
    | remove pid =>
      have hp := hrem [] pid ops m0 d0 rfl rfl
      have step : ∀ d1 b, removePoint m0 d0 pid = .ok (d1, b) → Consistent m0 d1 → Numbered m0 d1 → Numbered m d := by
        intro d1 b e hc hn
        refine ih m0 d1 hc hn hins' ?_ (by simpa only [runOps, e, Res_bind_ok] using hrun)
        intro pre pid' suf m2 d2 he hr
        exact hrem (.remove pid :: pre) pid' suf m2 d2 (by rw [he]; rfl) (by simpa only [runOps, e, Res_bind_ok] using hr)
      have hlen : (samples m0 d0).length = d0.size := h0.livePts.length
      by_cases hemp : d0.points = []
      · have : d0.msize = 0 := by rw [h0.msize, hemp]; rfl
        simp [runOps, removePoint, this] at hrun
      · have hne : samples m0 d0 ≠ [] := by
          intro he
          rw [he] at hlen
          exact hemp (List.length_eq_zero_iff.1 hlen.symm)
        have hlast := List.getLast?_eq_some_getLast hne
        obtain ⟨hl, hpos⟩ := numbered_last hn0 hlast
        by_cases hc : d0.size = 1 ∨ pid ≤ 0 ∨ (((samples m0 d0).getLast hne).id : Int) < pid
        · exact step _ _ (removePoint_refused h0 hlast hc) h0 hn0
        · have hpid : pid = ((d0.size - 1 + 1 : ℕ) : ℤ) := by omega
          have hk : d0.size - 1 < (samples m0 d0).length := by omega
          have hfind := numbered_find hn0 (d0.size - 1) hk
          obtain ⟨d1, e1, e2, e3, -⟩ := removePoint_present h0 (pid := pid) (k := d0.size - 1) (by omega) hlast (by omega) (by omega)
            (by rw [hpid]; simpa using hfind)
          refine step _ _ e1 e3 ?_
          unfold Numbered at *
          have hdl : samples m0 d1 = (samples m0 d0).dropLast := by
            rw [e2, ← hlen, List.eraseIdx_length_sub_one]
          rw [hdl, List.map_dropLast, hn0, List.length_dropLast, ← List.map_dropLast]
          congr 1
          obtain ⟨r, hr⟩ : ∃ r, (samples m0 d0).length = r + 1 := ⟨(samples m0 d0).length - 1, by omega⟩
          rw [hr, List.range_succ, List.dropLast_concat]
          rfl

/-- Three insertions; the last sample is removed twice, and two more are inserted. -/
example : ∃ m d, runOps (T := Int) [] Data.empty
    [.insert (.val ⟨[1], 1, 0, 0⟩ false), .insert (.val ⟨[2], -1, 0, 0⟩ false), .insert (.val ⟨[3], 1, 0, 0⟩ false), .remove 3, .remove 2,
     .insert (.val ⟨[4], 1, 0, 0⟩ false), .insert (.val ⟨[5], 1, 0, 0⟩ false)] = .ok (m, d) ∧ (samples m d).map Pt.id = [1, 2, 3] :=
  ⟨_, _, rfl, rfl⟩

end MLTK.Props
