import Verif.Lemmas.DataInsert
/-!
# C01, C02: histories of insertions
-/
namespace MLTK.Props
open MLTK MLTK.Data MLTK.Spec

variable {T : Type}

/-- **C01** For every sequence of `insertPoint` calls on a fresh dataset (by value or by live pointer,
with any `keepIndex` flags): every call returns, reports acceptance exactly for the points having the
first point's dimension, and the dataset holds exactly those points in order, with a correct class
table in order of first appearance and index `0..n-1`. -/
theorem C01_insert_history (m0 : Mem T) (ops : List (InsOp T))
    (hlive : ∀ op ∈ ops, ∃ p, op.payload m0 = some p) :
    ∃ m d flags, runInserts m0 Data.empty ops = .ok (m, d, flags) ∧
      flags = (given m0 ops).map (fun g => decide (g.1.x.length = firstDim (given m0 ops))) ∧
      d.size = (conforming (given m0 ops)).length ∧
      (samples m d).map content = (conforming (given m0 ops)).map (fun g => content g.1) ∧
      ClassTable (labels m d) d.classes d.dist ∧
      FirstAppearanceOrder (labels m d) d.classes ∧
      d.index = (List.range d.size).map Int.ofNat := by
  obtain ⟨m, d, flags, hr, hi, _, acc, hacc, hD⟩ :=
    run_general ops m0 m0 Data.empty (inv_empty m0) ⟨[], by simp [SameUpToIds]⟩ hlive
  obtain ⟨h1, h2⟩ := hD (firstDim (given m0 ops)) (fun h => absurd rfl h) (by
    intro _ op p ho hp
    cases ops with
    | nil => simp at ho
    | cons o os =>
      simp at ho; subst ho
      simp [firstDim, given, hp])
  have hacc' : (samples m d).map content
      = (conforming (given m0 ops)).map (fun g => content g.1) := by
    rw [hacc, h1, given_payloads, conforming]
    simp [samples, Data.empty, List.filter_map, Function.comp_def]
  refine ⟨m, d, flags, hr, ?_, ?_, hacc', hi.table, hi.order, ?_⟩
  · rw [h2, given_payloads]; simp
  · have hl := congrArg List.length hacc'
    simp only [List.length_map] at hl
    rw [← hl]
    unfold size samples
    rw [List.length_filterMap_eq_countP]
    symm
    rw [List.countP_eq_length]
    intro r hr'
    have := hi.valid r hr'
    simp [this]
  · rw [hi.index]
    simp [iota, size]

/-- **C01 (ids)** If moreover no pointer is handed over twice, the stored samples are exactly the
conforming points, the `i`-th (from 0) renumbered to id `i+1` unless `keepIndex` was set. -/
theorem C01_insert_ids (m0 : Mem T) (ops : List (InsOp T))
    (hlive : ∀ op ∈ ops, ∃ p, op.payload m0 = some p)
    (hdistinct : (ops.filterMap InsOp.ref?).Nodup) :
    ∃ m d flags, runInserts m0 Data.empty ops = .ok (m, d, flags) ∧
      samples m d = (conforming (given m0 ops)).mapIdx
        (fun i g => if g.2 then g.1 else { g.1 with id := i + 1 }) := by
  obtain ⟨m, d, flags, hr, hs⟩ := run_exact ops m0 (firstDim (given m0 ops)) m0 Data.empty
    (inv_empty m0) (by simp [Data.empty]) (fun h => absurd rfl h) (by
      intro _ op p ho hp
      cases ops with
      | nil => simp at ho
      | cons o os =>
        simp at ho; subst ho
        simp [firstDim, given, hp]) hlive hdistinct (fun r _ => ⟨by simp [Data.empty], rfl⟩)
  refine ⟨m, d, flags, hr, ?_⟩
  rw [hs, List.mapIdx_eq_zipIdx_map]
  simp [samples, Data.empty, conforming]

/-- The hypotheses of C01 hold for a non-trivial history (value and pointer insertions, a rejected
point, a repeated class), and the outcome is the expected one. -/
example :
    let m0 : Mem Int := [⟨[7, 8], -1, 0, 40⟩]
    let ops : List (InsOp Int) := [.val ⟨[1, 2], 1, 0, 9⟩ false, .ptr 0 false,
      .val ⟨[1], 1, 0, 9⟩ false, .val ⟨[3, 4], 1, 0, 9⟩ true]
    (∀ op ∈ ops, ∃ p, op.payload m0 = some p) ∧ (ops.filterMap InsOp.ref?).Nodup ∧
    ∃ m d, runInserts m0 Data.empty ops = .ok (m, d, [true, true, false, true]) ∧
      samples m d = [⟨[1, 2], 1, 0, 1⟩, ⟨[7, 8], -1, 0, 2⟩, ⟨[3, 4], 1, 0, 9⟩] ∧
      d.classes = [1, -1] ∧ d.dist = [2, 1] := by
  refine ⟨by simp [InsOp.payload], by decide, _, _, rfl, rfl, rfl, rfl⟩

/-- Inserting the *same pointer* twice is outside `C01_insert_ids`, and rightly so: both entries show
the later id, so ids are not `1..n`. -/
theorem C01_ids_shared_pointer_refuted :
    ∃ m d, runInserts (T := Int) [⟨[5], 1, 0, 0⟩] Data.empty [.ptr 0 false, .ptr 0 false]
        = .ok (m, d, [true, true]) ∧ (samples m d).map Pt.id = [2, 2] :=
  ⟨_, _, rfl, rfl⟩

/-- **C02** In every dataset reached by insertions, `insertPoint` returns `false` exactly when the
dataset is non-empty and the point's dimension differs from `dim()`, and then nothing changes:
neither the heap nor the dataset. -/
theorem C02_wrong_dimension (m0 : Mem T) (ops : List (InsOp T))
    (hlive : ∀ op ∈ ops, ∃ p, op.payload m0 = some p)
    (m : Mem T) (d : Data) (flags : List Bool) (hrun : runInserts m0 Data.empty ops = .ok (m, d, flags))
    (r : Nat) (p : Pt T) (hr : m[r]? = some p) (keep : Bool) :
    ∃ m' d' b n, dim m d = .ok n ∧ insertPtr m d r keep = .ok (m', d', b) ∧
      (b = false ↔ d.size > 0 ∧ p.x.length ≠ n) ∧
      (b = false → m' = m ∧ d' = d) ∧
      (b = true → d'.points = d.points ++ [r]) ∧
      (∀ q ∈ samples m' d', dim m' d' = .ok q.x.length) := by
  obtain ⟨m1, d1, f1, hr1, hi, _⟩ :=
    run_general ops m0 m0 Data.empty (inv_empty m0) ⟨[], by simp [SameUpToIds]⟩ hlive
  rw [hrun] at hr1
  obtain ⟨rfl, rfl, rfl⟩ : m = m1 ∧ d = d1 ∧ flags = f1 := by
    simpa using hr1
  by_cases hd : d.points = [] ∨ p.x.length = d.mdim
  · obtain ⟨m', d', hc, ha⟩ := insertPtr_accepted hi hr keep hd
    refine ⟨m', d', true, d.mdim, dim_of_inv hi, hc, ?_, by simp, fun _ => ha.points, ?_⟩
    · simp only [Bool.true_eq_false, false_iff, not_and, ne_eq, not_not]
      intro hs
      rcases hd with h0 | h0
      · simp [size, h0] at hs
      · exact h0
    · intro q hq
      rw [dim_of_inv ha.inv, ha.inv.dims q hq]
  · have hne : d.points ≠ [] := fun h0 => hd (Or.inl h0)
    have hmd : p.x.length ≠ d.mdim := fun h0 => hd (Or.inr h0)
    refine ⟨m, d, false, d.mdim, dim_of_inv hi, insertPtr_reject hi hr keep hne hmd, ?_, by simp,
      by simp, ?_⟩
    · simp [size, List.length_pos_iff, hne, hmd]
    · intro q hq
      rw [dim_of_inv hi, hi.dims q hq]

/-- C02's hypotheses are met by a non-empty dataset and a live point of another dimension. -/
example : ∃ m d fl, runInserts (T := Int) [⟨[5], 1, 0, 0⟩] Data.empty [.val ⟨[1, 2], 1, 0, 9⟩ false]
    = .ok (m, d, fl) ∧ m[0]? = some ⟨[5], 1, 0, 0⟩ ∧ d.size = 1 := ⟨_, _, _, rfl, rfl, rfl⟩

/-- **C01 (types)** The first sample enters a dataset of any type; its label is recorded as a class exactly for the three
classification types. -/
theorem C01_types (m : Mem T) (t : String) (p : Pt T) (keep : Bool) :
    ∃ m' d', insertVal m { Data.empty with type := t } p keep = .ok (m', d', true) ∧ d'.type = t ∧
      (samples m' d').map content = [content p] ∧
      (d'.classes, d'.dist, d'.classNames) =
        if t = "Classification" ∨ t = "BinClassification" ∨ t = "MultiClassification" then ([p.y], [1], [toString p.y])
        else ([], [], []) := by
  have hr : (m ++ [p])[m.length]? = some p := by simp
  have hset : ∀ q : Pt T, (m ++ [p]).set m.length q = m ++ [q] := by intro q; simp
  by_cases ht : t = "Classification" ∨ t = "BinClassification" ∨ t = "MultiClassification"
  · have hc : isClassification { Data.empty with type := t } = true := by
      rcases ht with rfl | rfl | rfl <;> rfl
    have hc' : (pushed { Data.empty with type := t } m.length p.x.length).isClassification = true := hc
    have hv : vget (pushed { Data.empty with type := t } m.length p.x.length).points
        ((pushed { Data.empty with type := t } m.length p.x.length).msize - 1) = .ok m.length := rfl
    rw [if_pos ht]
    cases keep <;>
      simp [insertVal, insertPtr, deref_of_get hr, dim, Data.empty, size, pushClass, hc', hv, insertClass, pushed, classPos, assignId,
        vget, samples, content, isClassification] <;>
      (rcases ht with rfl | rfl | rfl <;> simp [insertClass, classPos, vget, deref_of_get hr, samples, content])
  · have hc : isClassification { Data.empty with type := t } = false := by
      simp only [not_or] at ht
      simp [isClassification, ht.1, ht.2.1, ht.2.2]
    have hc' : (pushed { Data.empty with type := t } m.length p.x.length).isClassification = false := hc
    rw [if_neg ht]
    simp only [not_or] at ht
    cases keep <;>
      simp [insertVal, insertPtr, deref_of_get hr, dim, Data.empty, size, pushClass, hc', pushed, assignId,
        vget, samples, content, isClassification, ht.1, ht.2.1, ht.2.2]

end MLTK.Props
