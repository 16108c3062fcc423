import Verif.Model.DistanceMatrix
import Verif.Spec.DistanceMatrix
import Verif.Props.ThreadPool
import Verif.Lemmas.Util
/-!
# C30: the parallel distance matrix
-/
namespace MLTK.Props
open MLTK.DistMat MLTK.Spec MLTK.Pool
open MLTK.Data (Res_bind_ok Res_bind_error Res_pure)

/-- An action touches exactly this row. -/
def rowOf {K : Type} : Action K → Nat
  | .alloc i _ => i
  | .write r _ _ => r

/-- Effect of an action on the row it touches. -/
def actRow {K : Type} [Zero K] (row : List K) : Action K → Res (List K)
  | .alloc _ len => .ok (List.replicate len 0)
  | .write _ c v => vset row c v

theorem act_local {K : Type} [Zero K] (rows : List (List K)) (a : Action K) (row row' : List K)
    (h : rows[rowOf a]? = some row) (h' : actRow row a = .ok row') :
    act rows a = .ok (rows.set (rowOf a) row') := by
  obtain ⟨hlt, -⟩ := List.getElem?_eq_some_iff.mp h
  cases a with
  | alloc i len =>
    simp only [actRow, Except.ok.injEq] at h'
    subst h'
    simp only [rowOf] at hlt ⊢
    simp [act, vset, hlt]
  | write r c v =>
    simp only [rowOf, actRow] at h h' hlt ⊢
    simp only [act, vget, h, Res_bind_ok, h']
    simp [vset, hlt]

/-- If every row's own actions succeed, any order of the actions that keeps each row's order gives the
same matrix. -/
theorem perform_rows {K : Type} [Zero K] (l : List (Action K)) (rows : List (List K))
    (hin : ∀ a ∈ l, rowOf a < rows.length)
    (res : Nat → List K)
    (hres : ∀ r row, rows[r]? = some row →
      (l.filter (fun a => rowOf a = r)).foldlM actRow row = .ok (res r)) :
    l.foldlM act rows = .ok ((List.range rows.length).map res) := by
  induction l generalizing rows with
  | nil =>
    show Except.ok rows = _
    congr 1
    apply List.ext_getElem?
    intro r
    by_cases hr : r < rows.length
    · have := hres r rows[r] (List.getElem?_eq_getElem hr)
      simp only [List.filter_nil, List.foldlM_nil, Res_pure, Except.ok.injEq] at this
      rw [List.getElem?_eq_getElem hr, this]
      simp [hr]
    · rw [List.getElem?_eq_none (by omega), List.getElem?_eq_none (by simp; omega)]
  | cons a l ih =>
    have hlt := hin a (by simp)
    have h1 := hres (rowOf a) rows[rowOf a] (List.getElem?_eq_getElem hlt)
    simp only [List.filter_cons, decide_true, if_true, List.foldlM_cons] at h1
    cases hr : actRow rows[rowOf a] a with
    | error e => rw [hr] at h1; simp at h1
    | ok row' =>
      rw [hr, Res_bind_ok] at h1
      rw [List.foldlM_cons, act_local rows a _ row' (List.getElem?_eq_getElem hlt) hr, Res_bind_ok]
      have := ih (rows.set (rowOf a) row') (by intro b hb; simpa using hin b (by simp [hb])) (by
        intro r row hrow
        by_cases hra : r = rowOf a
        · subst hra
          rw [List.getElem?_set_self hlt] at hrow
          cases hrow
          exact h1
        · rw [List.getElem?_set_ne (Ne.symm hra)] at hrow
          have h2 := hres r row hrow
          rwa [List.filter_cons, if_neg (by simpa using Ne.symm hra)] at h2)
      simpa using this

theorem interleaving_mem {α : Type} {ps : List (List α)} {l : List α} (h : Interleaving ps l) (a : α) :
    a ∈ l ↔ ∃ p ∈ ps, a ∈ p := by
  induction h with
  | done ps h =>
    constructor
    · simp
    · rintro ⟨p, hp, ha⟩; rw [h p hp] at ha; simp at ha
  | turn ps i b rest l hi next ih =>
    obtain ⟨x, y, e1, e2, -⟩ := set_split ps i _ rest hi
    rw [List.mem_cons, ih, e2, e1]
    simp only [List.mem_append, List.mem_cons]
    constructor
    · rintro (rfl | ⟨p, hp | rfl | hp, ha⟩)
      · exact ⟨_, Or.inr (Or.inl rfl), by simp⟩
      · exact ⟨p, Or.inl hp, ha⟩
      · exact ⟨_, Or.inr (Or.inl rfl), by simp [ha]⟩
      · exact ⟨p, Or.inr (Or.inr hp), ha⟩
    · rintro ⟨p, hp | rfl | hp, ha⟩
      · exact Or.inr ⟨p, Or.inl hp, ha⟩
      · rcases List.mem_cons.mp ha with rfl | ha
        · exact Or.inl rfl
        · exact Or.inr ⟨rest, Or.inr (Or.inl rfl), ha⟩
      · exact Or.inr ⟨p, Or.inr (Or.inr hp), ha⟩

/-- The actions selected by a predicate that only one program satisfies keep that program's order. -/
theorem interleaving_filter {α : Type} {ps : List (List α)} {l : List α} (h : Interleaving ps l)
    (p : α → Bool) (i : Nat) (q : List α) (hi : ps[i]? = some q)
    (hp : ∀ j r, j ≠ i → ps[j]? = some r → ∀ a ∈ r, p a = false) :
    l.filter p = q.filter p := by
  induction h generalizing q with
  | done ps h =>
    rw [h q (List.mem_of_getElem? hi)]
  | turn ps j a rest l hj next ih =>
    obtain ⟨hlt, -⟩ := List.getElem?_eq_some_iff.mp hj
    by_cases hij : j = i
    · subst hij
      rw [hj] at hi
      cases hi
      have := ih rest (by rw [List.getElem?_set_self hlt]) (by
        intro k r hk hr
        rw [List.getElem?_set_ne (Ne.symm hk)] at hr
        exact hp k r hk hr)
      rw [List.filter_cons, List.filter_cons, this]
    · have hpa : p a = false := hp j (a :: rest) hij hj a (by simp)
      rw [List.filter_cons, hpa]
      simp only [Bool.false_eq_true, if_false]
      apply ih q (by rw [List.getElem?_set_ne hij]; exact hi)
      intro k r hk hr
      by_cases hkj : k = j
      · subst hkj
        rw [List.getElem?_set_self hlt] at hr
        cases hr
        intro b hb
        exact hp k _ hk hj b (by simp [hb])
      · rw [List.getElem?_set_ne (Ne.symm hkj)] at hr
        exact hp k r hk hr

/-- `Id() = position + 1`, the numbering that loading or inserting samples produces. -/
def OrdinalIds (ids : List Nat) : Prop := ids = (List.range ids.length).map (· + 1)

theorem slot_ordinal {ids : List Nat} (h : OrdinalIds ids) (i : Nat) (hi : i < ids.length) :
    slot ids i = i := by
  have : ids.getD i 0 = i + 1 := by
    rw [h]; simp [hi]
  simp [slot, this, decSize, -List.getD_eq_getElem?_getD]

theorem rowProg_row {K : Type} {ids : List Nat} (h : OrdinalIds ids) (d : Nat → Nat → K) (tri : Bool)
    (idx : Nat) (hi : idx < ids.length) : ∀ a ∈ rowProg ids d tri idx, rowOf a = idx := by
  intro a ha
  simp only [rowProg, List.mem_append, List.mem_singleton, List.mem_map] at ha
  rcases ha with (rfl | ⟨j, _, rfl⟩) | ha
  · rfl
  · exact slot_ordinal h idx hi
  · split at ha
    · simp at ha
    · simp only [List.mem_map] at ha
      obtain ⟨j, _, rfl⟩ := ha
      exact slot_ordinal h idx hi

/-- Successive writes `row[j] = f j` for the `j` of a list. -/
theorem writes_row {K : Type} [Zero K] (f : Nat → K) (r : Nat) (js : List Nat) (row : List K)
    (hj : ∀ j ∈ js, j < row.length) :
    ∃ row', (js.map (fun j => Action.write r j (f j))).foldlM actRow row = .ok row' ∧
      row'.length = row.length ∧
      ∀ c, row'[c]? = if c ∈ js then (if c < row.length then some (f c) else none) else row[c]? := by
  induction js generalizing row with
  | nil => exact ⟨row, rfl, rfl, by simp⟩
  | cons j js ih =>
    have h0 := hj j (by simp)
    obtain ⟨row', h1, h2, h3⟩ := ih (row.set j (f j)) (by intro k hk; simpa using hj k (by simp [hk]))
    refine ⟨row', ?_, by simpa using h2, ?_⟩
    · rw [List.map_cons, List.foldlM_cons]
      simp only [actRow, vset, h0, if_true, Res_bind_ok]
      exact h1
    · intro c
      rw [h3 c]
      simp only [List.length_set, List.mem_cons]
      by_cases hc : c ∈ js
      · simp [hc]
      · by_cases hcj : c = j
        · subst hcj; simp [hc, h0]
        · simp [hc, hcj, Ne.symm hcj]

/-- The value the row program leaves in its row. -/
theorem rowProg_result {K : Type} [Zero K] {ids : List Nat} (h : OrdinalIds ids) (d : Nat → Nat → K)
    (tri : Bool) (idx : Nat) (hi : idx < ids.length) (row : List K) :
    (rowProg ids d tri idx).foldlM actRow row = .ok
      ((List.range (if tri then idx + 1 else ids.length)).map
        (fun j => if j = idx then 0 else d idx j)) := by
  have hs := slot_ordinal h
  set js := List.range idx ++ (if tri then [] else List.range' (idx + 1) (ids.length - (idx + 1))) with hjs
  have hprog : rowProg ids d tri idx =
      Action.alloc idx (if tri then idx + 1 else ids.length) ::
        js.map (fun j => Action.write idx j (d idx j)) := by
    simp only [rowProg, List.cons_append, List.nil_append, hjs, List.map_append]
    congr 1
    congr 1
    · apply List.map_congr_left
      intro j hj
      rw [hs idx hi, hs j (by have := List.mem_range.mp hj; omega)]
    · split
      · rfl
      · apply List.map_congr_left
        intro j hj
        rw [hs idx hi, hs j (by have := List.mem_range'_1.mp hj; omega)]
  rw [hprog, List.foldlM_cons]
  simp only [actRow, Res_bind_ok]
  obtain ⟨row', h1, h2, h3⟩ := writes_row (d idx) idx js
    (List.replicate (if tri then idx + 1 else ids.length) (0 : K)) (by
      intro j hj
      rw [hjs] at hj
      simp only [List.length_replicate]
      rcases List.mem_append.mp hj with hj | hj
      · have := List.mem_range.mp hj
        split <;> omega
      · split at hj
        · simp at hj
        · rename_i ht
          have := List.mem_range'_1.mp hj
          simp [ht]; omega)
  rw [h1]
  congr 1
  apply List.ext_getElem?
  intro c
  rw [h3 c]
  have hmem : c ∈ js ↔ (c < idx ∨ (tri = false ∧ idx < c ∧ c < ids.length)) := by
    rw [hjs]
    cases tri <;> simp [List.mem_range'_1] <;> omega
  by_cases hc : c < (if tri then idx + 1 else ids.length)
  · have hc' : c < ids.length := by
      cases tri <;> simp at hc <;> omega
    by_cases hm : c ∈ js
    · have hne : c ≠ idx := by have := hmem.mp hm; omega
      simp [hm, hc, hne]
    · have hne : c = idx := by
        by_contra hne
        apply hm
        apply hmem.mpr
        cases tri <;> simp only [Bool.false_eq_true, if_false, if_true, true_and, reduceCtorEq, false_and, or_false] at hc ⊢ <;> omega
      subst hne
      simp [hm, hc]
  · have hm : c ∉ js ∨ c ∈ js := by tauto
    simp [hc]

/-- C30: give the pool any number of threads and let the block tasks interleave in any way.  If the
samples carry the ids `1..n` of their positions then the matrix construction never leaves the bounds,
and entry `(i, j)` ends up as the distance from sample `i` to sample `j` for every `i ≠ j` (for `j < i`
when only the lower triangle is stored), the diagonal being zero. -/
theorem C30_schedule_independent_partial {K : Type} [Zero K] (ids : List Nat) (d : Nat → Nat → K)
    (tri : Bool) (threads hw : Nat) (hthreads : 0 < threads ∨ 0 < hw) (hids : OrdinalIds ids) :
    ∃ ps, tasks ids d tri threads hw = .ok ps ∧
      ∀ l, Interleaving ps l → ∃ m, perform ids.length l = .ok m ∧ m.length = ids.length ∧
        ∀ i, i < ids.length → ∃ row, m[i]? = some row ∧
          row.length = (if tri then i + 1 else ids.length) ∧
          ∀ j, j < row.length → row[j]? = some (if j = i then 0 else d i j) := by
  obtain ⟨bs, hb1, hb2, hb3, -, -⟩ := C33_tiling 0 ids.length (if threads = 0 then hw else threads) threads
    (by by_cases h : threads = 0 <;> simp [h] <;> omega)
  refine ⟨bs.map (blockProg ids d tri), by simp [tasks, hb1, Res_pure], ?_⟩
  intro l hl
  have hbmem : ∀ b ∈ bs, ∀ x : Int, b.1 ≤ x → x < b.2 → 0 ≤ x ∧ x < ids.length := by
    intro b hb x h1 h2
    have : x ∈ indices (min 0 (ids.length : Int)) (max 0 ids.length) := by
      rw [← hb2, List.mem_flatMap]
      refine ⟨b, hb, ?_⟩
      simp only [indices, List.mem_map, List.mem_range]
      exact ⟨(x - b.1).toNat, by omega, by omega⟩
    simp only [indices, List.mem_map, List.mem_range] at this
    obtain ⟨k, hk, rfl⟩ := this
    omega
  have hnn : ∀ b ∈ bs, 0 ≤ b.1 ∧ b.2 ≤ ids.length := by
    intro b hb
    have h3 := hb3 b hb
    have h4 := hbmem b hb b.1 (le_refl _) h3
    have h5 := hbmem b hb (b.2 - 1) (by omega) (by omega)
    omega
  have hrow : ∀ b ∈ bs, ∀ a ∈ blockProg ids d tri b, b.1 ≤ (rowOf a : Int) ∧ (rowOf a : Int) < b.2 ∧
      rowOf a < ids.length := by
    intro b hb a ha
    simp only [blockProg, List.mem_flatMap, List.mem_range'_1] at ha
    obtain ⟨idx, hidx, ha⟩ := ha
    have h1 := hnn b hb
    rw [rowProg_row hids d tri idx (by omega) a ha]
    omega
  have hcount := C33_exactly_one 0 ids.length (if threads = 0 then hw else threads) threads
    (by by_cases h : threads = 0 <;> simp [h] <;> omega) bs hb1
  let res : Nat → List K := fun i =>
    (List.range (if tri then i + 1 else ids.length)).map (fun j => if j = i then 0 else d i j)
  have hperf : perform ids.length l = .ok ((List.range ids.length).map res) := by
    have := perform_rows l (List.replicate ids.length ([] : List K)) (by
      intro a ha
      obtain ⟨p, hp, ha⟩ := (interleaving_mem hl a).mp ha
      obtain ⟨b, hb, rfl⟩ := List.mem_map.mp hp
      simpa using (hrow b hb a ha).2.2) res (by
      intro r row hr
      have hr' : r < ids.length := by
        have := (List.getElem?_eq_some_iff.mp hr).1
        simpa using this
      -- the block holding row r
      have hc := hcount r
      rw [if_pos (by omega)] at hc
      obtain ⟨b, hb, hbr⟩ := List.countP_pos_iff.mp (by rw [hc]; omega)
      simp only [decide_eq_true_eq] at hbr
      obtain ⟨k, hk, hkb⟩ := List.getElem_of_mem hb
      have hkb' : bs[k]? = some b := by rw [List.getElem?_eq_getElem hk, hkb]
      have hf := interleaving_filter hl (fun a => decide (rowOf a = r)) k (blockProg ids d tri b)
        (by rw [List.getElem?_map, hkb']; rfl) (by
          intro j q hj hq a ha
          rw [List.getElem?_map] at hq
          cases hbj : bs[j]? with
          | none => rw [hbj] at hq; simp at hq
          | some b' =>
            rw [hbj] at hq
            simp only [Option.map_some, Option.some.injEq] at hq
            subst hq
            have h1 := hrow b' (List.mem_of_getElem? hbj) a ha
            simp only [decide_eq_false_iff_not]
            intro heq
            rw [heq] at h1
            -- two blocks would contain r
            have hone : ∀ (L : List (Int × Int)) (x y : Nat) (bx by' : Int × Int), x ≠ y →
                L[x]? = some bx → L[y]? = some by' → (bx.1 ≤ (r:Int) ∧ (r:Int) < bx.2) →
                (by'.1 ≤ (r:Int) ∧ (r:Int) < by'.2) →
                2 ≤ L.countP (fun b => decide (b.1 ≤ (r:Int) ∧ (r:Int) < b.2)) := by
              intro L
              induction L with
              | nil => intro x y bx by' _ h; simp at h
              | cons c L ih =>
                intro x y bx by' hxy hx hy h1 h2
                rw [List.countP_cons]
                cases x with
                | zero =>
                  cases y with
                  | zero => exact absurd rfl hxy
                  | succ y =>
                    simp at hx hy; subst hx
                    have : 0 < L.countP (fun b => decide (b.1 ≤ (r:Int) ∧ (r:Int) < b.2)) :=
                      List.countP_pos_iff.mpr ⟨by', List.mem_of_getElem? hy, by simpa using h2⟩
                    rw [if_pos (by simpa using h1)]; omega
                | succ x =>
                  cases y with
                  | zero =>
                    simp at hx hy; subst hy
                    have : 0 < L.countP (fun b => decide (b.1 ≤ (r:Int) ∧ (r:Int) < b.2)) :=
                      List.countP_pos_iff.mpr ⟨bx, List.mem_of_getElem? hx, by simpa using h1⟩
                    rw [if_pos (by simpa using h2)]; omega
                  | succ y =>
                    simp at hx hy
                    have := ih x y bx by' (by omega) hx hy h1 h2
                    omega
            have := hone bs j k b' b hj hbj hkb' ⟨h1.1, h1.2.1⟩ hbr
            omega)
      rw [hf]
      -- the row's actions inside its block
      have hfb : (blockProg ids d tri b).filter (fun a => decide (rowOf a = r)) = rowProg ids d tri r := by
        have hnb := hnn b hb
        have gen : ∀ (s m : Nat), s + m ≤ ids.length →
            ((List.range' s m).flatMap (rowProg ids d tri)).filter (fun a => decide (rowOf a = r)) =
              if s ≤ r ∧ r < s + m then rowProg ids d tri r else [] := by
          intro s m
          induction m generalizing s with
          | zero => intro _; simp
          | succ m ih =>
            intro hsm
            rw [List.range'_succ, List.flatMap_cons, List.filter_append, ih (s+1) (by omega)]
            by_cases hsr : s = r
            · subst hsr
              rw [if_neg (by omega), if_pos (by omega), List.append_nil, List.filter_eq_self]
              intro a ha
              simpa using rowProg_row hids d tri s (by omega) a ha
            · have : (rowProg ids d tri s).filter (fun a => decide (rowOf a = r)) = [] := by
                rw [List.filter_eq_nil_iff]
                intro a ha
                rw [rowProg_row hids d tri s (by omega) a ha]
                simpa using hsr
              rw [this, List.nil_append]
              by_cases h : s + 1 ≤ r ∧ r < s + 1 + m
              · rw [if_pos h, if_pos (by omega)]
              · rw [if_neg h, if_neg (by omega)]
        rw [blockProg, gen _ _ (by omega), if_pos (by omega)]
      rw [hfb]
      exact rowProg_result hids d tri r hr' row)
    simpa [perform] using this
  refine ⟨_, hperf, by simp, ?_⟩
  intro i hi
  refine ⟨res i, by simp [hi], by simp [res], ?_⟩
  intro j hj
  have : j < (if tri then i + 1 else ids.length) := by simpa [res] using hj
  simp [res, this]

/-- C30: the tasks are free of data races on the matrix: distinct tasks touch distinct rows. -/
theorem C30_race_free {K : Type} (ids : List Nat) (d : Nat → Nat → K) (tri : Bool) (threads hw : Nat)
    (hthreads : 0 < threads ∨ 0 < hw) (hids : OrdinalIds ids) (ps : List (List (Action K)))
    (hps : tasks ids d tri threads hw = .ok ps) (x y : Nat) (hxy : x < y) (p q : List (Action K))
    (hp : ps[x]? = some p) (hq : ps[y]? = some q) (a b : Action K) (ha : a ∈ p) (hb : b ∈ q) :
    rowOf a < rowOf b := by
  obtain ⟨bs, hb1, hb2, hb3, -, -⟩ := C33_tiling 0 ids.length (if threads = 0 then hw else threads) threads
    (by by_cases h : threads = 0 <;> simp [h] <;> omega)
  have hpe : ps = bs.map (blockProg ids d tri) := by
    have : tasks ids d tri threads hw = .ok (bs.map (blockProg ids d tri)) := by simp [tasks, hb1, Res_pure]
    rw [hps] at this; cases this; rfl
  subst hpe
  have hsort : (bs.flatMap (fun b => indices b.1 b.2)).Pairwise (· < ·) := by
    rw [hb2, indices, List.pairwise_map]
    exact List.pairwise_lt_range.imp (fun h => by omega)
  have hbnd : ∀ b ∈ bs, ∀ r : Int, b.1 ≤ r → r < b.2 → r ∈ indices b.1 b.2 := by
    intro b _ r h1 h2
    simp only [indices, List.mem_map, List.mem_range]
    exact ⟨(r - b.1).toNat, by omega, by omega⟩
  have hrange : ∀ b ∈ bs, 0 ≤ b.1 ∧ b.2 ≤ ids.length := by
    intro b hb
    have h3 := hb3 b hb
    have : ∀ r : Int, b.1 ≤ r → r < b.2 → 0 ≤ r ∧ r < ids.length := by
      intro r h1 h2
      have h4 : r ∈ indices (min 0 (ids.length : Int)) (max 0 ids.length) := by
        rw [← hb2, List.mem_flatMap]; exact ⟨b, hb, hbnd b hb r h1 h2⟩
      simp only [indices, List.mem_map, List.mem_range] at h4
      obtain ⟨k, hk, rfl⟩ := h4
      omega
    have h5 := this b.1 (le_refl _) h3
    have h6 := this (b.2 - 1) (by omega) (by omega)
    omega
  rw [List.getElem?_map] at hp hq
  cases hbx : bs[x]? with
  | none => rw [hbx] at hp; simp at hp
  | some bx =>
    cases hby : bs[y]? with
    | none => rw [hby] at hq; simp at hq
    | some by' =>
      rw [hbx] at hp; rw [hby] at hq
      simp only [Option.map_some, Option.some.injEq] at hp hq
      subst hp hq
      have row_in : ∀ b ∈ bs, ∀ a ∈ blockProg ids d tri b, (rowOf a : Int) ∈ indices b.1 b.2 := by
        intro b hb a ha
        simp only [blockProg, List.mem_flatMap, List.mem_range'_1] at ha
        obtain ⟨idx, hidx, ha⟩ := ha
        have h1 := hrange b hb
        rw [rowProg_row hids d tri idx (by omega) a ha]
        exact hbnd b hb _ (by omega) (by omega)
      have h1 := row_in bx (List.mem_of_getElem? hbx) a ha
      have h2 := row_in by' (List.mem_of_getElem? hby) b hb
      have : (rowOf a : Int) < rowOf b := by
        have hs := List.pairwise_flatMap.mp hsort
        obtain ⟨hx', ex⟩ := List.getElem?_eq_some_iff.mp hbx
        obtain ⟨hy', ey⟩ := List.getElem?_eq_some_iff.mp hby
        have := List.pairwise_iff_getElem.mp hs.2 x y hx' hy' hxy
        rw [ex, ey] at this
        exact this _ h1 _ h2
      exact_mod_cast this

example : OrdinalIds [1, 2, 3] := rfl
example : ∃ ps : List (List (Action Int)), tasks [1, 2, 3] (fun i j => (i : Int) * 10 + j) false 2 0 = .ok ps ∧
    ps.length = 2 ∧ perform 3 ps.flatten = .ok [[0, 1, 2], [10, 0, 12], [20, 21, 0]] :=
  ⟨_, rfl, rfl, by decide +kernel⟩

/-- C30 as stated for every dataset is false: after a shuffle the ids no longer equal the positions,
and already with two samples and one thread the construction indexes an empty row. -/
theorem C30_shuffled_ids_refuted :
    ¬ ∀ (ids : List Nat) (d : Nat → Nat → Int), ids.Perm ((List.range ids.length).map (· + 1)) →
      ∀ ps, tasks ids d false 1 0 = .ok ps → ∀ l, Interleaving ps l →
        ∃ m, perform ids.length l = .ok m := by
  intro h
  obtain ⟨m, hm⟩ := h [2, 1] (fun i j => (i : Int) + j) (List.Perm.swap 1 2 []) _ rfl
    [.alloc 0 2, .write 1 0 1, .alloc 1 2, .write 0 1 1]
    (.turn _ 0 _ _ _ rfl (.turn _ 0 _ _ _ rfl (.turn _ 0 _ _ _ rfl (.turn _ 0 _ _ _ rfl
      (.done _ (by decide))))))
  revert hm
  have : perform 2 ([.alloc 0 2, .write 1 0 1, .alloc 1 2, .write 0 1 1] : List (Action Int)) =
      .error .outOfBounds := by decide +kernel
  rw [show ([2, 1] : List Nat).length = 2 from rfl, this]
  intro h; cases h

end MLTK.Props
