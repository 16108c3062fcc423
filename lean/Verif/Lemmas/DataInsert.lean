import Verif.Lemmas.Data
namespace MLTK.Data
open MLTK.Spec

variable {T : Type}

theorem insertVal_accepted {m : Mem T} {d : Data} (h : Inv m d) (p : Pt T)
    (keep : Bool) (hd : d.points = [] ∨ p.x.length = d.mdim) :
    ∃ m' d', insertVal m d p keep = .ok (m', d', true) ∧
      Accepted (m ++ [p]) d m.length p keep m' d' :=
  insertPtr_accepted (h.alloc [p]) (by simp) keep hd

/-- Generalised history statement: from any state satisfying the invariant. -/
theorem run_general (ops : List (InsOp T)) :
    ∀ (m0 m : Mem T) (d : Data), Inv m d →
      (∃ e, SameUpToIds (m0 ++ e) m) →
      (∀ op ∈ ops, ∃ p, op.payload m0 = some p) →
      ∃ m' d' flags, runInserts m d ops = .ok (m', d', flags) ∧ Inv m' d' ∧
        (∃ e, SameUpToIds (m ++ e) m') ∧
        ∃ acc : List (Pt T),
          (samples m' d').map content = (samples m d).map content ++ acc.map content ∧
          (∀ D, (d.points ≠ [] → d.mdim = D) →
            (d.points = [] → ∀ op p, ops.head? = some op → op.payload m0 = some p → p.x.length = D) →
            acc = (ops.filterMap (InsOp.payload m0)).filter (fun p => p.x.length = D) ∧
            flags = (ops.filterMap (InsOp.payload m0)).map (fun p => decide (p.x.length = D))) := by
  induction ops with
  | nil =>
    intro m0 m d h _ _
    exact ⟨m, d, [], rfl, h, ⟨[], by simp [SameUpToIds]⟩, [], by simp, by simp⟩
  | cons op ops ih =>
    intro m0 m d h hs hv
    obtain ⟨e0, hs⟩ := hs
    obtain ⟨p, hp⟩ := hv op (by simp)
    have hrest : ∀ op ∈ ops, ∃ p, op.payload m0 = some p := fun o ho => hv o (by simp [ho])
    -- heap after a possible allocation, address of the point, and its content
    obtain ⟨m1, r, q, hcall, hext, hq, hqc⟩ : ∃ m1 r q,
        op.exec m d = insertPtr m1 d r op.keep ∧
        (∃ e, m1 = m ++ e) ∧ m1[r]? = some q ∧ content q = content p := by
      cases op with
      | val p' k =>
        simp [InsOp.payload] at hp; subst hp
        exact ⟨m ++ [p'], m.length, p', rfl, ⟨_, rfl⟩, by simp, rfl⟩
      | ptr r k =>
        simp [InsOp.payload] at hp
        have hl : r < m0.length := (List.getElem?_eq_some_iff.1 hp).1
        have hg := hs.get r
        rw [List.getElem?_append_left hl, hp] at hg
        cases hmr : m[r]? with
        | none => simp [hmr] at hg
        | some q =>
          simp [hmr] at hg
          exact ⟨m, r, q, rfl, ⟨[], by simp⟩, hmr, hg.symm⟩
    obtain ⟨e1, he1⟩ := hext
    have hx : q.x = p.x := by simp only [content, Prod.mk.injEq] at hqc; exact hqc.1
    have h1 : Inv m1 d := he1 ▸ h.alloc e1
    have hs1 : ∃ e, SameUpToIds (m0 ++ e) m1 := by
      refine ⟨e0 ++ e1, ?_⟩
      unfold SameUpToIds at *
      rw [he1, List.map_append (l₁ := m), ← hs]; simp
    have hsam : samples m1 d = samples m d := by rw [he1, samples_alloc h.valid]
    by_cases hd : d.points = [] ∨ q.x.length = d.mdim
    · obtain ⟨m2, d2, hc, ha⟩ := insertPtr_accepted h1 hq op.keep hd
      have hs2 : ∃ e, SameUpToIds (m0 ++ e) m2 := by
        obtain ⟨e, hs1⟩ := hs1
        exact ⟨e, hs1.trans ha.same⟩
      obtain ⟨m', d', flags, hr, hi, ⟨e3, hs3⟩, acc, hacc, hD⟩ := ih m0 m2 d2 ha.inv hs2 hrest
      have hne : d2.points ≠ [] := by rw [ha.points]; simp
      refine ⟨m', d', true :: flags, ?_, hi, ⟨e1 ++ e3, ?_⟩, p :: acc, ?_, ?_⟩
      · simp only [runInserts, hcall, hc, Res_bind_ok, hr, Res_pure]
      · have hh := ha.same
        unfold SameUpToIds at *
        rw [← hs3, List.map_append (l₁ := m2), ← hh, he1]; simp
      · rw [hacc]
        have hsn : (samples m2 d2).map content = (samples m d).map content ++ [content p] := by
          rw [← ha.same.samples d2]
          rw [← hqc, ← hsam]
          simp [samples, ha.points, hq]
        rw [hsn]; simp
      · intro D hD1 hD2
        have hpD : p.x.length = D := by
          rcases hd with h0 | h0
          · exact hD2 h0 op p (by simp) hp
          · by_cases he : d.points = []
            · exact hD2 he op p (by simp) hp
            · rw [← hx, h0]; exact hD1 he
        obtain ⟨a1, a2⟩ := hD D (fun _ => by rw [ha.mdim, hx, hpD]) (fun hh => absurd hh hne)
        constructor
        · simp [hp, hpD, a1]
        · simp [hp, hpD, a2]
    · have hne : d.points ≠ [] := fun h0 => hd (Or.inl h0)
      have hmd : q.x.length ≠ d.mdim := fun h0 => hd (Or.inr h0)
      have hc := insertPtr_reject h1 hq op.keep hne hmd
      obtain ⟨m', d', flags, hr, hi, ⟨e3, hs3⟩, acc, hacc, hD⟩ := ih m0 m1 d h1 hs1 hrest
      refine ⟨m', d', false :: flags, ?_, hi, ⟨e1 ++ e3, ?_⟩, acc, ?_, ?_⟩
      · simp only [runInserts, hcall, hc, Res_bind_ok, hr, Res_pure]
      · unfold SameUpToIds at *
        rw [← hs3, he1]; simp
      · rw [hacc, hsam]
      · intro D hD1 hD2
        have hpD : p.x.length ≠ D := by
          rw [← hx, ← hD1 hne]; exact hmd
        obtain ⟨a1, a2⟩ := hD D hD1 (fun hh => absurd hh hne)
        constructor
        · simp [hp, hpD, a1]
        · simp [hp, hpD, a2]


theorem given_payloads (m : Mem T) (ops : List (InsOp T)) :
    ops.filterMap (InsOp.payload m) = (given m ops).map Prod.fst := by
  unfold given
  rw [List.map_filterMap]
  congr 1
  funext op
  cases h : op.payload m <;> simp

/-- Exact contents (ids included) when no pointer is inserted twice. -/
theorem run_exact (ops : List (InsOp T)) (m0 : Mem T) (D : Nat) :
    ∀ (m : Mem T) (d : Data), Inv m d → d.points.Nodup →
      (d.points ≠ [] → d.mdim = D) →
      (d.points = [] → ∀ op p, ops.head? = some op → op.payload m0 = some p → p.x.length = D) →
      (∀ op ∈ ops, ∃ p, op.payload m0 = some p) →
      (ops.filterMap InsOp.ref?).Nodup →
      (∀ r ∈ ops.filterMap InsOp.ref?, r ∉ d.points ∧ m[r]? = m0[r]?) →
      ∃ m' d' flags, runInserts m d ops = .ok (m', d', flags) ∧
        samples m' d' = samples m d ++
          (((given m0 ops).filter (fun g => g.1.x.length = D)).zipIdx d.points.length).map
            (fun g => if g.1.2 then g.1.1 else { g.1.1 with id := g.2 + 1 }) := by
  induction ops with
  | nil => intro m d _ _ _ _ _ _ _; exact ⟨m, d, [], rfl, by simp [given]⟩
  | cons op ops ih =>
    intro m d h hnd hD1 hD2 hv hrn hrm
    obtain ⟨p, hp⟩ := hv op (by simp)
    have hrest : ∀ op ∈ ops, ∃ p, op.payload m0 = some p := fun o ho => hv o (by simp [ho])
    have hrn' : (ops.filterMap InsOp.ref?).Nodup := by
      cases op <;> simp [InsOp.ref?, List.filterMap_cons] at hrn
      · exact hrn
      · exact hrn.2
    obtain ⟨m1, r, hcall, he, hq, hrd, hro⟩ : ∃ m1 r,
        op.exec m d = insertPtr m1 d r op.keep ∧
        (∃ e, m1 = m ++ e) ∧ m1[r]? = some p ∧ r ∉ d.points ∧
        (∀ q ∈ ops.filterMap InsOp.ref?, q ≠ r ∧ q ∉ d.points ∧ m1[q]? = m0[q]?) := by
      cases op with
      | val p' k =>
        simp [InsOp.payload] at hp; subst hp
        refine ⟨m ++ [p'], m.length, rfl, ⟨_, rfl⟩, by simp, ?_, ?_⟩
        · intro hh; have := h.valid _ hh; omega
        · intro q hq
          have h1 := hrm q (by simpa [InsOp.ref?, List.filterMap_cons] using hq)
          obtain ⟨o, ho, hoq⟩ := List.mem_filterMap.1 hq
          obtain ⟨pq, hpq⟩ := hrest o ho
          have hlt : q < m.length := by
            cases o with
            | val _ _ => simp [InsOp.ref?] at hoq
            | ptr r' _ =>
              simp [InsOp.ref?] at hoq; subst hoq
              simp [InsOp.payload] at hpq
              rw [← h1.2] at hpq
              exact (List.getElem?_eq_some_iff.1 hpq).1
          exact ⟨by omega, h1.1, by rw [List.getElem?_append_left hlt]; exact h1.2⟩
      | ptr r k =>
        simp [InsOp.payload] at hp
        have h1 := hrm r (by simp [InsOp.ref?, List.filterMap_cons])
        refine ⟨m, r, rfl, ⟨[], by simp⟩, by rw [h1.2]; exact hp, h1.1, ?_⟩
        intro q hq
        have h2 := hrm q (by
          simp only [InsOp.ref?, List.filterMap_cons]; exact List.mem_cons_of_mem _ hq)
        refine ⟨?_, h2.1, h2.2⟩
        rintro rfl
        simp only [InsOp.ref?, List.filterMap_cons, List.nodup_cons] at hrn
        exact hrn.1 hq
    obtain ⟨e, rfl⟩ := he
    have h1 : Inv (m ++ e) d := h.alloc e
    have hsam : samples (m ++ e) d = samples m d := samples_alloc h.valid e
    have hgiv : given m0 (op :: ops) = (p, op.keep) :: given m0 ops := by
      simp [given, hp]
    by_cases hd : d.points = [] ∨ p.x.length = d.mdim
    · obtain ⟨m2, d2, hc, ha⟩ := insertPtr_accepted h1 hq op.keep hd
      have hpD : p.x.length = D := by
        by_cases he : d.points = []
        · exact hD2 he op p (by simp) hp
        · rcases hd with h0 | h0
          · exact absurd h0 he
          · rw [h0]; exact hD1 he
      have hne : d2.points ≠ [] := by rw [ha.points]; simp
      have hr2 : ∀ q, q ≠ r → m2[q]? = (m ++ e)[q]? := by
        intro q hqr
        rw [ha.mem]
        cases op.keep
        · rw [if_neg (by simp)]; exact List.getElem?_set_ne (fun h => hqr h.symm)
        · simp
      obtain ⟨m', d', flags, hr, hs⟩ := ih m2 d2 ha.inv
        (by rw [ha.points, List.nodup_append]
            refine ⟨hnd, by simp, ?_⟩
            intro a haa b hb; simp at hb; subst hb
            intro hab; subst hab; exact hrd haa)
        (fun _ => by rw [ha.mdim, hpD]) (fun hh => absurd hh hne) hrest hrn'
        (fun q hq => by
          obtain ⟨a, b, c⟩ := hro q hq
          refine ⟨?_, by rw [hr2 q a]; exact c⟩
          rw [ha.points]; simp [a, b])
      refine ⟨m', d', true :: flags, ?_, ?_⟩
      · simp only [runInserts, hcall, hc, Res_bind_ok, hr, Res_pure]
      · rw [hs, hgiv, ha.points]
        have hold : d.points.filterMap (fun q => m2[q]?) = samples m d := by
          rw [← hsam]; unfold samples
          apply List.filterMap_congr
          intro q hqd
          exact hr2 q (by rintro rfl; exact hrd hqd)
        have hl : r < (m ++ e).length := (List.getElem?_eq_some_iff.1 hq).1
        have hnew : m2[r]? = some (if op.keep then p else { p with id := d.points.length + 1 }) := by
          rw [ha.mem]
          cases op.keep
          · simp only [Bool.false_eq_true, if_false]; exact List.getElem?_set_self hl
          · simp only [if_true]; exact hq
        have hs2 : samples m2 d2 = samples m d ++
            [if op.keep then p else { p with id := d.points.length + 1 }] := by
          rw [← hold]; simp [samples, ha.points, hnew]
        rw [hs2]
        simp [hpD]
    · have hne : d.points ≠ [] := fun h0 => hd (Or.inl h0)
      have hmd : p.x.length ≠ d.mdim := fun h0 => hd (Or.inr h0)
      have hc := insertPtr_reject h1 hq op.keep hne hmd
      have hpD : p.x.length ≠ D := by rw [← hD1 hne]; exact hmd
      obtain ⟨m', d', flags, hr, hs⟩ := ih (m ++ e) d h1 hnd hD1 (fun hh => absurd hh hne) hrest hrn'
        (fun q hq => (hro q hq).2)
      refine ⟨m', d', false :: flags, ?_, ?_⟩
      · simp only [runInserts, hcall, hc, Res_bind_ok, hr, Res_pure]
      · rw [hs, hgiv, hsam]; simp [hpD]

end MLTK.Data
