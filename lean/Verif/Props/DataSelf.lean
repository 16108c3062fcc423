import Verif.Model.DataSelf
import Verif.Props.DataCopy
import Verif.Props.DataMore
/-!
# C184: datasets that are given themselves, and `classesCopy` into a dataset in use
-/
namespace MLTK.Props
open MLTK.Data MLTK.Spec
variable {T : Type}

/-- C184: `d = d` changes nothing, and `d == d` holds. -/
theorem C184_assign [DecidableEq T] (m : Mem T) (d : Data) (h : Consistent m d) :
    assign d d = d ∧ eqv m d d = .ok true :=
  ⟨rfl, (C122_equivalence m d d d h h h).1⟩

/-- C184: `d.join(d)` doubles the dataset: every sample once more, in order, the classes as before, all
the bookkeeping right; and a dataset joined with a copy of itself has the same samples and classes. -/
theorem C184_join (m : Mem T) (d : Data) (h : Consistent m d) (hc : d.cdistComputed = false) :
    ∃ m' d', join m d d = .ok (m', d') ∧ samples m' d' = samples m d ++ samples m d ∧
      d'.classes = d.classes ∧ Consistent m' d' ∧
      ∃ m₁ c m₂ d₂, copy m d = .ok (m₁, c) ∧ join m₁ d c = .ok (m₂, d₂) ∧
        samples m₂ d₂ = samples m' d' ∧ d₂.classes = d'.classes := by
  obtain ⟨m', d', extra, e, hs, hcl, -, hx, -, -, -, hC⟩ := C07_join_partial m d d h h le_rfl hc
  have : extra = [] := by
    rw [List.eq_nil_iff_forall_not_mem]
    intro c hcx
    exact ((hx c).1 hcx).2 ((hx c).1 hcx).1
  rw [this, List.append_nil] at hcl
  refine ⟨m', d', e, hs, hcl, hC rfl, ?_⟩
  obtain ⟨c, e1, hpts, h1, h2, h3, h4, h5, h6, h7, hrest⟩ := copy_ok h
  obtain ⟨m1, c', e1', hs1, hs2, hc1, hc2, -, hcons, -⟩ := C05_copy_independent m d h
  have ec := e1.symm.trans e1'
  simp only [Except.ok.injEq, Prod.mk.injEq] at ec
  obtain ⟨rfl, rfl⟩ := ec
  have hd : Consistent (m ++ samples m d) d := consistent_alloc h _
  obtain ⟨m₂, d₂, extra₂, e₂, hs₂, hcl₂, -, hx₂, -⟩ :=
    C07_join_partial (m ++ samples m d) d c hd hcons (le_of_eq h4.symm) hc
  have : extra₂ = [] := by
    rw [List.eq_nil_iff_forall_not_mem]
    intro k hk
    have := (hx₂ k).1 hk
    rw [h2] at this
    exact this.2 this.1
  rw [this, List.append_nil] at hcl₂
  exact ⟨_, c, m₂, d₂, e1, e₂, by rw [hs₂, hs, hs1, hs2], by rw [hcl₂, hcl]⟩

example : Consistent demoMem demoData ∧ demoData.cdistComputed = false ∧ demoData.size = 3 :=
  ⟨demo_consistent, rfl, rfl⟩

private theorem samples_getElem {m : Mem T} {d : Data} (h : Consistent m d) (i : Nat) (hi : i < d.size) :
    ∃ r p, d.points[i]? = some r ∧ m[r]? = some p ∧ (samples m d)[i]? = some p := by
  have hi' : i < d.points.length := hi
  obtain ⟨p, hp⟩ := h.live d.points[i] (List.getElem_mem hi')
  refine ⟨d.points[i], p, List.getElem?_eq_getElem hi', hp, ?_⟩
  have hl : ∀ r ∈ d.points, ∃ p, m[r]? = some p := h.live
  unfold samples
  clear h hi
  revert i
  generalize d.points = l at hl
  induction l with
  | nil => intro i hi; simp at hi
  | cons a l ih =>
    obtain ⟨q, hq⟩ := hl a (by simp)
    intro i hi hp
    rw [List.filterMap_cons, hq]
    cases i with
    | zero => simp at hp ⊢; rw [hq] at hp; simpa using hp
    | succ i => simpa using ih (fun r hr => hl r (by simp [hr])) i (by simpa using hi) (by simpa using hp)

/-- The pointer of sample `i` inserted again. -/
private theorem insertSelf {m : Mem T} {d : Data} (h : Consistent m d) (i : Nat) (hi : i < d.size)
    (hbig : d.size < 2 ^ 31) (keep : Bool) {r : Nat} {p : Pt T} (hr : d.points[i]? = some r)
    (hp : m[r]? = some p) (hs : (samples m d)[i]? = some p) :
    ∃ m' d', insertFrom m d d i keep = .ok (m', d', true) ∧ Consistent m' d' ∧
      m' = (if keep then m else m.set r { p with id := d.size + 1 }) ∧ d'.points = d.points ++ [r] := by
  rcases insertPtr_consistent h hp keep with ⟨-, hne, -⟩ | ⟨-, m', d', e, hC, hm, -, hpts, -⟩
  · exact absurd (h.dims p (List.mem_of_getElem? hs)) hne
  · refine ⟨m', d', ?_, hC, hm, hpts⟩
    have h0 : ¬ ((i : Int) < 0) := by omega
    have hn0 : ¬ d.size = 0 := by omega
    unfold insertFrom
    simp only [h0, hn0, if_false, Int.toNat_natCast]
    rw [if_neg (by omega), show vget d.points i = .ok r by simpa using hr]
    simp only [Res_bind_ok, e, Res_pure]

/-- C184: `d.insertPoint(d, i, true)` appends sample `i` once more and keeps the bookkeeping right.

Missing for the full claim: with `keepIndex = false` (`C184_insert_refuted`), and later changes of one
of the two occurrences (`C184_alias_refuted`). -/
theorem C184_insert_partial (m : Mem T) (d : Data) (h : Consistent m d) (i : Nat) (hi : i < d.size)
    (hbig : d.size < 2 ^ 31) :
    ∃ d' p, insertFrom m d d i true = .ok (m, d', true) ∧ (samples m d)[i]? = some p ∧
      samples m d' = samples m d ++ [p] ∧ Consistent m d' := by
  obtain ⟨r, p, hr, hp, hs⟩ := samples_getElem h i hi
  obtain ⟨m', d', e, hC, hm, hpts⟩ := insertSelf h i hi hbig true hr hp hs
  rw [if_pos rfl] at hm
  subst hm
  refine ⟨d', p, e, hs, ?_, hC⟩
  unfold samples
  rw [hpts, List.filterMap_append]
  simp [hp]

/-- C184 is false of the code: `d.insertPoint(d, i)` with the default `keepIndex = false` renumbers the
sample that was there: it and the new one both get the number of the new one. -/
theorem C184_insert_refuted (m : Mem T) (d : Data) (h : Consistent m d) (i : Nat) (hi : i < d.size)
    (hbig : d.size < 2 ^ 31) :
    ∃ m' d' p, insertFrom m d d i false = .ok (m', d', true) ∧ (samples m' d')[i]? = some p ∧
      (samples m' d')[d.size]? = some p ∧ p.id = d.size + 1 := by
  obtain ⟨r, p, hr, hp, hs⟩ := samples_getElem h i hi
  obtain ⟨m', d', e, hC, hm, hpts⟩ := insertSelf h i hi hbig false hr hp hs
  rw [if_neg (by simp)] at hm
  have hlt : r < m.length := (List.getElem?_eq_some_iff.1 hp).1
  have hp' : m'[r]? = some { p with id := d.size + 1 } := by rw [hm]; simp [hlt]
  have hsz : d'.size = d.size + 1 := by unfold size; rw [hpts]; simp
  obtain ⟨r1, p1, a1, a2, a3⟩ := samples_getElem hC i (by omega)
  obtain ⟨r2, p2, b1, b2, b3⟩ := samples_getElem hC d.size (by omega)
  have hi' : i < d.points.length := hi
  rw [hpts, List.getElem?_append_left hi', hr] at a1
  rw [hpts] at b1
  have b1 : some r = some r2 := by rw [← b1]; simp [size]
  simp only [Option.some.injEq] at a1 b1
  subst a1; subst b1
  rw [hp', Option.some.injEq] at a2 b2
  subst a2
  refine ⟨m', d', _, e, a3, ?_, rfl⟩
  rw [b3, ← b2]

example : (0 : Nat) < demoData.size ∧ demoData.size < 2 ^ 31 := by decide

/-- C184 is false of the code: after `d.insertPoint(d, 0, true)` the two occurrences are one point, so
giving the new one another label changes the old one too, and the counts are wrong. -/
theorem C184_alias_refuted :
    ∃ d' m'' d'', insertFrom demoMem demoData demoData 0 true = .ok (demoMem, d', true) ∧
      updateValue false demoMem d' 3 (-1) = .ok (m'', d'', true) ∧
      labels demoMem d' = [1, -1, 1, 1] ∧ labels m'' d'' = [-1, -1, 1, -1] ∧
      d''.classes = [1, -1] ∧ d''.dist = [2, 2] :=
  ⟨_, _, _, rfl, rfl, rfl, rfl, rfl, rfl⟩

/-- C184 is false of the code: `d.copy(d)` on a dataset with samples reads the points it has just
removed. -/
theorem C184_copy_refuted (m : Mem T) (d : Data) (h : d.points ≠ []) :
    copySelf m d = .error .outOfBounds := by
  unfold copySelf
  have : ∃ n, d.size = n + 1 := ⟨d.points.length - 1, by
    have := List.length_pos_iff.2 h
    unfold size; omega⟩
  obtain ⟨n, hn⟩ := this
  rw [hn]
  rfl

/-- C184: on a dataset without samples `d.copy(d)` is harmless. -/
theorem C184_copy_empty (m : Mem T) (d : Data) (h : Consistent m d) (h0 : d.points = []) :
    copySelf m d = .ok (m, d) := by
  have hs : d.size = 0 := by unfold size; rw [h0]; rfl
  unfold copySelf
  rw [hs]
  simp only [copySelfLoop, Res_bind_ok, dim, Res_pure, List.length_nil]
  have h1 : d.msize = 0 := by rw [h.msize, h0]; rfl
  have h2 := h.mdim0 h0
  obtain ⟨⟩ := d
  simp_all

private theorem classesSelf_loops (cs : List Int) : ∀ (fuel : Nat) (m : Mem T) (pts : List Nat) (i : Nat),
    (∀ r ∈ pts, ∃ p, m[r]? = some p) →
    (∃ j r p, i ≤ j ∧ pts[j]? = some r ∧ m[r]? = some p ∧ p.y ∈ cs) →
    classesSelfLoop cs fuel m pts i = .error .diverges
  | fuel, m, pts, i, hl, ⟨j, r, p, hij, hr, hp, hy⟩ => by
    have hj : j < pts.length := (List.getElem?_eq_some_iff.1 hr).1
    have hi : i < pts.length := by omega
    rw [classesSelfLoop.eq_def]; dsimp only
    rw [if_pos hi]
    cases fuel with
    | zero => rfl
    | succ fuel =>
      obtain ⟨q, hq⟩ := hl pts[i] (List.getElem_mem hi)
      have hv : vget pts i = .ok pts[i] := by simp [hi]
      have hd : deref m pts[i] = .ok q := by unfold deref; rw [hq]
      simp only [hv, hd, Res_bind_ok]
      by_cases hqc : q.y ∈ cs
      · rw [if_pos hqc]
        refine classesSelf_loops cs fuel _ _ _ ?_ ⟨pts.length, m.length, q, by omega, by simp, by simp, hqc⟩
        intro r hr
        rcases List.mem_append.1 hr with hr | hr
        · obtain ⟨p, hp⟩ := hl r hr
          exact ⟨p, by rw [List.getElem?_append_left (List.getElem?_eq_some_iff.1 hp).1]; exact hp⟩
        · simp only [List.mem_singleton] at hr
          subst hr
          exact ⟨q, by simp⟩
      · rw [if_neg hqc]
        refine classesSelf_loops cs fuel _ _ _ hl ⟨j, r, p, ?_, hr, hp, hy⟩
        rcases Nat.lt_or_ge i j with h | h
        · omega
        · have : i = j := by omega
          subst this
          rw [List.getElem?_eq_getElem hi, Option.some.injEq] at hr
          rw [hr, hp, Option.some.injEq] at hq
          rw [hq] at hy
          exact absurd hy hqc

/-- C184 is false of the code: `d.classesCopy(d, classes)` does not end if any sample has one of the
classes: it appends to the points it runs over. -/
theorem C184_classes_refuted (m : Mem T) (d : Data) (h : Consistent m d) (cs : List Int)
    (hc : ∃ c ∈ labels m d, c ∈ cs) : ∀ fuel, classesCopySelf fuel m d cs = .error .diverges := by
  intro fuel
  obtain ⟨c, hc1, hc2⟩ := hc
  obtain ⟨p, hp, rfl⟩ := List.mem_map.1 hc1
  obtain ⟨r, hr, hmr⟩ := List.mem_filterMap.1 hp
  obtain ⟨j, hj, hjr⟩ := List.getElem_of_mem hr
  unfold classesCopySelf
  rw [classesSelf_loops cs fuel m d.points 0 h.live
    ⟨j, r, p, by omega, by rw [List.getElem?_eq_getElem hj, hjr], hmr, hc2⟩]
  rfl

example : ∃ c ∈ labels demoMem demoData, c ∈ [1] := ⟨1, by decide, by decide⟩

private theorem appendClasses_ok (cs : List Int) : ∀ (rs : List Nat) (m : Mem T) (acc : List Nat),
    (∀ r ∈ rs, ∃ p, m[r]? = some p) → (∀ r ∈ acc, ∃ p, m[r]? = some p) →
    ∃ m' acc', appendClasses cs m acc rs = .ok (m', acc ++ acc') ∧ (∃ e, m' = m ++ e) ∧
      (∀ r ∈ acc ++ acc', ∃ p, m'[r]? = some p) ∧
      acc'.filterMap (fun r => m'[r]?) =
        (rs.filterMap (fun r => m[r]?)).filter (fun p => decide (p.y ∈ cs)) ∧
      (∀ r ∈ acc', m.length ≤ r)
  | [], m, acc, _, ha => ⟨m, [], by simp [appendClasses], ⟨[], by simp⟩, by simpa using ha, by simp, by simp⟩
  | r :: rs, m, acc, hl, ha => by
    obtain ⟨p, hp⟩ := hl r (by simp)
    have hd : deref m r = .ok p := by unfold deref; rw [hp]
    by_cases hc : p.y ∈ cs
    · have grow : ∀ r p', m[r]? = some p' → (m ++ [p])[r]? = some p' := fun r p' h => by
        rw [List.getElem?_append_left (List.getElem?_eq_some_iff.1 h).1]; exact h
      obtain ⟨m', acc', e, ⟨ex, hex⟩, hlv, hf, hlo⟩ := appendClasses_ok cs rs (m ++ [p]) (acc ++ [m.length])
        (fun q hq => by obtain ⟨p', h'⟩ := hl q (by simp [hq]); exact ⟨p', grow _ _ h'⟩)
        (fun q hq => by
          rcases List.mem_append.1 hq with hq | hq
          · obtain ⟨p', h'⟩ := ha q hq; exact ⟨p', grow _ _ h'⟩
          · simp only [List.mem_singleton] at hq; subst hq; exact ⟨p, by simp⟩)
      refine ⟨m', m.length :: acc', ?_, ⟨[p] ++ ex, by rw [hex]; simp⟩, ?_, ?_, ?_⟩
      · unfold appendClasses
        rw [hd, Res_bind_ok, if_pos hc, e]; simp
      · intro q hq; exact hlv q (by simpa using hq)
      · have h1 : m'[m.length]? = some p := by rw [hex]; simp
        have h2 : rs.filterMap (fun r => (m ++ [p])[r]?) = rs.filterMap (fun r => m[r]?) := by
          apply List.filterMap_congr
          intro q hq
          obtain ⟨p', h'⟩ := hl q (by simp [hq])
          rw [h', grow _ _ h']
        rw [List.filterMap_cons, h1, hf, h2, List.filterMap_cons, hp]
        simp [hc]
      · intro q hq
        rcases List.mem_cons.1 hq with rfl | hq
        · exact le_rfl
        · have := hlo q hq; simp at this; omega
    · obtain ⟨m', acc', e, hex, hlv, hf, hlo⟩ := appendClasses_ok cs rs m acc
        (fun q hq => hl q (by simp [hq])) ha
      refine ⟨m', acc', ?_, hex, hlv, ?_, hlo⟩
      · unfold appendClasses
        rw [hd, Res_bind_ok, if_neg hc, e]
      · rw [hf, List.filterMap_cons, hp]; simp [hc]

/-- C184: what `classesCopy` does to any dataset: the samples it had stay, the samples of the source
with one of the classes follow as new points, and the number of samples it then counts is that of the
new ones only. -/
theorem C184_classes_into (m : Mem T) (self src : Data) (hself : Consistent m self)
    (h : Consistent m src) (cs : List Int) :
    ∃ m' d', classesCopyInto m self src cs = .ok (m', d') ∧
      samples m' d' = samples m self ++ (samples m src).filter (fun p => decide (p.y ∈ cs)) ∧
      d'.msize = ((samples m src).filter (fun p => decide (p.y ∈ cs))).length ∧ d'.classes = cs ∧
      d'.dist = self.dist ∧ samples m' src = samples m src := by
  obtain ⟨m', acc', e, ⟨ex, hex⟩, hlv, hf, -⟩ := appendClasses_ok cs src.points m self.points h.live hself.live
  have old : ∀ d : Data, Consistent m d → d.points.filterMap (fun r => m'[r]?) = samples m d := by
    intro d hd
    apply List.filterMap_congr
    intro q hq
    obtain ⟨p', h'⟩ := hd.live q hq
    rw [h', hex, List.getElem?_append_left (List.getElem?_eq_some_iff.1 h').1, h']
  have hlen : acc'.length = ((samples m src).filter (fun p => decide (p.y ∈ cs))).length := by
    have := congrArg List.length hf
    unfold samples
    rw [← this]
    have hall : ∀ r ∈ acc', ∃ p, m'[r]? = some p := fun r hr => hlv r (by simp [hr])
    clear this hf hlv e
    induction acc' with
    | nil => rfl
    | cons a l ih =>
      obtain ⟨q, hq⟩ := hall a (by simp)
      rw [List.filterMap_cons, hq]
      simp only [List.length_cons]
      rw [← ih (fun r hr => hall r (by simp [hr]))]
  unfold classesCopyInto
  simp only [e, Res_bind_ok, dim_of_consistent h, Res_pure]
  refine ⟨m', _, rfl, ?_, ?_, rfl, rfl, old src h⟩
  · show (self.points ++ acc').filterMap (fun r => m'[r]?) = _
    rw [List.filterMap_append, old self hself, hf]
    rfl
  · show (self.points ++ acc').length - self.points.length = _
    rw [List.length_append, hlen]; omega

/-- C184, new datasets: `classesCopy` into an empty dataset gives exactly the samples of the source with
one of the classes, and the right number of them.

Missing for the full claim: datasets that have samples already (`C184_classes_used_refuted`), the counts
per class, which are not computed, and the dataset itself as source. -/
theorem C184_classes_partial (m : Mem T) (src : Data) (h : Consistent m src) (cs : List Int) :
    ∃ m' d', classesCopyInto m Data.empty src cs = .ok (m', d') ∧
      samples m' d' = (samples m src).filter (fun p => decide (p.y ∈ cs)) ∧
      d'.msize = d'.size ∧ d'.classes = cs := by
  obtain ⟨m', acc', e, ⟨ex, hex⟩, hlv, hf, -⟩ := appendClasses_ok cs src.points m [] h.live (by simp)
  unfold classesCopyInto
  simp only [show (Data.empty : Data).points = [] from rfl, e, Res_bind_ok, dim_of_consistent h, Res_pure]
  exact ⟨m', _, rfl, hf, rfl, rfl⟩

/-- C184 is false of the code: `classesCopy` copies the index of the whole source, so that the index of the new dataset has positions
it has no samples for whenever the source has an index for all its samples and some sample is not chosen. -/
theorem C184_index_refuted (m : Mem T) (src : Data) (h : Consistent m src) (cs : List Int)
    (hi : src.index.length = src.size) (hc : ∃ c ∈ labels m src, c ∉ cs) :
    ∃ m' d', classesCopyInto m Data.empty src cs = .ok (m', d') ∧ d'.size < d'.index.length := by
  obtain ⟨m', acc', e, -, hlv, hf, -⟩ := appendClasses_ok cs src.points m [] h.live (by simp)
  have len : ∀ (m : Mem T) (l : List Nat), (∀ r ∈ l, ∃ p, m[r]? = some p) →
      (l.filterMap (fun r => m[r]?)).length = l.length := by
    intro m l hl
    induction l with
    | nil => rfl
    | cons a l ih =>
      obtain ⟨q, hq⟩ := hl a (by simp)
      rw [List.filterMap_cons, hq]
      simp only [List.length_cons]
      rw [ih (fun r hr => hl r (by simp [hr]))]
  unfold classesCopyInto
  simp only [show (Data.empty : Data).points = [] from rfl, e, Res_bind_ok, dim_of_consistent h, Res_pure]
  refine ⟨m', _, rfl, ?_⟩
  show ([] ++ acc').length < src.index.length
  obtain ⟨c, hc1, hc2⟩ := hc
  obtain ⟨p, hp, rfl⟩ := List.mem_map.1 hc1
  have h1 := congrArg List.length hf
  rw [len m' acc' (fun r hr => hlv r (by simp [hr]))] at h1
  rw [List.nil_append, h1, hi]
  show _ < src.points.length
  rw [← len m src.points h.live]
  exact List.length_filter_lt_length_iff_exists.2 ⟨p, hp, by simpa using hc2⟩

example : demoData.index.length = demoData.size ∧ ∃ c ∈ labels demoMem demoData, c ∉ [-1] :=
  ⟨rfl, 1, by decide, by decide⟩

/-- C184 is false of the code: `classesCopy` into a dataset that has samples leaves them there, so the
dataset has more samples than it counts. -/
theorem C184_classes_used_refuted (m : Mem T) (self src : Data) (hself : Consistent m self)
    (h : Consistent m src) (cs : List Int) (hne : self.points ≠ []) :
    ∃ m' d', classesCopyInto m self src cs = .ok (m', d') ∧ d'.msize < d'.size ∧
      ¬ Consistent m' d' := by
  obtain ⟨m', acc', e, ⟨ex, hex⟩, hlv, hf, -⟩ := appendClasses_ok cs src.points m self.points h.live hself.live
  have hpos := List.length_pos_iff.2 hne
  unfold classesCopyInto
  simp only [e, Res_bind_ok, dim_of_consistent h, Res_pure]
  have hlt : (self.points ++ acc').length - self.points.length < (self.points ++ acc').length := by
    rw [List.length_append]; omega
  exact ⟨m', _, rfl, hlt, fun hC => absurd hC.msize (Nat.ne_of_lt hlt)⟩

end MLTK.Props
