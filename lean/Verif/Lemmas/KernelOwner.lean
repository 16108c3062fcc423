import Verif.Spec.KernelOwner
import Verif.Props.Kernel
/-!
# Invariants of programs on dual classifiers
-/
namespace MLTK.KOwn
open MLTK.Kernel MLTK.Spec
open MLTK.Data (Res_bind_ok Res_bind_error Res_pure)

/-- The kernel at `a` exists. -/
def Live (ks : List (Option Kern)) (a : Nat) : Prop := ∃ k, ks[a]? = some (some k)

theorem Live.lt {ks : List (Option Kern)} {a : Nat} (h : Live ks a) : a < ks.length := by
  obtain ⟨k, hk⟩ := h
  exact (List.getElem?_eq_some_iff.1 hk).1

theorem Live.append {ks : List (Option Kern)} {a : Nat} (h : Live ks a) (l : List (Option Kern)) : Live (ks ++ l) a := by
  obtain ⟨k, hk⟩ := h
  exact ⟨k, by rw [List.getElem?_append_left (List.getElem?_eq_some_iff.1 hk).1, hk]⟩

theorem Live.last (ks : List (Option Kern)) (k : Kern) : Live (ks ++ [some k]) ks.length := ⟨k, by simp⟩

theorem Live.set {ks : List (Option Kern)} {a : Nat} (h : Live ks a) (b : Nat) (k : Kern) :
    Live (ks.set b (some k)) a := by
  by_cases hab : b = a
  · subst hab; exact ⟨k, by rw [List.getElem?_set_self h.lt]⟩
  · obtain ⟨k0, hk⟩ := h
    exact ⟨k0, by rw [List.getElem?_set_ne hab, hk]⟩

theorem Live.del {ks : List (Option Kern)} {a b : Nat} (h : Live ks a) (hab : b ≠ a) : Live (ks.set b none) a := by
  obtain ⟨k0, hk⟩ := h
  exact ⟨k0, by rw [List.getElem?_set_ne hab, hk]⟩

theorem derefK_live {ks : List (Option Kern)} {a : Nat} (h : Live ks a) :
    ∃ k, derefK ks (some a) = .ok k ∧ ks[a]? = some (some k) := by
  obtain ⟨k, hk⟩ := h
  exact ⟨k, by simp [derefK, hk], hk⟩

theorem derefK_inv {ks : List (Option Kern)} {p : Option Nat} {k : Kern} (h : derefK ks p = .ok k) :
    ∃ a, p = some a ∧ ks[a]? = some (some k) := by
  unfold derefK at h
  split at h
  · cases h
  · rename_i a
    split at h
    · rename_i k' hk; cases h; exact ⟨a, rfl, hk⟩
    · cases h

theorem deleteK_live {ks : List (Option Kern)} {a : Nat} (h : Live ks a) : deleteK ks (some a) = .ok (ks.set a none) := by
  obtain ⟨k, hk⟩ := h
  simp [deleteK, hk]

theorem deleteK_inv {ks ks' : List (Option Kern)} {p : Option Nat} (h : deleteK ks p = .ok ks') :
    (p = none ∧ ks' = ks) ∨ ∃ a, p = some a ∧ Live ks a ∧ ks' = ks.set a none := by
  unfold deleteK at h
  split at h
  · cases h; exact .inl ⟨rfl, rfl⟩
  · rename_i a
    split at h
    · rename_i k' hk; cases h; exact .inr ⟨a, rfl, ⟨k', hk⟩, rfl⟩
    · cases h

theorem getObj_ok {w : World} {i : Nat} {o : Obj} (h : w.objs[i]? = some (some o)) : getObj w i = .ok o := by
  simp [getObj, h]

theorem getObj_inv {w : World} {i : Nat} {o : Obj} (h : getObj w i = .ok o) : w.objs[i]? = some (some o) := by
  unfold getObj at h
  split at h
  · rename_i o' ho; cases h; exact ho
  · cases h

/-- What an object holds agrees with what was asked of it. -/
structure Rel (ks : List (Option Kern)) (x : Want) (o : Obj) : Prop where
  kind : o.kind = x.kind
  samples : o.samples = x.samples
  rect : RectSamples x.samples
  smo : x.kind = .smo → o.type = x.type ∧ o.param = x.param ∧ Defined x.type ∧ (o.kernel.isSome ↔ x.trained = true)
  other : x.kind ≠ .smo → x.trained = true ∨ x.kind = .perc → o.kernel.isSome
  live : ∀ a, o.kernel = some a → Live ks a

theorem Rel.mono {ks ks' : List (Option Kern)} {x : Want} {o : Obj} (h : Rel ks x o)
    (hl : ∀ a, o.kernel = some a → Live ks a → Live ks' a) : Rel ks' x o :=
  ⟨h.kind, h.samples, h.rect, h.smo, h.other, fun a ha => hl a ha (h.live a ha)⟩

/-- The objects of a careful program: each SMO has its kernel for itself. -/
structure Own (ws : List Want) (nk : Nat) (w : World) : Prop where
  len : w.objs.length = ws.length
  obj : ∀ (i : Nat) (x : Want), ws[i]? = some x → x.alive = true → ∃ o, w.objs[i]? = some (some o) ∧ Rel w.kernels x o
  dead : ∀ (i : Nat) (x : Want), ws[i]? = some x → x.alive = false → w.objs[i]? = some none
  uniq : ∀ (i j : Nat) (oi oj : Obj) (a : Nat), w.objs[i]? = some (some oi) → w.objs[j]? = some (some oj) → oi.kind = .smo →
    oi.kernel = some a → oj.kernel = some a → i = j
  hand : ∀ a ∈ w.handles, Live w.kernels a
  handSmo : ∀ (i : Nat) (o : Obj) (a : Nat), w.objs[i]? = some (some o) → o.kind = .smo → o.kernel = some a → a ∉ w.handles
  nh : w.handles.length = nk
  type : ∀ k, some k ∈ w.kernels → Defined k.type

theorem Own.objLive {ws : List Want} {nk : Nat} {w : World} (h : Own ws nk w) {i : Nat} {o : Obj}
    (ho : w.objs[i]? = some (some o)) : ∃ x, ws[i]? = some x ∧ x.alive = true ∧ Rel w.kernels x o := by
  have hi : i < ws.length := h.len ▸ (List.getElem?_eq_some_iff.1 ho).1
  obtain ⟨x, hx⟩ : ∃ x, ws[i]? = some x := ⟨ws[i], List.getElem?_eq_getElem hi⟩
  cases ha : x.alive with
  | false => rw [h.dead i x hx ha] at ho; cases ho
  | true =>
    obtain ⟨o', ho', hr⟩ := h.obj i x hx ha
    rw [ho] at ho'; cases ho'
    exact ⟨x, hx, ha, hr⟩

/-- Object `i` replaced (or destroyed). -/
theorem Own.update {ws : List Want} {nk : Nat} {w : World} (h : Own ws nk w) {i : Nat} {x : Want} {o : Obj}
    (hx : ws[i]? = some x) (ho : w.objs[i]? = some (some o)) (f : Want → Want) (oo : Option Obj)
    (ks : List (Option Kern)) (lg : List (Nat × List (List ℝ)))
    (hrel : (oo = none ∧ (f x).alive = false) ∨ ∃ o', oo = some o' ∧ (f x).alive = true ∧ Rel ks (f x) o')
    (hlive : ∀ b, Live w.kernels b → (o.kind = .smo → o.kernel ≠ some b) → Live ks b)
    (hfresh : ∀ o' a, oo = some o' → o'.kernel = some a →
      (o.kernel = some a ∧ o'.kind = o.kind) ∨ ¬ Live w.kernels a ∨ (o'.kind ≠ .smo ∧ a ∈ w.handles))
    (htype : ∀ k, some k ∈ ks → Defined k.type) :
    Own (ws.modify i f) nk ⟨ks, w.objs.set i oo, w.handles, lg⟩ := by
  have hi : i < w.objs.length := (List.getElem?_eq_some_iff.1 ho).1
  have hother : ∀ (j : Nat) (oj : Obj), j ≠ i → w.objs[j]? = some (some oj) → ∀ b, oj.kernel = some b → Live w.kernels b → Live ks b := by
    intro j oj hj hoj b hb hl
    refine hlive b hl (fun hk hc => hj ?_)
    exact (h.uniq i j o oj b ho hoj hk hc hb).symm
  have hold : ∀ (j : Nat) (oj : Obj), j ≠ i → w.objs[j]? = some (some oj) → ∀ b, oj.kernel = some b → Live w.kernels b := by
    intro j oj _ hoj b hb
    obtain ⟨_, _, _, hr⟩ := h.objLive hoj
    exact hr.live b hb
  refine ⟨by simp [h.len], ?_, ?_, ?_, ?_, ?_, h.nh, htype⟩
  · intro j y hy hya
    by_cases hji : j = i
    · subst hji
      rw [List.getElem?_modify, hx] at hy
      simp at hy; subst hy
      rcases hrel with ⟨_, hf⟩ | ⟨o', rfl, _, hr⟩
      · rw [hf] at hya; cases hya
      · exact ⟨o', by simp [hi], hr⟩
    · replace hy : ws[j]? = some y := by
        rw [List.getElem?_modify] at hy; simpa [show ¬ i = j from fun h => hji h.symm] using hy
      obtain ⟨oj, hoj, hr⟩ := h.obj j y hy hya
      exact ⟨oj, by simp [List.getElem?_set_ne (fun h => hji h.symm : i ≠ j), hoj],
        hr.mono (hother j oj hji hoj)⟩
  · intro j y hy hya
    by_cases hji : j = i
    · subst hji
      rw [List.getElem?_modify, hx] at hy
      simp at hy; subst hy
      rcases hrel with ⟨rfl, _⟩ | ⟨o', _, hf, _⟩
      · simp [hi]
      · rw [hf] at hya; cases hya
    · replace hy : ws[j]? = some y := by
        rw [List.getElem?_modify] at hy; simpa [show ¬ i = j from fun h => hji h.symm] using hy
      simp [List.getElem?_set_ne (fun h => hji h.symm : i ≠ j), h.dead j y hy hya]
  · intro a b oa ob c ha hb hk hca hcb
    simp only at ha hb
    by_cases hai : a = i <;> by_cases hbi : b = i
    · rw [hai, hbi]
    · exfalso
      subst hai
      rw [List.getElem?_set_self hi] at ha
      rw [List.getElem?_set_ne (fun h => hbi h.symm)] at hb
      rcases hfresh oa c (by simpa using ha) hca with ⟨h1, h2⟩ | h1 | ⟨h1, _⟩
      · exact hbi (h.uniq a b o ob c ho hb (h2 ▸ hk) h1 hcb).symm
      · exact h1 (hold b ob hbi hb c hcb)
      · exact h1 hk
    · exfalso
      subst hbi
      rw [List.getElem?_set_self hi] at hb
      rw [List.getElem?_set_ne (fun h => hai h.symm)] at ha
      rcases hfresh ob c (by simpa using hb) hcb with ⟨h1, h2⟩ | h1 | ⟨_, h1⟩
      · exact hai (h.uniq a b oa o c ha ho hk hca h1)
      · exact h1 (hold a oa hai ha c hca)
      · exact h.handSmo a oa c ha hk hca h1
    · rw [List.getElem?_set_ne (fun h => hai h.symm)] at ha
      rw [List.getElem?_set_ne (fun h => hbi h.symm)] at hb
      exact h.uniq a b oa ob c ha hb hk hca hcb
  · intro a ha
    exact hlive a (h.hand a ha) (fun hk hc => h.handSmo i o a ho hk hc ha)
  · intro a oa c ha hk hca
    simp only at ha
    by_cases hai : a = i
    · subst hai
      rw [List.getElem?_set_self hi] at ha
      rcases hfresh oa c (by simpa using ha) hca with ⟨h1, h2⟩ | h1 | ⟨h1, _⟩
      · exact h.handSmo a o c ho (h2 ▸ hk) h1
      · exact fun hc => h1 (h.hand c hc)
      · exact fun _ => h1 hk
    · rw [List.getElem?_set_ne (fun h => hai h.symm)] at ha
      exact h.handSmo a oa c ha hk hca

/-- A new object. -/
theorem Own.push {ws : List Want} {nk : Nat} {w : World} (h : Own ws nk w) (x : Want) (o : Obj)
    (ks : List (Option Kern)) (hrel : Rel ks x o) (hal : x.alive = true)
    (hlive : ∀ b, Live w.kernels b → Live ks b)
    (hfresh : ∀ a, o.kernel = some a → ¬ Live w.kernels a ∨
      (o.kind ≠ .smo ∧ ∃ (j : Nat) (oj : Obj), w.objs[j]? = some (some oj) ∧ oj.kernel = some a ∧ oj.kind ≠ .smo))
    (htype : ∀ k, some k ∈ ks → Defined k.type) :
    Own (ws ++ [x]) nk ⟨ks, w.objs ++ [some o], w.handles, w.log⟩ := by
  have hget : ∀ (j : Nat) (oj : Obj), (w.objs ++ [some o])[j]? = some (some oj) →
      (w.objs[j]? = some (some oj)) ∨ (j = w.objs.length ∧ oj = o) := by
    intro j oj hj
    by_cases hl : j < w.objs.length
    · rw [List.getElem?_append_left hl] at hj; exact .inl hj
    · rw [List.getElem?_append_right (by omega)] at hj
      have : j - w.objs.length = 0 := by
        by_contra hne
        rw [List.getElem?_eq_none (by simp; omega)] at hj; cases hj
      rw [this] at hj; simp at hj
      exact .inr ⟨by omega, hj.symm⟩
  have hws : ∀ (j : Nat) (y : Want), (ws ++ [x])[j]? = some y → ws[j]? = some y ∨ (j = w.objs.length ∧ y = x) := by
    intro j y hj
    by_cases hl : j < ws.length
    · rw [List.getElem?_append_left hl] at hj; exact .inl hj
    · rw [List.getElem?_append_right (by omega)] at hj
      have : j - ws.length = 0 := by
        by_contra hne
        rw [List.getElem?_eq_none (by simp; omega)] at hj; cases hj
      rw [this] at hj; simp at hj
      exact .inr ⟨by have := h.len; omega, hj.symm⟩
  have hold : ∀ (j : Nat) (oj : Obj), w.objs[j]? = some (some oj) → ∀ b, oj.kernel = some b → Live w.kernels b := by
    intro j oj hoj b hb
    obtain ⟨_, _, _, hr⟩ := h.objLive hoj
    exact hr.live b hb
  refine ⟨by simp [h.len], ?_, ?_, ?_, fun a ha => hlive a (h.hand a ha), ?_, h.nh, htype⟩
  · intro j y hy hya
    rcases hws j y hy with hy | ⟨rfl, rfl⟩
    · obtain ⟨oj, hoj, hr⟩ := h.obj j y hy hya
      exact ⟨oj, by simp [List.getElem?_append_left (List.getElem?_eq_some_iff.1 hoj).1, hoj],
        hr.mono (fun a _ hl => hlive a hl)⟩
    · exact ⟨o, by simp, hrel⟩
  · intro j y hy hya
    rcases hws j y hy with hy | ⟨rfl, rfl⟩
    · have := h.dead j y hy hya
      simp [List.getElem?_append_left (List.getElem?_eq_some_iff.1 this).1, this]
    · rw [hal] at hya; cases hya
  · intro a b oa ob c ha hb hk hca hcb
    rcases hget a oa ha with ha' | ⟨rfl, rfl⟩ <;> rcases hget b ob hb with hb' | ⟨rfl, rfl⟩
    · exact h.uniq a b oa ob c ha' hb' hk hca hcb
    · exfalso
      rcases hfresh c hcb with h1 | ⟨_, j, oj, hj, hjc, hjk⟩
      · exact h1 (hold a oa ha' c hca)
      · have := h.uniq a j oa oj c ha' hj hk hca hjc
        subst this
        rw [ha'] at hj; cases hj; exact hjk hk
    · exfalso
      rcases hfresh c hca with h1 | ⟨h1, _⟩
      · exact h1 (hold b ob hb' c hcb)
      · exact h1 hk
    · rfl
  · intro a oa c ha hk hca
    rcases hget a oa ha with ha | ⟨rfl, rfl⟩
    · exact h.handSmo a oa c ha hk hca
    · rcases hfresh c hca with h1 | ⟨h1, _⟩
      · exact fun hc => h1 (h.hand c hc)
      · exact fun _ => h1 hk


theorem defined_builtIn {t : KType} (h : Defined t) : Props.BuiltIn t := h

theorem compute_total (k : Kern) (hk : Defined k.type) (d : KData) (hd : RectSamples d) :
    ∃ k', compute k d.dim d.xs none = .ok k' ∧ k'.type = k.type ∧ k'.param = k.param := by
  cases hc : k.computed with
  | true => exact ⟨k, by rw [compute, if_pos hc]; rfl, rfl, rfl⟩
  | false =>
    obtain ⟨k', h1, _, _, h2, h3, _⟩ := Props.C27_matrix k (defined_builtIn hk) hc d.dim d.xs hd none
    exact ⟨k', h1, h2, h3⟩

theorem modify_id {α : Type} (l : List α) (i : Nat) : l.modify i (fun x => x) = l := by
  apply List.ext_getElem?
  intro j
  rw [List.getElem?_modify]
  simp

theorem mem_set {ks : List (Option Kern)} {a : Nat} {v : Option Kern} {k : Kern} (h : some k ∈ ks.set a v) :
    some k ∈ ks ∨ v = some k := by
  rcases List.mem_or_eq_of_mem_set h with h | h
  · exact .inl h
  · exact .inr h.symm

theorem Own.typeAt {ws : List Want} {nk : Nat} {w : World} (h : Own ws nk w) {a : Nat} {k : Kern}
    (hk : w.kernels[a]? = some (some k)) : Defined k.type := h.type k (List.mem_of_getElem? hk)

/-- A setter of an object that keeps its kernel pointer. -/
theorem Own.setter {ws : List Want} {nk : Nat} {w : World} (h : Own ws nk w) {i : Nat} {x : Want} {o : Obj}
    (hx : ws[i]? = some x) (hal : x.alive = true) (ho : w.objs[i]? = some (some o)) (f : Want → Want) (o' : Obj)
    (hrel : Rel w.kernels (f x) o') (hfa : (f x).alive = x.alive) (hkern : o'.kernel = o.kernel) (hkind : o'.kind = o.kind)
    (g : Kern → Kern) (hg : ∀ k, Defined k.type → Defined (g k).type) :
    ∃ w', onKernel (putObj w i o') o.kernel g = .ok w' ∧ Own (ws.modify i f) nk w' ∧
      live w' = live w ∧ w'.kernels.length = w.kernels.length := by
  cases hk : o.kernel with
  | none =>
    refine ⟨_, rfl, ?_, rfl, rfl⟩
    refine h.update hx ho f (some o') w.kernels w.log (.inr ⟨o', rfl, by rw [hfa, hal], hrel⟩) (fun b hb _ => hb)
      (fun o'' a he ha => ?_) h.type
    cases he
    exact .inl ⟨hkern ▸ ha, hkind⟩
  | some a =>
    have hl : Live w.kernels a := hrel.live a (by rw [hkern, hk])
    obtain ⟨k, hd, hka⟩ := derefK_live hl
    have hd' : derefK (putObj w i o').kernels (some a) = .ok k := hd
    refine ⟨{ putObj w i o' with kernels := w.kernels.set a (some (g k)) }, ?_, ?_, ?_, ?_⟩
    · simp only [onKernel, hd', Res_bind_ok]; rfl
    · refine h.update hx ho f (some o') (w.kernels.set a (some (g k))) w.log
        (.inr ⟨o', rfl, by rw [hfa, hal], hrel.mono (fun b _ hb => hb.set a _)⟩) (fun b hb _ => hb.set a _)
        (fun o'' a he ha => ?_) (fun k' hk' => ?_)
      · cases he
        exact .inl ⟨hkern ▸ ha, hkind⟩
      · rcases mem_set hk' with h1 | h1
        · exact h.type k' h1
        · cases h1; exact hg k (h.typeAt hka)
    · show (w.kernels.set a (some (g k))).countP _ = w.kernels.countP _
      have hlt := hl.lt
      rw [List.countP_set hlt]
      have : w.kernels[a] = some k := by
        have := List.getElem?_eq_some_iff.1 hka; exact this.2
      have hpos : 0 < w.kernels.countP (·.isSome) :=
        List.countP_pos_iff.2 ⟨some k, List.mem_of_getElem? hka, rfl⟩
      simp [this]; omega
    · simp [putObj]

theorem countP_modify_add {α : Type} (p : α → Bool) (f : α → α) : ∀ (l : List α) (i : Nat) (x : α), l[i]? = some x →
    (l.modify i f).countP p + (if p x then 1 else 0) = l.countP p + (if p (f x) then 1 else 0) := by
  intro l
  induction l with
  | nil => intro i x h; simp at h
  | cons a l ih =>
    intro i x h
    cases i with
    | zero =>
      simp at h; subst h
      simp only [List.modify_zero_cons, List.countP_cons]; omega
    | succ i =>
      simp at h
      have := ih i x h
      simp only [List.modify_succ_cons, List.countP_cons]; omega

theorem countP_set_add {α : Type} (p : α → Bool) (v : α) : ∀ (l : List α) (i : Nat) (x : α), l[i]? = some x →
    (l.set i v).countP p + (if p x then 1 else 0) = l.countP p + (if p v then 1 else 0) := by
  intro l
  induction l with
  | nil => intro i x h; simp at h
  | cons a l ih =>
    intro i x h
    cases i with
    | zero =>
      simp at h; subst h
      simp only [List.set_cons_zero, List.countP_cons]; omega
    | succ i =>
      simp at h
      have := ih i x h
      simp only [List.set_cons_succ, List.countP_cons]; omega

/-- A want counts when it is that of an existing trained SMO. -/
def owns (w : Want) : Bool := w.alive && w.trained && (w.kind == .smo)

/-- The kernels allocated are those of trained SMOs, of perceptrons and of the program. -/
def Count (ws : List Want) (np nk : Nat) (w : World) : Prop :=
  (∀ x ∈ ws, x.kind ≠ .linear) → live w = ws.countP owns + np + nk

theorem wants_snoc (pre : List Op) (op : Op) : wants (pre ++ [op]) = wantStep (wants pre) op := by
  simp [wants]

theorem mem_modify_kind {ws : List Want} {i : Nat} {f : Want → Want} (hf : ∀ x, (f x).kind = x.kind)
    (h : ∀ x ∈ ws.modify i f, x.kind ≠ .linear) : ∀ x ∈ ws, x.kind ≠ .linear := by
  intro x hx
  obtain ⟨j, hj⟩ := List.getElem?_of_mem hx
  have : (ws.modify i f)[j]? = some (if i = j then f x else x) := by
    rw [List.getElem?_modify, hj]; simp
  have := h _ (List.mem_of_getElem? this)
  split at this
  · rwa [hf] at this
  · exact this

theorem Count.setter {ws : List Want} {np nk : Nat} {w w' : World} (h : Count ws np nk w) {i : Nat} {x : Want}
    (hx : ws[i]? = some x) (f : Want → Want) (hk : ∀ x, (f x).kind = x.kind) (ho : owns (f x) = owns x)
    (hl : live w' = live w) : Count (ws.modify i f) np nk w' := by
  intro hall
  have h1 := h (mem_modify_kind hk hall)
  have h2 := countP_modify_add owns f ws i x hx
  rw [ho] at h2
  omega

theorem live_del {ks : List (Option Kern)} {a : Nat} (h : Live ks a) :
    (ks.set a none).countP (·.isSome) + 1 = ks.countP (·.isSome) := by
  obtain ⟨k, hk⟩ := h
  have := countP_set_add (·.isSome) none ks a (some k) hk
  simpa using this

/-- `delete` of the kernel an SMO owns. -/
theorem Own.delete {ws : List Want} {nk : Nat} {w : World} (h : Own ws nk w) {x : Want} {o : Obj}
    (hr : Rel w.kernels x o) :
    ∃ ks, deleteK w.kernels o.kernel = .ok ks ∧ ks.length = w.kernels.length ∧
      (∀ b, Live w.kernels b → o.kernel ≠ some b → Live ks b) ∧ (∀ k, some k ∈ ks → Defined k.type) ∧
      ks.countP (·.isSome) + (if o.kernel.isSome then 1 else 0) = w.kernels.countP (·.isSome) := by
  cases hk : o.kernel with
  | none => exact ⟨w.kernels, rfl, rfl, fun b hb _ => hb, h.type, by simp⟩
  | some a =>
    have hl := hr.live a hk
    refine ⟨w.kernels.set a none, deleteK_live hl, by simp, fun b hb hne => hb.del (fun he => hne (by rw [he])),
      fun k hm => ?_, by simpa using live_del hl⟩
    rcases mem_set hm with h1 | h1
    · exact h.type k h1
    · cases h1

theorem Own.trainSmo {ws : List Want} {nk : Nat} {w : World} (h : Own ws nk w) {i : Nat} {x : Want} {o : Obj}
    (hx : ws[i]? = some x) (hal : x.alive = true) (ho : w.objs[i]? = some (some o)) (hr : Rel w.kernels x o)
    (hs : x.kind = .smo) :
    ∃ w', KOwn.trainSmo w i o = .ok w' ∧ Own (ws.modify i (fun w => { w with trained := true })) nk w' ∧
      live w' + (if x.trained then 1 else 0) = live w + 1 := by
  obtain ⟨ht, hp, hdef, hiff⟩ := hr.smo hs
  obtain ⟨ks, hd, hlen, hlive, htype, hcount⟩ := h.delete hr
  obtain ⟨k, hk, hkt, _⟩ := compute_total (newK o.type o.param) (by show Defined o.type; rw [ht]; exact hdef) o.samples
    (by rw [hr.samples]; exact hr.rect)
  refine ⟨⟨ks ++ [some k], w.objs.set i (some { o with kernel := some ks.length }), w.handles, w.log ++ [(i, k.K)]⟩,
    ?_, ?_, ?_⟩
  · unfold KOwn.trainSmo
    rw [hd, Res_bind_ok, hk, Res_bind_ok]; rfl
  · refine h.update hx ho _ _ _ _ (.inr ⟨_, rfl, hal, ⟨hr.kind, hr.samples, hr.rect,
      fun _ => ⟨ht, hp, hdef, by simp⟩, by simp, fun a ha => ?_⟩⟩) (fun b hb hne => ?_) (fun o' a he ha => ?_)
      (fun k' hk' => ?_)
    · cases ha; exact Live.last _ _
    · exact (hlive b hb (hne (by rw [hr.kind, hs]))).append _
    · cases he; cases ha
      exact .inr (.inl (fun hl => by have := hl.lt; omega))
    · rcases List.mem_append.1 hk' with hm | hm
      · exact htype k' hm
      · simp at hm; subst hm; rw [hkt]; show Defined o.type; rw [ht]; exact hdef
  · have e : live ⟨ks ++ [some k], w.objs.set i (some { o with kernel := some ks.length }), w.handles,
        w.log ++ [(i, k.K)]⟩ = ks.countP (·.isSome) + 1 := by simp [live]
    rw [e]
    have e2 : (if o.kernel.isSome then 1 else 0) = (if x.trained then 1 else 0) := by
      by_cases htr : x.trained = true
      · rw [if_pos htr, if_pos (hiff.2 htr)]
      · rw [if_neg htr, if_neg (fun hc => htr (hiff.1 hc))]
    rw [e2] at hcount
    show _ = w.kernels.countP _ + 1
    omega

theorem Own.trainPerc {ws : List Want} {nk : Nat} {w : World} (h : Own ws nk w) {i : Nat} {x : Want} {o : Obj}
    (hx : ws[i]? = some x) (hal : x.alive = true) (ho : w.objs[i]? = some (some o)) (hr : Rel w.kernels x o)
    (hs : x.kind ≠ .smo) :
    ∃ w', KOwn.trainPerc w i o = .ok w' ∧ Own (ws.modify i (fun w => { w with trained := true })) nk w' ∧
      (x.kind ≠ .linear → live w' = live w) := by
  cases hk : o.kernel with
  | some a =>
    obtain ⟨k, hd, hka⟩ := derefK_live (hr.live a hk)
    obtain ⟨k', hc, hkt, _⟩ := compute_total k (h.typeAt hka) o.samples (by rw [hr.samples]; exact hr.rect)
    have hself : w.objs.set i (some o) = w.objs := by
      apply List.ext_getElem?
      intro j
      by_cases hj : i = j
      · subst hj; rw [List.getElem?_set_self (List.getElem?_eq_some_iff.1 ho).1, ho]
      · rw [List.getElem?_set_ne hj]
    refine ⟨⟨w.kernels.set a (some k'), w.objs, w.handles, w.log ++ [(i, k'.K)]⟩, ?_, ?_, fun _ => ?_⟩
    · unfold KOwn.trainPerc
      simp only [ensureKernel, hk, hd, Res_bind_ok, hc]; rfl
    · have := h.update hx ho (fun w : Want => { w with trained := true }) (some o) (w.kernels.set a (some k'))
        (w.log ++ [(i, k'.K)])
        (.inr ⟨o, rfl, hal, ⟨hr.kind, hr.samples, hr.rect, fun hc => absurd hc hs, fun _ _ => by rw [hk]; rfl,
          fun b hb => (hr.live b hb).set _ _⟩⟩) (fun b hb _ => hb.set _ _)
        (fun o' b he hb => by cases he; exact .inl ⟨hb, rfl⟩) (fun k'' hm => by
          rcases mem_set hm with h1 | h1
          · exact h.type k'' h1
          · cases h1; rw [hkt]; exact h.typeAt hka)
      rw [hself] at this; exact this
    · have := countP_set_add (·.isSome) (some k') w.kernels a (some k) hka
      simpa [live] using this
  | none =>
    have hlin : x.kind = .linear := by
      cases hkx : x.kind with
      | smo => exact absurd hkx hs
      | linear => rfl
      | perc =>
        have := hr.other hs (.inr hkx)
        rw [hk] at this; cases this
    obtain ⟨k', hc, hkt, _⟩ := compute_total (newK .innerProduct 0) (Or.inl rfl) o.samples
      (by rw [hr.samples]; exact hr.rect)
    refine ⟨⟨w.kernels ++ [some k'], w.objs.set i (some { o with kernel := some w.kernels.length }), w.handles,
      w.log ++ [(i, k'.K)]⟩, ?_, ?_, fun hne => absurd hlin hne⟩
    · unfold KOwn.trainPerc
      simp only [ensureKernel, hk]
      have hd : derefK (w.kernels ++ [some (newK .innerProduct 0)]) (some w.kernels.length) =
          .ok (newK .innerProduct 0) := by simp [derefK]
      simp only [hd, Res_bind_ok, hc]
      simp [putObj]
    · refine h.update hx ho _ _ _ _ (.inr ⟨_, rfl, hal, ⟨hr.kind, hr.samples, hr.rect,
        fun hc => absurd hc hs, by simp, fun a ha => ?_⟩⟩) (fun b hb _ => hb.append _) (fun o' a he ha => ?_)
        (fun k'' hm => ?_)
      · cases ha; exact Live.last _ _
      · cases he; cases ha
        exact .inr (.inl (fun hl => absurd hl.lt (lt_irrefl _)))
      · rcases List.mem_append.1 hm with hm | hm
        · exact h.type k'' hm
        · simp at hm; subst hm; rw [hkt]; exact Or.inl rfl

theorem Own.destroyObj {ws : List Want} {nk : Nat} {w : World} (h : Own ws nk w) {i : Nat} {x : Want} {o : Obj}
    (hx : ws[i]? = some x) (hal : x.alive = true) (ho : w.objs[i]? = some (some o)) (hr : Rel w.kernels x o) :
    ∃ w', KOwn.destroyObj w i o = .ok w' ∧ Own (ws.modify i (fun w => { w with alive := false })) nk w' ∧
      live w' + (if owns x then 1 else 0) = live w := by
  by_cases hs : x.kind = .smo
  · obtain ⟨ks, hd, hlen, hlive, htype, hcount⟩ := h.delete hr
    refine ⟨⟨ks, w.objs.set i none, w.handles, w.log⟩, ?_, ?_, ?_⟩
    · unfold KOwn.destroyObj destructor
      rw [if_pos (by rw [hr.kind, hs]), hd, Res_bind_ok]; rfl
    · exact h.update hx ho _ none ks w.log (.inl ⟨rfl, rfl⟩) (fun b hb hne => hlive b hb (hne (by rw [hr.kind, hs])))
        (fun o' a he => by cases he) htype
    · have e : owns x = x.trained := by simp [owns, hal, hs]
      have e2 : (if o.kernel.isSome then 1 else 0) = (if x.trained then 1 else 0) := by
        have hiff := (hr.smo hs).2.2.2
        by_cases htr : x.trained = true
        · rw [if_pos htr, if_pos (hiff.2 htr)]
        · rw [if_neg htr, if_neg (fun hc => htr (hiff.1 hc))]
      rw [e, ← e2]; exact hcount
  · refine ⟨⟨w.kernels, w.objs.set i none, w.handles, w.log⟩, ?_, ?_, ?_⟩
    · unfold KOwn.destroyObj destructor
      rw [if_neg (by rw [hr.kind]; exact hs), Res_bind_ok]; rfl
    · exact h.update hx ho _ none w.kernels w.log (.inl ⟨rfl, rfl⟩) (fun b hb _ => hb) (fun o' a he => by cases he) h.type
    · have e : owns x = false := by simp [owns, hs]
      simp [e, live]

theorem careful_step {pre : List Op} {op : Op} {w : World} (h : Own (wants pre) (ownKernels pre) w)
    (hc : Count (wants pre) (percs pre) (ownKernels pre) w) (ha : Careful pre op) :
    ∃ w', step w op = .ok w' ∧ Own (wants (pre ++ [op])) (ownKernels (pre ++ [op])) w' ∧
      Count (wants (pre ++ [op])) (percs (pre ++ [op])) (ownKernels (pre ++ [op])) w' := by
  rw [wants_snoc]
  cases op with
  | newSmo d t p =>
    have e1 : ownKernels (pre ++ [Op.newSmo d t p]) = ownKernels pre := by simp [ownKernels]
    have e2 : percs (pre ++ [Op.newSmo d t p]) = percs pre := by simp [percs]
    rw [e1, e2]
    obtain ⟨hd, ht⟩ := ha
    refine ⟨_, rfl, ?_, ?_⟩
    · refine h.push ⟨.smo, d, t, p, false, true⟩ ⟨.smo, d, t, p, none⟩ w.kernels
        ⟨rfl, rfl, hd, fun _ => ⟨rfl, rfl, ht, by simp⟩, by simp, by simp⟩ rfl (fun _ hb => hb) (by simp) h.type
    · intro hall
      have := hc (fun x hx => hall x (List.mem_append_left _ hx))
      simp only [wantStep, List.countP_append, List.countP_cons, List.countP_nil, owns] at this ⊢
      simpa [live] using this
  | newPerc d t p =>
    have e1 : ownKernels (pre ++ [Op.newPerc d t p]) = ownKernels pre := by simp [ownKernels]
    have e2 : percs (pre ++ [Op.newPerc d t p]) = percs pre + 1 := by simp [percs]
    rw [e1, e2]
    obtain ⟨hd, ht⟩ := ha
    refine ⟨_, rfl, ?_, ?_⟩
    · refine h.push ⟨.perc, d, t, p, false, true⟩ ⟨.perc, d, .innerProduct, 0, some w.kernels.length⟩
        (w.kernels ++ [some (newK t p)])
        ⟨rfl, rfl, hd, by simp, by simp, fun a ha => ?_⟩ rfl (fun _ hb => hb.append _) (fun a ha => ?_) ?_
      · cases ha; exact Live.last _ _
      · cases ha; exact .inl (fun hl => absurd hl.lt (lt_irrefl _))
      · intro k hk
        rcases List.mem_append.1 hk with hk | hk
        · exact h.type k hk
        · simp at hk; subst hk; exact ht
    · intro hall
      have := hc (fun x hx => hall x (List.mem_append_left _ hx))
      simp only [wantStep, List.countP_append, List.countP_cons, List.countP_nil, owns, live] at this ⊢
      simp at this ⊢; omega
  | newLinear d =>
    have e1 : ownKernels (pre ++ [Op.newLinear d]) = ownKernels pre := by simp [ownKernels]
    have e2 : percs (pre ++ [Op.newLinear d]) = percs pre := by simp [percs]
    rw [e1, e2]
    refine ⟨_, rfl, ?_, ?_⟩
    · refine h.push ⟨.linear, d, .innerProduct, 0, false, true⟩ ⟨.linear, d, .innerProduct, 0, none⟩ w.kernels
        ⟨rfl, rfl, ha, by simp, by simp, by simp⟩ rfl (fun _ hb => hb) (by simp) h.type
    · intro hall
      exact absurd rfl (hall ⟨.linear, d, .innerProduct, 0, false, true⟩ (by simp [wantStep]))
  | copy i =>
    have e1 : ownKernels (pre ++ [Op.copy i]) = ownKernels pre := by simp [ownKernels]
    have e2 : percs (pre ++ [Op.copy i]) = percs pre := by simp [percs]
    rw [e1, e2]
    obtain ⟨x, hx, hal, hk⟩ := ha
    obtain ⟨o, ho, hr⟩ := h.obj i x hx hal
    have hst : step w (.copy i) = .ok { w with objs := w.objs ++ [some o] } := by
      simp only [step, getObj_ok ho, Res_bind_ok]; rfl
    have hws : wantStep (wants pre) (.copy i) = wants pre ++ [x] := by simp [wantStep, hx]
    refine ⟨_, hst, ?_, ?_⟩
    · rw [hws]
      refine h.push x o w.kernels hr hal (fun _ hb => hb) (fun a ha => ?_) h.type
      by_cases hs : x.kind = .smo
      · have ht : x.trained = true := (hr.smo hs).2.2.2.1 (by rw [ha]; rfl)
        exact absurd ⟨hs, ht⟩ hk
      · exact .inr ⟨by rw [hr.kind]; exact hs, i, o, ho, ha, by rw [hr.kind]; exact hs⟩
    · rw [hws]
      intro hall
      have := hc (fun y hy => hall y (List.mem_append_left _ hy))
      have hno : owns x = false := by
        unfold owns
        by_cases hs : x.kind = .smo
        · have : x.trained = false := by simpa using fun ht => hk ⟨hs, ht⟩
          simp [this]
        · simp [hs]
      simp only [List.countP_append, List.countP_cons, List.countP_nil, hno] at this ⊢
      simpa [live] using this
  | setSamples i d =>
    have e1 : ownKernels (pre ++ [Op.setSamples i d]) = ownKernels pre := by simp [ownKernels]
    have e2 : percs (pre ++ [Op.setSamples i d]) = percs pre := by simp [percs]
    rw [e1, e2]
    obtain ⟨x, hx, hal, hd⟩ := ha
    obtain ⟨o, ho, hr⟩ := h.obj i x hx hal
    have hst : step w (.setSamples i d) = .ok (putObj w i { o with samples := d }) := by
      simp only [step, getObj_ok ho, Res_bind_ok]; rfl
    refine ⟨_, hst, ?_, hc.setter hx _ (fun _ => rfl) rfl rfl⟩
    exact h.update hx ho (fun w => { w with samples := d }) (some { o with samples := d }) w.kernels w.log
      (.inr ⟨_, rfl, hal, ⟨hr.kind, rfl, hd, hr.smo, hr.other, hr.live⟩⟩) (fun _ hb _ => hb)
      (fun o' a he ha => by cases he; exact .inl ⟨ha, rfl⟩) h.type
  | setType i t =>
    have e1 : ownKernels (pre ++ [Op.setType i t]) = ownKernels pre := by simp [ownKernels]
    have e2 : percs (pre ++ [Op.setType i t]) = percs pre := by simp [percs]
    rw [e1, e2]
    obtain ⟨x, hx, hal, ht⟩ := ha
    obtain ⟨o, ho, hr⟩ := h.obj i x hx hal
    obtain ⟨w', h1, h2, h3, _⟩ := h.setter hx hal ho (fun w => { w with type := t }) { o with type := t }
      ⟨hr.kind, hr.samples, hr.rect, fun hs => ⟨rfl, (hr.smo hs).2.1, ht, (hr.smo hs).2.2.2⟩, hr.other, hr.live⟩ rfl rfl rfl
      (fun k => setType k t) (fun _ _ => ht)
    refine ⟨w', ?_, h2, hc.setter hx _ (fun _ => rfl) rfl h3⟩
    simp only [step, getObj_ok ho, Res_bind_ok]; exact h1
  | setParam i p =>
    have e1 : ownKernels (pre ++ [Op.setParam i p]) = ownKernels pre := by simp [ownKernels]
    have e2 : percs (pre ++ [Op.setParam i p]) = percs pre := by simp [percs]
    rw [e1, e2]
    obtain ⟨x, hx, hal, _⟩ := ha
    obtain ⟨o, ho, hr⟩ := h.obj i x hx hal
    obtain ⟨w', h1, h2, h3, _⟩ := h.setter hx hal ho (fun w => { w with param := p }) { o with param := p }
      ⟨hr.kind, hr.samples, hr.rect, fun hs => ⟨(hr.smo hs).1, rfl, (hr.smo hs).2.2.1, (hr.smo hs).2.2.2⟩, hr.other,
        hr.live⟩ rfl rfl rfl (fun k => setParam k p) (fun _ hk => hk)
    refine ⟨w', ?_, h2, hc.setter hx _ (fun _ => rfl) rfl h3⟩
    simp only [step, getObj_ok ho, Res_bind_ok]; exact h1
  | recompute i =>
    have e1 : ownKernels (pre ++ [Op.recompute i]) = ownKernels pre := by simp [ownKernels]
    have e2 : percs (pre ++ [Op.recompute i]) = percs pre := by simp [percs]
    rw [e1, e2]
    obtain ⟨x, hx, hal, _⟩ := ha
    obtain ⟨o, ho, hr⟩ := h.obj i x hx hal
    obtain ⟨w', h1, h2, h3, _⟩ := h.setter hx hal ho (fun w => w) o hr rfl rfl rfl recompute (fun _ hk => hk)
    rw [modify_id] at h2
    have hput : putObj w i o = w := by
      have : w.objs.set i (some o) = w.objs := by
        apply List.ext_getElem?
        intro j
        by_cases hj : i = j
        · subst hj; rw [List.getElem?_set_self (List.getElem?_eq_some_iff.1 ho).1, ho]
        · rw [List.getElem?_set_ne hj]
      unfold putObj; rw [this]
    rw [hput] at h1
    refine ⟨w', ?_, h2, ?_⟩
    · simp only [step, getObj_ok ho, Res_bind_ok]; exact h1
    · intro hall
      rw [h3]; exact hc hall
  | train i =>
    have e1 : ownKernels (pre ++ [Op.train i]) = ownKernels pre := by simp [ownKernels]
    have e2 : percs (pre ++ [Op.train i]) = percs pre := by simp [percs]
    rw [e1, e2]
    obtain ⟨x, hx, hal, _⟩ := ha
    obtain ⟨o, ho, hr⟩ := h.obj i x hx hal
    by_cases hs : x.kind = .smo
    · obtain ⟨w', h1, h2, h3⟩ := h.trainSmo hx hal ho hr hs
      refine ⟨w', ?_, h2, fun hall => ?_⟩
      · simp only [step, getObj_ok ho, Res_bind_ok]
        rw [if_pos (by rw [hr.kind, hs])]; exact h1
      · have h4 := hc (mem_modify_kind (f := fun w : Want => { w with trained := true }) (fun _ => rfl) hall)
        have h5 := countP_modify_add owns (fun w : Want => { w with trained := true }) (wants pre) i x hx
        have h6 : owns { x with trained := true } = true := by simp [owns, hal, hs]
        have h7 : owns x = x.trained := by simp [owns, hal, hs]
        rw [h6, h7] at h5
        show live w' = ((wants pre).modify i (fun w : Want => { w with trained := true })).countP owns + _ + _
        simp only [if_true] at h5
        omega
    · obtain ⟨w', h1, h2, h3⟩ := h.trainPerc hx hal ho hr hs
      refine ⟨w', ?_, h2, fun hall => ?_⟩
      · simp only [step, getObj_ok ho, Res_bind_ok]
        rw [if_neg (by rw [hr.kind]; exact hs)]; exact h1
      · have hlin := mem_modify_kind (f := fun w : Want => { w with trained := true }) (fun _ => rfl) hall
        have h4 := hc hlin
        have h5 := countP_modify_add owns (fun w : Want => { w with trained := true }) (wants pre) i x hx
        have h6 : owns { x with trained := true } = false := by simp [owns, hs]
        have h7 : owns x = false := by simp [owns, hs]
        rw [h6, h7] at h5
        show live w' = ((wants pre).modify i (fun w : Want => { w with trained := true })).countP owns + _ + _
        have := h3 (hlin x (List.mem_of_getElem? hx))
        simp only [Bool.false_eq_true, if_false] at h5
        omega
  | evaluate i =>
    have e1 : ownKernels (pre ++ [Op.evaluate i]) = ownKernels pre := by simp [ownKernels]
    have e2 : percs (pre ++ [Op.evaluate i]) = percs pre := by simp [percs]
    rw [e1, e2]
    obtain ⟨x, hx, hal, ht⟩ := ha
    obtain ⟨o, ho, hr⟩ := h.obj i x hx hal
    have hsome : o.kernel.isSome := by
      by_cases hs : x.kind = .smo
      · refine (hr.smo hs).2.2.2.2 ?_
        rcases ht with ht | ht
        · exact ht
        · rw [hs] at ht; cases ht
      · exact hr.other hs ht
    obtain ⟨a, hka⟩ := Option.isSome_iff_exists.1 hsome
    obtain ⟨k, hd, _⟩ := derefK_live (hr.live a hka)
    refine ⟨w, ?_, h, hc⟩
    simp only [step, getObj_ok ho, Res_bind_ok, hka, hd]; rfl
  | destroy i =>
    have e1 : ownKernels (pre ++ [Op.destroy i]) = ownKernels pre := by simp [ownKernels]
    have e2 : percs (pre ++ [Op.destroy i]) = percs pre := by simp [percs]
    rw [e1, e2]
    obtain ⟨x, hx, hal, _⟩ := ha
    obtain ⟨o, ho, hr⟩ := h.obj i x hx hal
    obtain ⟨w', h1, h2, h3⟩ := h.destroyObj hx hal ho hr
    refine ⟨w', ?_, h2, fun hall => ?_⟩
    · simp only [step, getObj_ok ho, Res_bind_ok]; exact h1
    · have h4 := hc (mem_modify_kind (f := fun w : Want => { w with alive := false }) (fun _ => rfl) hall)
      have h5 := countP_modify_add owns (fun w : Want => { w with alive := false }) (wants pre) i x hx
      have h6 : owns { x with alive := false } = false := by simp [owns]
      rw [h6] at h5
      show live w' = ((wants pre).modify i (fun w : Want => { w with alive := false })).countP owns + _ + _
      simp only [Bool.false_eq_true, if_false] at h5
      omega
  | newKernel t p =>
    have e1 : ownKernels (pre ++ [Op.newKernel t p]) = ownKernels pre + 1 := by simp [ownKernels]
    have e2 : percs (pre ++ [Op.newKernel t p]) = percs pre := by simp [percs]
    rw [e1, e2]
    refine ⟨_, rfl, ?_, ?_⟩
    · refine ⟨h.len, fun i x hx hal => ?_, h.dead, h.uniq, fun a ha' => ?_, fun i o a ho hk hka hm => ?_, by simp [h.nh],
        fun k hk => ?_⟩
      · obtain ⟨o, ho, hr⟩ := h.obj i x hx hal
        exact ⟨o, ho, hr.mono (fun a _ hl => hl.append _)⟩
      · rcases List.mem_append.1 ha' with hm | hm
        · exact (h.hand a hm).append _
        · simp at hm; subst hm; exact Live.last _ _
      · rcases List.mem_append.1 hm with hm | hm
        · exact h.handSmo i o a ho hk hka hm
        · simp at hm
          obtain ⟨x, _, _, hr⟩ := h.objLive ho
          have := (hr.live a hka).lt
          omega
      · rcases List.mem_append.1 hk with hk | hk
        · exact h.type k hk
        · simp at hk; subst hk; exact ha
    · intro hall
      have := hc hall
      simp only [wantStep, live] at this ⊢
      simp at this ⊢; omega
  | setKernel i n =>
    have e1 : ownKernels (pre ++ [Op.setKernel i n]) = ownKernels pre := by simp [ownKernels]
    have e2 : percs (pre ++ [Op.setKernel i n]) = percs pre := by simp [percs]
    rw [e1, e2]
    obtain ⟨⟨x, hx, hal, hk⟩, hn⟩ := ha
    obtain ⟨o, ho, hr⟩ := h.obj i x hx hal
    have hn' : n < w.handles.length := by rw [h.nh]; exact hn
    have hm : w.handles[n] ∈ w.handles := List.getElem_mem hn'
    have hst : step w (.setKernel i n) = .ok (putObj w i { o with kernel := some w.handles[n] }) := by
      simp only [step, getObj_ok ho, Res_bind_ok, vget_eq_ok.2 (List.getElem?_eq_getElem hn')]; rfl
    refine ⟨_, hst, ?_, ?_⟩
    · have := h.update hx ho (fun w => w) (some { o with kernel := some w.handles[n] }) w.kernels w.log
        (.inr ⟨_, rfl, hal, ⟨hr.kind, hr.samples, hr.rect, fun hs => absurd hs hk, by simp,
          fun a ha => by cases ha; exact h.hand _ hm⟩⟩) (fun _ hb _ => hb)
        (fun o' a he ha => by cases he; cases ha; exact .inr (.inr ⟨by simpa [hr.kind] using hk, hm⟩)) h.type
      rw [modify_id] at this; exact this
    · intro hall; exact hc hall
  | useKernel n =>
    have e1 : ownKernels (pre ++ [Op.useKernel n]) = ownKernels pre := by simp [ownKernels]
    have e2 : percs (pre ++ [Op.useKernel n]) = percs pre := by simp [percs]
    rw [e1, e2]
    have hn' : n < w.handles.length := by rw [h.nh]; exact ha
    obtain ⟨k, hd, _⟩ := derefK_live (h.hand _ (List.getElem_mem hn'))
    refine ⟨w, ?_, h, hc⟩
    simp only [step, Res_bind_ok, vget_eq_ok.2 (List.getElem?_eq_getElem hn'), hd]; rfl

theorem run_snoc (pre : List Op) (op : Op) : run (pre ++ [op]) = (run pre) >>= fun w => step w op := by
  unfold run
  rw [List.foldlM_append]
  congr 1
  funext w
  simp only [List.foldlM_cons, List.foldlM_nil]
  cases step w op <;> rfl

theorem careful_run (ops : List Op) (h : CarefulProgram ops) :
    ∃ w, run ops = .ok w ∧ Own (wants ops) (ownKernels ops) w ∧ Count (wants ops) (percs ops) (ownKernels ops) w := by
  induction ops using List.reverseRecOn with
  | nil =>
    refine ⟨World.empty, rfl, ⟨rfl, ?_, ?_, ?_, ?_, ?_, rfl, ?_⟩, fun _ => rfl⟩ <;>
      intros <;> simp_all [World.empty, wants]
  | append_singleton pre op ih =>
    obtain ⟨w, hw, ho, hc⟩ := ih (fun p o q he => h p o (q ++ [op]) (by rw [he]; simp))
    obtain ⟨w', h1, h2, h3⟩ := careful_step ho hc (h pre op [] rfl)
    exact ⟨w', by rw [run_snoc, hw, Res_bind_ok, h1], h2, h3⟩

end MLTK.KOwn
