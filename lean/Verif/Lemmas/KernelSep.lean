import Verif.Lemmas.KernelOwner
/-!
# What objects hold in any program, and in programs where no two objects share a kernel
-/
namespace MLTK.KOwn
open MLTK.Kernel MLTK.Spec
open MLTK.Data (Res_bind_ok Res_bind_error Res_pure)

theorem bindInv {α β : Type} {r : Res α} {f : α → Res β} {b : β} (h : (r >>= f) = .ok b) :
    ∃ a, r = .ok a ∧ f a = .ok b := by
  cases r with
  | error e => cases h
  | ok a => exact ⟨a, rfl, h⟩

/-- The members of every existing object agree with what was asked of it. -/
structure Agree (ws : List Want) (objs : List (Option Obj)) : Prop where
  len : objs.length = ws.length
  obj : ∀ (i : Nat) (o : Obj), objs[i]? = some (some o) → ∃ x, ws[i]? = some x ∧ o.kind = x.kind ∧
    o.samples = x.samples ∧ (o.kind ≠ .perc → o.type = x.type ∧ o.param = x.param)

theorem Agree.update {ws : List Want} {objs : List (Option Obj)} (h : Agree ws objs) {i : Nat} {o : Obj}
    (ho : objs[i]? = some (some o)) (f : Want → Want) (oo : Option Obj)
    (hf : ∀ x o', oo = some o' → ws[i]? = some x → o.kind = x.kind ∧ o.samples = x.samples ∧
      (o.kind ≠ .perc → o.type = x.type ∧ o.param = x.param) → o'.kind = (f x).kind ∧ o'.samples = (f x).samples ∧
      (o'.kind ≠ .perc → o'.type = (f x).type ∧ o'.param = (f x).param)) :
    Agree (ws.modify i f) (objs.set i oo) := by
  refine ⟨by simp [h.len], fun j oj hj => ?_⟩
  by_cases hji : i = j
  · subst hji
    rw [List.getElem?_set_self (List.getElem?_eq_some_iff.1 ho).1] at hj
    obtain ⟨x, hx, hr⟩ := h.obj i o ho
    refine ⟨f x, by rw [List.getElem?_modify, hx]; simp, hf x oj (by simpa using hj) hx hr⟩
  · rw [List.getElem?_set_ne hji] at hj
    obtain ⟨x, hx, hr⟩ := h.obj j oj hj
    exact ⟨x, by rw [List.getElem?_modify, hx]; simp [hji], hr⟩

theorem Agree.push {ws : List Want} {objs : List (Option Obj)} (h : Agree ws objs) (x : Want) (o : Obj)
    (hr : o.kind = x.kind ∧ o.samples = x.samples ∧ (o.kind ≠ .perc → o.type = x.type ∧ o.param = x.param)) :
    Agree (ws ++ [x]) (objs ++ [some o]) := by
  refine ⟨by simp [h.len], fun j oj hj => ?_⟩
  by_cases hl : j < objs.length
  · rw [List.getElem?_append_left hl] at hj
    obtain ⟨y, hy, hr⟩ := h.obj j oj hj
    exact ⟨y, by rw [List.getElem?_append_left (h.len ▸ hl), hy], hr⟩
  · have hlt := (List.getElem?_eq_some_iff.1 hj).1
    have hje : j = objs.length := by simp at hlt; omega
    subst hje
    simp at hj; subst hj
    exact ⟨x, by rw [h.len]; simp, hr⟩

theorem onKernel_objs {w w' : World} {p : Option Nat} {g : Kern → Kern} (h : onKernel w p g = .ok w') :
    w'.objs = w.objs ∧ w'.handles = w.handles ∧ w'.log = w.log ∧
    ((p = none ∧ w'.kernels = w.kernels) ∨ ∃ a k, p = some a ∧ w.kernels[a]? = some (some k) ∧
      w'.kernels = w.kernels.set a (some (g k))) := by
  cases p with
  | none => cases h; exact ⟨rfl, rfl, rfl, .inl ⟨rfl, rfl⟩⟩
  | some a =>
    obtain ⟨k, hk, hr⟩ := bindInv h
    cases hr
    obtain ⟨a', e, hka⟩ := derefK_inv hk
    cases e
    exact ⟨rfl, rfl, rfl, .inr ⟨a, k, rfl, hka, rfl⟩⟩

/-- What `SMO::train` leaves. -/
theorem trainSmo_inv {w w' : World} {i : Nat} {o : Obj} (h : trainSmo w i o = .ok w') :
    ∃ ks k, deleteK w.kernels o.kernel = .ok ks ∧ compute (newK o.type o.param) o.samples.dim o.samples.xs none = .ok k ∧
      w' = ⟨ks ++ [some k], w.objs.set i (some { o with kernel := some ks.length }), w.handles, w.log ++ [(i, k.K)]⟩ := by
  unfold trainSmo at h
  obtain ⟨ks, h1, h⟩ := bindInv h
  obtain ⟨k, h2, h⟩ := bindInv h
  cases h
  exact ⟨ks, k, h1, h2, rfl⟩

/-- What `train` of a perceptron leaves. -/
theorem trainPerc_inv {w w' : World} {i : Nat} {o : Obj} (ho : w.objs[i]? = some (some o))
    (h : trainPerc w i o = .ok w') :
    ∃ k', w'.log = w.log ++ [(i, k'.K)] ∧ w'.handles = w.handles ∧
      ((∃ a k, o.kernel = some a ∧ w.kernels[a]? = some (some k) ∧ compute k o.samples.dim o.samples.xs none = .ok k' ∧
          w'.kernels = w.kernels.set a (some k') ∧ w'.objs = w.objs.set i (some o)) ∨
       (o.kernel = none ∧ compute (newK .innerProduct 0) o.samples.dim o.samples.xs none = .ok k' ∧
          w'.kernels = w.kernels ++ [some k'] ∧ w'.objs = w.objs.set i (some { o with kernel := some w.kernels.length }))) := by
  unfold trainPerc at h
  obtain ⟨k, h1, h⟩ := bindInv h
  obtain ⟨k', h2, h⟩ := bindInv h
  cases h
  cases hk : o.kernel with
  | none =>
    have e : ensureKernel w i o = ({ putObj w i { o with kernel := some w.kernels.length } with
      kernels := w.kernels ++ [some (newK .innerProduct 0)] }, w.kernels.length) := by simp [ensureKernel, hk]
    rw [e] at h1
    have hd : derefK (w.kernels ++ [some (newK .innerProduct 0)]) (some w.kernels.length) =
        .ok (newK .innerProduct 0) := by simp [derefK]
    simp only at h1
    rw [hd] at h1; cases h1
    refine ⟨k', by rw [e]; rfl, by rw [e]; rfl, .inr ⟨rfl, h2, by rw [e]; simp, by rw [e]; rfl⟩⟩
  | some a =>
    have e : ensureKernel w i o = (w, a) := by simp [ensureKernel, hk]
    rw [e] at h1
    obtain ⟨a', ea, hka⟩ := derefK_inv h1
    cases ea
    have hself : w.objs.set i (some o) = w.objs := by
      apply List.ext_getElem?
      intro j
      by_cases hj : i = j
      · subst hj; rw [List.getElem?_set_self (List.getElem?_eq_some_iff.1 ho).1, ho]
      · rw [List.getElem?_set_ne hj]
    exact ⟨k', by rw [e], by rw [e], .inl ⟨a, k, rfl, hka, h2, by rw [e], by rw [e, hself]⟩⟩

theorem agree_step {ws : List Want} {w w' : World} {op : Op} (h : Agree ws w.objs) (hs : step w op = .ok w') :
    Agree (wantStep ws op) w'.objs := by
  cases op with
  | newSmo d t p => cases hs; exact h.push _ _ ⟨rfl, rfl, fun _ => ⟨rfl, rfl⟩⟩
  | newPerc d t p => cases hs; exact h.push _ _ ⟨rfl, rfl, fun hc => absurd rfl hc⟩
  | newLinear d => cases hs; exact h.push _ _ ⟨rfl, rfl, fun _ => ⟨rfl, rfl⟩⟩
  | copy i =>
    obtain ⟨o, ho, hs⟩ := bindInv hs
    cases hs
    obtain ⟨x, hx, hr⟩ := h.obj i o (getObj_inv ho)
    simp only [wantStep, hx, Option.toList_some]
    exact h.push x o hr
  | setSamples i d =>
    obtain ⟨o, ho, hs⟩ := bindInv hs
    cases hs
    exact h.update (getObj_inv ho) _ _ (fun x o' he _ hr => by cases he; exact ⟨hr.1, rfl, hr.2.2⟩)
  | setType i t =>
    obtain ⟨o, ho, hs⟩ := bindInv hs
    rw [(onKernel_objs hs).1]
    exact h.update (getObj_inv ho) _ _ (fun x o' he _ hr => by
      cases he; exact ⟨hr.1, hr.2.1, fun hk => ⟨rfl, (hr.2.2 hk).2⟩⟩)
  | setParam i p =>
    obtain ⟨o, ho, hs⟩ := bindInv hs
    rw [(onKernel_objs hs).1]
    exact h.update (getObj_inv ho) _ _ (fun x o' he _ hr => by
      cases he; exact ⟨hr.1, hr.2.1, fun hk => ⟨(hr.2.2 hk).1, rfl⟩⟩)
  | recompute i =>
    obtain ⟨o, ho, hs⟩ := bindInv hs
    rw [(onKernel_objs hs).1]
    exact h
  | train i =>
    obtain ⟨o, ho, hs⟩ := bindInv hs
    have ho' := getObj_inv ho
    by_cases hk : o.kind = .smo
    · rw [if_pos hk] at hs
      obtain ⟨ks, k, _, _, rfl⟩ := trainSmo_inv hs
      exact h.update ho' _ _ (fun x o' he _ hr => by cases he; exact hr)
    · rw [if_neg hk] at hs
      obtain ⟨k', _, _, hc⟩ := trainPerc_inv ho' hs
      rcases hc with ⟨a, k, _, _, _, _, e⟩ | ⟨_, _, _, e⟩
      · rw [e]; exact h.update ho' _ _ (fun x o' he _ hr => by cases he; exact hr)
      · rw [e]; exact h.update ho' _ _ (fun x o' he _ hr => by cases he; exact hr)
  | evaluate i =>
    obtain ⟨o, ho, hs⟩ := bindInv hs
    obtain ⟨k, _, hs⟩ := bindInv hs
    cases hs; exact h
  | destroy i =>
    obtain ⟨o, ho, hs⟩ := bindInv hs
    unfold destroyObj at hs
    obtain ⟨ks, _, hs⟩ := bindInv hs
    cases hs
    exact h.update (getObj_inv ho) _ none (fun x o' he _ hr => by cases he)
  | newKernel t p => cases hs; exact h
  | setKernel i n =>
    obtain ⟨o, ho, hs⟩ := bindInv hs
    obtain ⟨a, _, hs⟩ := bindInv hs
    cases hs
    have := h.update (getObj_inv ho) (fun w => w) (some { o with kernel := some a })
      (fun x o' he _ hr => by cases he; exact hr)
    rwa [modify_id] at this
  | useKernel n =>
    obtain ⟨a, _, hs⟩ := bindInv hs
    obtain ⟨k, _, hs⟩ := bindInv hs
    cases hs; exact h

theorem agree_run (ops : List Op) : ∀ w, run ops = .ok w → Agree (wants ops) w.objs := by
  induction ops using List.reverseRecOn with
  | nil => intro w h; cases h; exact ⟨rfl, fun i o h => by simp [World.empty] at h⟩
  | append_singleton pre op ih =>
    intro w h
    rw [run_snoc] at h
    obtain ⟨w0, h0, h1⟩ := bindInv h
    rw [wants_snoc]
    exact agree_step (ih w0 h0) h1

/-- No two objects share a kernel, and that of a perceptron has the type and parameter asked for. -/
structure Sep (ws : List Want) (w : World) : Prop where
  agree : Agree ws w.objs
  bound : ∀ (i : Nat) (o : Obj) (a : Nat), w.objs[i]? = some (some o) → o.kernel = some a → a < w.kernels.length
  uniq : ∀ (i j : Nat) (oi oj : Obj) (a : Nat), w.objs[i]? = some (some oi) → w.objs[j]? = some (some oj) →
    oi.kernel = some a → oj.kernel = some a → i = j
  perc : ∀ (i : Nat) (o : Obj) (x : Want), w.objs[i]? = some (some o) → ws[i]? = some x → o.kind = .perc →
    ∃ a k, o.kernel = some a ∧ w.kernels[a]? = some (some k) ∧ k.type = x.type ∧ k.param = x.param

theorem Sep.update {ws : List Want} {w w' : World} (h : Sep ws w) {i : Nat} {o : Obj}
    (ho : w.objs[i]? = some (some o)) (f : Want → Want) (oo : Option Obj)
    (hagree : Agree (ws.modify i f) w'.objs) (hobjs : w'.objs = w.objs.set i oo)
    (hlen : w.kernels.length ≤ w'.kernels.length)
    (hks : ∀ b, b < w.kernels.length → o.kernel ≠ some b → w'.kernels[b]? = w.kernels[b]?)
    (hfresh : ∀ o' a, oo = some o' → o'.kernel = some a →
      a < w'.kernels.length ∧ (o.kernel = some a ∨ w.kernels.length ≤ a))
    (hperc : ∀ o' x, oo = some o' → ws[i]? = some x → o'.kind = .perc →
      ∃ a k, o'.kernel = some a ∧ w'.kernels[a]? = some (some k) ∧ k.type = (f x).type ∧ k.param = (f x).param) :
    Sep (ws.modify i f) w' := by
  have hi : i < w.objs.length := (List.getElem?_eq_some_iff.1 ho).1
  have hget : ∀ (j : Nat) (oj : Obj), w'.objs[j]? = some (some oj) →
      (j ≠ i ∧ w.objs[j]? = some (some oj)) ∨ (j = i ∧ oo = some oj) := by
    intro j oj hj
    rw [hobjs] at hj
    by_cases hji : i = j
    · subst hji
      rw [List.getElem?_set_self hi] at hj
      exact .inr ⟨rfl, by simpa using hj⟩
    · rw [List.getElem?_set_ne hji] at hj
      exact .inl ⟨fun e => hji e.symm, hj⟩
  refine ⟨hagree, fun j oj a hj ha => ?_, fun j k oj ok a hj hk ha hb => ?_, fun j oj x hj hx hp => ?_⟩
  · rcases hget j oj hj with ⟨_, hj⟩ | ⟨_, hj⟩
    · exact lt_of_lt_of_le (h.bound j oj a hj ha) hlen
    · exact (hfresh oj a hj ha).1
  · rcases hget j oj hj with ⟨hne, hj'⟩ | ⟨rfl, hj'⟩ <;> rcases hget k ok hk with ⟨hne', hk'⟩ | ⟨rfl, hk'⟩
    · exact h.uniq j k oj ok a hj' hk' ha hb
    · exfalso
      rcases (hfresh ok a hk' hb).2 with h1 | h1
      · exact hne (h.uniq j k oj o a hj' ho ha h1)
      · exact absurd (h.bound j oj a hj' ha) (by omega)
    · exfalso
      rcases (hfresh oj a hj' ha).2 with h1 | h1
      · exact hne' (h.uniq k j ok o a hk' ho hb h1)
      · exact absurd (h.bound k ok a hk' hb) (by omega)
    · rfl
  · rcases hget j oj hj with ⟨hne, hj'⟩ | ⟨rfl, hj'⟩
    · have hx' : ws[j]? = some x := by
        rw [List.getElem?_modify] at hx; simpa [show ¬ i = j from fun e => hne e.symm] using hx
      obtain ⟨a, k, h1, h2, h3, h4⟩ := h.perc j oj x hj' hx' hp
      refine ⟨a, k, h1, ?_, h3, h4⟩
      rw [hks a (h.bound j oj a hj' h1) (fun hc => hne (h.uniq j i oj o a hj' ho h1 hc)), h2]
    · obtain ⟨y, hy, _⟩ := h.agree.obj j o ho
      have e : (ws.modify j f)[j]? = some (f y) := by rw [List.getElem?_modify, hy]; simp
      rw [e] at hx; cases hx
      exact hperc oj y hj' hy hp

theorem Sep.push {ws : List Want} {w w' : World} (h : Sep ws w) (x : Want) (o : Obj)
    (hagree : Agree (ws ++ [x]) w'.objs) (hobjs : w'.objs = w.objs ++ [some o])
    (hks : ∀ b, b < w.kernels.length → w'.kernels[b]? = w.kernels[b]?)
    (hlen : w.kernels.length ≤ w'.kernels.length)
    (hfresh : ∀ a, o.kernel = some a → a < w'.kernels.length ∧ w.kernels.length ≤ a)
    (hperc : o.kind = .perc → ∃ a k, o.kernel = some a ∧ w'.kernels[a]? = some (some k) ∧ k.type = x.type ∧ k.param = x.param) :
    Sep (ws ++ [x]) w' := by
  have hget : ∀ (j : Nat) (oj : Obj), w'.objs[j]? = some (some oj) →
      w.objs[j]? = some (some oj) ∨ (j = w.objs.length ∧ oj = o) := by
    intro j oj hj
    rw [hobjs] at hj
    by_cases hl : j < w.objs.length
    · rw [List.getElem?_append_left hl] at hj; exact .inl hj
    · have hlt := (List.getElem?_eq_some_iff.1 hj).1
      have hje : j = w.objs.length := by simp at hlt; omega
      subst hje
      simp at hj
      exact .inr ⟨rfl, hj.symm⟩
  refine ⟨hagree, fun j oj a hj ha => ?_, fun j k oj ok a hj hk ha hb => ?_, fun j oj y hj hy hp => ?_⟩
  · rcases hget j oj hj with hj | ⟨_, rfl⟩
    · exact lt_of_lt_of_le (h.bound j oj a hj ha) hlen
    · exact (hfresh a ha).1
  · rcases hget j oj hj with hj' | ⟨rfl, rfl⟩ <;> rcases hget k ok hk with hk' | ⟨rfl, rfl⟩
    · exact h.uniq j k oj ok a hj' hk' ha hb
    · exact absurd (h.bound j oj a hj' ha) (by have := (hfresh a hb).2; omega)
    · exact absurd (h.bound k ok a hk' hb) (by have := (hfresh a ha).2; omega)
    · rfl
  · rcases hget j oj hj with hj' | ⟨rfl, rfl⟩
    · have hl : j < ws.length := h.agree.len ▸ (List.getElem?_eq_some_iff.1 hj').1
      rw [List.getElem?_append_left hl] at hy
      obtain ⟨a, k, h1, h2, h3, h4⟩ := h.perc j oj y hj' hy hp
      exact ⟨a, k, h1, by rw [hks a (h.bound j oj a hj' h1), h2], h3, h4⟩
    · rw [h.agree.len] at hy
      simp at hy; subst hy
      exact hperc hp

/-- Operations by which objects come to share a kernel. -/
def Op.shares : Op → Bool
  | .copy _ | .setKernel _ _ => true
  | _ => false

theorem deleteK_other {ks ks' : List (Option Kern)} {p : Option Nat} (h : deleteK ks p = .ok ks') :
    ks'.length = ks.length ∧ ∀ b, p ≠ some b → ks'[b]? = ks[b]? := by
  rcases deleteK_inv h with ⟨_, rfl⟩ | ⟨a, rfl, _, rfl⟩
  · exact ⟨rfl, fun _ _ => rfl⟩
  · exact ⟨by simp, fun b hb => List.getElem?_set_ne (fun e => hb (by rw [e]))⟩

theorem sep_setter {ws : List Want} {w w' : World} (h : Sep ws w) {i : Nat} {o o' : Obj}
    (ho : w.objs[i]? = some (some o)) (f : Want → Want) (g : Kern → Kern)
    (hagree : Agree (ws.modify i f) w'.objs) (hk : o'.kernel = o.kernel) (hkind : o'.kind = o.kind)
    (hs : onKernel (putObj w i o') o.kernel g = .ok w')
    (hg : ∀ k x, k.type = x.type → k.param = x.param → (g k).type = (f x).type ∧ (g k).param = (f x).param) :
    Sep (ws.modify i f) w' := by
  obtain ⟨e1, _, _, e2⟩ := onKernel_objs hs
  have hb : ∀ a, o.kernel = some a → a < w.kernels.length := fun a ha => h.bound i o a ho ha
  rcases e2 with ⟨hn, e2⟩ | ⟨a, k, ha, hka, e2⟩
  · have e2' : w'.kernels = w.kernels := e2
    refine h.update ho f (some o') hagree e1 (by rw [e2']) (fun b _ _ => by rw [e2']) (fun o'' a he ha => ?_)
      (fun o'' x he hx hp => ?_)
    · cases he; rw [hk, hn] at ha; cases ha
    · cases he
      obtain ⟨a, _, h1, _⟩ := h.perc i o x ho hx (by rw [← hkind, hp])
      rw [hn] at h1; cases h1
  · have e2' : w'.kernels = w.kernels.set a (some (g k)) := e2
    have hka' : w.kernels[a]? = some (some k) := hka
    refine h.update ho f (some o') hagree e1 (by rw [e2']; simp) (fun b _ hne => ?_) (fun o'' c he hc => ?_)
      (fun o'' x he hx hp => ?_)
    · rw [e2', List.getElem?_set_ne (fun e => hne (by rw [ha, e]))]
    · cases he; rw [hk] at hc
      exact ⟨by rw [e2']; simp; exact hb c hc, .inl hc⟩
    · cases he
      obtain ⟨c, k0, h1, h2, h3, h4⟩ := h.perc i o x ho hx (by rw [← hkind, hp])
      rw [ha] at h1; cases h1
      rw [hka'] at h2; cases h2
      exact ⟨a, g k, by rw [hk, ha], by rw [e2', List.getElem?_set_self (hb a ha)], (hg k x h3 h4).1, (hg k x h3 h4).2⟩

theorem compute_keeps {k k' : Kern} {n xs f} (h : compute k n xs f = .ok k') : k'.type = k.type ∧ k'.param = k.param := by
  unfold compute at h
  by_cases hc : k.computed = true
  · simp [hc] at h; rw [← h]; exact ⟨rfl, rfl⟩
  · simp only [Bool.not_eq_true] at hc
    simp only [hc, Bool.false_eq_true, if_false] at h
    obtain ⟨M, _, h⟩ := bindInv h
    cases h
    split <;> exact ⟨rfl, rfl⟩

theorem sep_step {ws : List Want} {w w' : World} {op : Op} (h : Sep ws w) (hno : op.shares = false)
    (hs : step w op = .ok w') : Sep (wantStep ws op) w' := by
  have hag := agree_step h.agree hs
  cases op with
  | newSmo d t p =>
    cases hs
    exact h.push _ _ hag rfl (fun _ _ => rfl) le_rfl (by simp) (by simp)
  | newPerc d t p =>
    cases hs
    refine h.push _ _ hag rfl (fun b hb => by simp [List.getElem?_append_left hb]) (by simp) (fun a ha => ?_)
      (fun _ => ⟨w.kernels.length, newK t p, rfl, by simp, rfl, rfl⟩)
    cases ha; simp
  | newLinear d =>
    cases hs
    exact h.push _ _ hag rfl (fun _ _ => rfl) le_rfl (by simp) (by simp)
  | copy i => cases hno
  | setSamples i d =>
    obtain ⟨o, ho, hs⟩ := bindInv hs
    cases hs
    have ho' := getObj_inv ho
    exact h.update ho' _ (some { o with samples := d }) hag rfl le_rfl (fun _ _ _ => rfl)
      (fun o' a he ha => by cases he; exact ⟨h.bound i o a ho' ha, .inl ha⟩)
      (fun o' x he hx hp => by cases he; exact h.perc i o x ho' hx hp)
  | setType i t =>
    obtain ⟨o, ho, hs⟩ := bindInv hs
    exact sep_setter (o' := { o with type := t }) h (getObj_inv ho) _ (fun k => setType k t) hag rfl rfl hs
      (fun k x _ h2 => ⟨rfl, h2⟩)
  | setParam i p =>
    obtain ⟨o, ho, hs⟩ := bindInv hs
    exact sep_setter (o' := { o with param := p }) h (getObj_inv ho) _ (fun k => setParam k p) hag rfl rfl hs
      (fun k x h1 _ => ⟨h1, rfl⟩)
  | recompute i =>
    obtain ⟨o, ho, hs⟩ := bindInv hs
    have ho' := getObj_inv ho
    have hput : putObj w i o = w := by
      have : w.objs.set i (some o) = w.objs := by
        apply List.ext_getElem?
        intro j
        by_cases hj : i = j
        · subst hj; rw [List.getElem?_set_self (List.getElem?_eq_some_iff.1 ho').1, ho']
        · rw [List.getElem?_set_ne hj]
      unfold putObj; rw [this]
    rw [← hput] at hs
    have := sep_setter h ho' (fun x => x) recompute (by rw [modify_id]; exact hag) rfl rfl hs (fun k x h1 h2 => ⟨h1, h2⟩)
    rwa [modify_id] at this
  | train i =>
    obtain ⟨o, ho, hs⟩ := bindInv hs
    have ho' := getObj_inv ho
    by_cases hk : o.kind = .smo
    · rw [if_pos hk] at hs
      obtain ⟨ks, k, hd, _, rfl⟩ := trainSmo_inv hs
      obtain ⟨hl, hoth⟩ := deleteK_other hd
      refine h.update ho' _ _ hag rfl (by simp [hl]) (fun b hb hne => ?_) (fun o' a he ha => ?_)
        (fun o' x he hx hp => ?_)
      · simp only; rw [List.getElem?_append_left (by omega), hoth b hne]
      · cases he; cases ha; exact ⟨by simp, .inr (by omega)⟩
      · cases he; rw [show o.kind = _ from hp] at hk; cases hk
    · rw [if_neg hk] at hs
      obtain ⟨k', _, _, hc⟩ := trainPerc_inv ho' hs
      rcases hc with ⟨a, k, hka, hkk, hcomp, e1, e2⟩ | ⟨hn, _, e1, e2⟩
      · have hb := h.bound i o a ho' hka
        refine h.update ho' _ _ hag e2 (by rw [e1]; simp) (fun b hb hne => ?_) (fun o' c he hc => ?_)
          (fun o' x he hx hp => ?_)
        · rw [e1, List.getElem?_set_ne (fun e => hne (by rw [hka, e]))]
        · cases he; exact ⟨by rw [e1]; simp; exact h.bound i o c ho' hc, .inl hc⟩
        · cases he
          obtain ⟨c, k0, h1, h2, h3, h4⟩ := h.perc i o x ho' hx hp
          rw [hka] at h1; cases h1
          rw [hkk] at h2; cases h2
          obtain ⟨h5, h6⟩ := compute_keeps hcomp
          exact ⟨a, k', hka, by rw [e1, List.getElem?_set_self hb], by rw [h5]; exact h3, by rw [h6]; exact h4⟩
      · refine h.update ho' _ _ hag e2 (by rw [e1]; simp) (fun b hb _ => ?_) (fun o' c he hc => ?_)
          (fun o' x he hx hp => ?_)
        · rw [e1, List.getElem?_append_left hb]
        · cases he; cases hc; exact ⟨by rw [e1]; simp, .inr le_rfl⟩
        · cases he
          obtain ⟨c, _, h1, _⟩ := h.perc i o x ho' hx hp
          rw [hn] at h1; cases h1
  | evaluate i =>
    obtain ⟨o, ho, hs⟩ := bindInv hs
    obtain ⟨k, _, hs⟩ := bindInv hs
    cases hs; exact h
  | destroy i =>
    obtain ⟨o, ho, hs⟩ := bindInv hs
    unfold destroyObj at hs
    obtain ⟨ks, hd, hs⟩ := bindInv hs
    cases hs
    have hks : ks.length = w.kernels.length ∧ ∀ b, o.kernel ≠ some b → ks[b]? = w.kernels[b]? := by
      unfold destructor at hd
      split at hd
      · exact deleteK_other hd
      · cases hd; exact ⟨rfl, fun _ _ => rfl⟩
    exact h.update (getObj_inv ho) _ none hag rfl (by simp [hks.1]) (fun b _ hne => hks.2 b hne)
      (fun o' a he => by cases he) (fun o' x he => by cases he)
  | newKernel t p =>
    cases hs
    refine ⟨hag, fun i o a ho ha => ?_, h.uniq, fun i o x ho hx hp => ?_⟩
    · simp; exact Nat.le_of_lt (h.bound i o a ho ha)
    · obtain ⟨a, k, h1, h2, h3, h4⟩ := h.perc i o x ho hx hp
      exact ⟨a, k, h1, by simp only; rw [List.getElem?_append_left (h.bound i o a ho h1), h2], h3, h4⟩
  | setKernel i n => cases hno
  | useKernel n =>
    obtain ⟨a, _, hs⟩ := bindInv hs
    obtain ⟨k, _, hs⟩ := bindInv hs
    cases hs; exact h

theorem sep_run (ops : List Op) (hno : ∀ o ∈ ops, o.shares = false) : ∀ w, run ops = .ok w → Sep (wants ops) w := by
  induction ops using List.reverseRecOn with
  | nil =>
    intro w h; cases h
    exact ⟨⟨rfl, fun i o h => by simp [World.empty] at h⟩, fun i o a h => by simp [World.empty] at h,
      fun i j o o' a h => by simp [World.empty] at h, fun i o x h => by simp [World.empty] at h⟩
  | append_singleton pre op ih =>
    intro w h
    rw [run_snoc] at h
    obtain ⟨w0, h0, h1⟩ := bindInv h
    rw [wants_snoc]
    exact sep_step (ih (fun o ho => hno o (by simp [ho])) w0 h0) (hno op (by simp)) h1

end MLTK.KOwn
