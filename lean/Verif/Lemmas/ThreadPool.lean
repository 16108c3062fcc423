import Mathlib.Data.List.Induction
import Mathlib.Data.List.Perm.Basic
import Mathlib.Tactic.Linarith
import Verif.Spec.ThreadPool
/-!
# Invariants of the thread pool
-/
namespace MLTK.Pool
open MLTK.Spec

theorem exec_append (s : Pool) (a b : List Event) :
    exec s (a ++ b) = (exec s a).bind (fun s' => exec s' b) := by
  induction a generalizing s with
  | nil => rfl
  | cons e a ih =>
    simp only [List.cons_append, exec]
    cases step s e with
    | none => rfl
    | some s' => simp [ih]

theorem exec_snoc {s s'' : Pool} {a : List Event} {e : Event} (h : exec s (a ++ [e]) = some s'') :
    ∃ s', exec s a = some s' ∧ step s' e = some s'' := by
  rw [exec_append] at h
  cases h1 : exec s a with
  | none => rw [h1] at h; simp at h
  | some s' =>
    refine ⟨s', rfl, ?_⟩
    rw [h1] at h
    simp only [Option.bind_some, exec] at h
    cases h2 : step s' e with
    | none => rw [h2] at h; simp at h
    | some x => rw [h2] at h; simpa using h

/-- Workers holding a task that still counts in `tasks_total`. -/
def busy (l : List WState) : Nat := l.countP (fun | .exec _ => true | .done => true | _ => false)

theorem set_split {α : Type} (l : List α) (i : Nat) (w w' : α) (h : l[i]? = some w) :
    ∃ a b, l = a ++ w :: b ∧ l.set i w' = a ++ w' :: b ∧ a.length = i := by
  induction l generalizing i with
  | nil => simp at h
  | cons x l ih =>
    cases i with
    | zero => simp at h; subst h; exact ⟨[], l, rfl, rfl, rfl⟩
    | succ i =>
      simp at h
      obtain ⟨a, b, h1, h2, h3⟩ := ih i h
      exact ⟨x :: a, b, by simp [h1], by simp [h2], by simp [h3]⟩

/-- The invariant tying the state to the observable history. -/
structure Inv (es : List Event) (s : Pool) : Prop where
  fifo : enqueued es = started es ++ s.queue
  subm : (submitted es).Perm (enqueued es ++ s.submitting)
  fin : (started es).Perm (finished es ++ executing s)
  tot : s.total = s.submitting.length + s.queue.length + busy s.workers
  alive : s.running = true → ∀ w ∈ s.workers, w ≠ WState.exited

theorem submitted_snoc (es : List Event) (e : Event) :
    submitted (es ++ [e]) = submitted es ++ (match e with | .push t => [t] | _ => []) := by
  cases e <;> simp [submitted]
theorem enqueued_snoc (es : List Event) (e : Event) :
    enqueued (es ++ [e]) = enqueued es ++ (match e with | .enqueue t => [t] | _ => []) := by
  cases e <;> simp [enqueued]
theorem started_snoc (es : List Event) (e : Event) :
    started (es ++ [e]) = started es ++ (match e with | .start _ t => [t] | _ => []) := by
  cases e <;> simp [started]
theorem finished_snoc (es : List Event) (e : Event) :
    finished (es ++ [e]) = finished es ++ (match e with | .finish _ t => [t] | _ => []) := by
  cases e <;> simp [finished]

theorem inv_fresh (n : Nat) : Inv [] (fresh n) where
  fifo := rfl
  subm := by simp [submitted, enqueued, fresh]
  fin := by
    have : executing (fresh n) = [] := by
      unfold executing fresh
      simp only [List.filterMap_eq_nil_iff]
      intro a ha; rw [List.eq_of_mem_replicate ha]
    rw [this]; simp [started, finished]
  tot := by simp [fresh, busy, List.countP_replicate]
  alive := by
    intro _ w hw
    simp [fresh] at hw
    rw [hw.2]; simp

/-- Events that only move one worker's program counter between states that hold no task. -/
theorem inv_move {es : List Event} {s : Pool} {e : Event} (h : Inv es s) (i : Nat) (w w' : WState)
    (hw : s.workers[i]? = some w) (hs : busy [w] = 0) (hs' : busy [w'] = 0)
    (he : ∀ t, w' ≠ .exec t) (he' : ∀ t, w ≠ .exec t) (hx : s.running = true → w' ≠ .exited)
    (h1 : submitted (es ++ [e]) = submitted es) (h2 : enqueued (es ++ [e]) = enqueued es)
    (h3 : started (es ++ [e]) = started es) (h4 : finished (es ++ [e]) = finished es) :
    Inv (es ++ [e]) (s.setW i w') := by
  obtain ⟨a, b, e1, e2, -⟩ := set_split _ _ _ w' hw
  have hb : busy (s.workers.set i w') = busy s.workers := by
    rw [e1] at hw ⊢
    rw [e1] at e2
    rw [e2]
    simp only [busy, List.countP_append] at hs hs' ⊢
    rw [← List.singleton_append, List.countP_append, ← List.singleton_append (l := b),
      List.countP_append, hs, hs']
  have hx2 : executing (s.setW i w') = executing s := by
    simp only [executing, Pool.setW]
    rw [e2, e1]
    simp only [List.filterMap_append, List.filterMap_cons]
  refine ⟨by rw [h2, h3]; exact h.fifo, by rw [h1, h2]; exact h.subm,
    by rw [h3, h4, hx2]; exact h.fin, ?_, ?_⟩
  · show s.total = s.submitting.length + s.queue.length + busy (s.workers.set i w')
    rw [hb]; exact h.tot
  · intro hr v hv
    simp only [Pool.setW] at hv hr
    rw [e2] at hv
    have := h.alive hr
    rw [e1] at this
    simp only [List.mem_append, List.mem_cons] at hv this
    rcases hv with hv | rfl | hv
    · exact this v (Or.inl hv)
    · exact hx hr
    · exact this v (Or.inr (Or.inr hv))

theorem inv_step {es : List Event} {s s' : Pool} {e : Event} (h : Inv es s)
    (hs : step s e = some s') : Inv (es ++ [e]) s' := by
  have hS := submitted_snoc es e
  have hE := enqueued_snoc es e
  have hT := started_snoc es e
  have hF := finished_snoc es e
  have trivial_case : ∀ s' : Pool, s'.queue = s.queue → s'.total = s.total → s'.workers = s.workers →
      s'.submitting = s.submitting → (s'.running = true → s.running = true) →
      submitted (es ++ [e]) = submitted es → enqueued (es ++ [e]) = enqueued es →
      started (es ++ [e]) = started es → finished (es ++ [e]) = finished es → Inv (es ++ [e]) s' := by
    intro s' q t w sb r a b c d
    refine ⟨by rw [b, c, q]; exact h.fifo, by rw [a, b, sb]; exact h.subm, ?_, ?_, ?_⟩
    · rw [c, d, executing, w]; exact h.fin
    · rw [t, sb, q, w]; exact h.tot
    · intro hr; rw [w]; exact h.alive (r hr)
  cases e with
  | push t =>
    simp only [step, Option.some.injEq] at hs
    subst hs
    simp only [List.append_nil] at hS hE hT hF
    refine ⟨by rw [hE, hT]; exact h.fifo, ?_, by rw [hT, hF]; exact h.fin, ?_, h.alive⟩
    · rw [hS, hE]
      show (submitted es ++ [t]).Perm (enqueued es ++ t :: s.submitting)
      refine (h.subm.append_right [t]).trans ?_
      rw [List.append_assoc]
      exact List.Perm.append_left _ (List.perm_append_singleton t s.submitting)
    · have := h.tot
      simp only [List.length_cons]
      omega
  | enqueue t =>
    simp only [step] at hs
    split at hs
    · rename_i hm
      simp only [Option.some.injEq] at hs
      subst hs
      simp only [List.append_nil] at hS hE hT hF
      refine ⟨?_, ?_, by rw [hT, hF]; exact h.fin, ?_, h.alive⟩
      · rw [hE, hT, h.fifo, List.append_assoc]
      · rw [hS, hE, List.append_assoc]
        exact h.subm.trans (List.Perm.append_left _ (List.perm_cons_erase hm))
      · have := h.tot
        have h1 := List.length_erase_of_mem hm
        have h2 := List.length_pos_of_mem hm
        simp only [List.length_append, List.length_cons, List.length_nil]
        omega
    · simp at hs
  | check i =>
    simp only [step] at hs
    split at hs
    · rename_i hw
      simp only [Option.some.injEq] at hs
      subst hs
      simp only [List.append_nil] at hS hE hT hF
      refine inv_move h i .top _ hw rfl ?_ ?_ (by simp) ?_ hS hE hT hF
      · split <;> rfl
      · intro t; split <;> simp
      · intro hr; simp [hr]
    · simp at hs
  | look i =>
    simp only [step] at hs
    split at hs
    · rename_i hw
      simp only [Option.some.injEq] at hs
      subst hs
      simp only [List.append_nil] at hS hE hT hF
      refine inv_move h i .entered _ hw rfl ?_ ?_ (by simp) ?_ hS hE hT hF
      · split <;> rfl
      · intro t; split <;> simp
      · intro hr; split <;> simp
    · simp at hs
  | noTask i =>
    simp only [step] at hs
    split at hs
    · rename_i hw
      simp only [Option.some.injEq] at hs
      subst hs
      simp only [List.append_nil] at hS hE hT hF
      exact inv_move h i .ready _ hw.1 rfl rfl (by simp) (by simp) (by simp) hS hE hT hF
    · simp at hs
  | start i t =>
    simp only [step] at hs
    split at hs
    · rename_i hw
      obtain ⟨hw, hq⟩ := hw
      simp only [Option.some.injEq] at hs
      subst hs
      simp only [List.append_nil] at hS hE hT hF
      obtain ⟨a, b, e1, e2, -⟩ := set_split _ _ _ (.exec t) hw
      have hq' : s.queue = t :: s.queue.tail := by
        cases hh : s.queue with
        | nil => rw [hh] at hq; simp at hq
        | cons x q => rw [hh] at hq; simp at hq; simp [hq]
      refine ⟨?_, by rw [hS, hE]; exact h.subm, ?_, ?_, ?_⟩
      · rw [hE, hT, h.fifo, List.append_assoc]
        congr 1
      · rw [hT, hF]
        simp only [executing, Pool.setW, e2]
        have h1 := h.fin
        simp only [executing, e1] at h1
        simp only [List.filterMap_append, List.filterMap_cons] at h1 ⊢
        refine (h1.append_right [t]).trans ?_
        rw [List.append_assoc, List.append_assoc]
        refine List.Perm.append_left _ (List.Perm.append_left _ ?_)
        exact List.perm_append_singleton t _
      · have h1 := h.tot
        simp only [Pool.setW, e2]
        rw [e1] at h1
        rw [hq'] at h1
        simp only [busy, List.countP_append, List.countP_cons, List.length_cons] at h1 ⊢
        simp at h1 ⊢
        omega
      · intro hr v hv
        simp only [Pool.setW, e2] at hv hr
        have := h.alive hr
        rw [e1] at this
        simp only [List.mem_append, List.mem_cons] at hv this
        rcases hv with hv | rfl | hv
        · exact this v (Or.inl hv)
        · simp
        · exact this v (Or.inr (Or.inr hv))
    · simp at hs
  | finish i t =>
    simp only [step] at hs
    split at hs
    · rename_i hw
      simp only [Option.some.injEq] at hs
      subst hs
      simp only [List.append_nil] at hS hE hT hF
      obtain ⟨a, b, e1, e2, -⟩ := set_split _ _ _ .done hw
      refine ⟨by rw [hE, hT]; exact h.fifo, by rw [hS, hE]; exact h.subm, ?_, ?_, ?_⟩
      · rw [hT, hF]
        simp only [executing, Pool.setW, e2]
        have h1 := h.fin
        simp only [executing, e1] at h1
        simp only [List.filterMap_append, List.filterMap_cons] at h1 ⊢
        refine h1.trans ?_
        rw [List.append_assoc]
        refine List.Perm.append_left _ ?_
        exact List.perm_middle
      · have h1 := h.tot
        simp only [Pool.setW, e2]
        rw [e1] at h1
        simp only [busy, List.countP_append, List.countP_cons] at h1 ⊢
        simp at h1 ⊢
        omega
      · intro hr v hv
        simp only [Pool.setW, e2] at hv hr
        have := h.alive hr
        rw [e1] at this
        simp only [List.mem_append, List.mem_cons] at hv this
        rcases hv with hv | rfl | hv
        · exact this v (Or.inl hv)
        · simp
        · exact this v (Or.inr (Or.inr hv))
    · simp at hs
  | dec i =>
    simp only [step] at hs
    split at hs
    · rename_i hw
      simp only [Option.some.injEq] at hs
      subst hs
      simp only [List.append_nil] at hS hE hT hF
      obtain ⟨a, b, e1, e2, -⟩ := set_split _ _ _ .top hw
      refine ⟨by rw [hE, hT]; exact h.fifo, by rw [hS, hE]; exact h.subm, ?_, ?_, ?_⟩
      · rw [hT, hF]
        simp only [executing, Pool.setW, e2]
        have h1 := h.fin
        simp only [executing, e1] at h1
        simpa only [List.filterMap_append, List.filterMap_cons] using h1
      · have h1 := h.tot
        simp only [Pool.setW, e2]
        rw [e1] at h1
        simp only [busy, List.countP_append, List.countP_cons] at h1 ⊢
        simp at h1 ⊢
        omega
      · intro hr v hv
        simp only [Pool.setW, e2] at hv hr
        have := h.alive hr
        rw [e1] at this
        simp only [List.mem_append, List.mem_cons] at hv this
        rcases hv with hv | rfl | hv
        · exact this v (Or.inl hv)
        · simp
        · exact this v (Or.inr (Or.inr hv))
    · simp at hs
  | setPaused b =>
    simp only [step, Option.some.injEq] at hs
    subst hs
    simp only [List.append_nil] at hS hE hT hF
    exact trivial_case _ rfl rfl rfl rfl id hS hE hT hF
  | stop =>
    simp only [step, Option.some.injEq] at hs
    subst hs
    simp only [List.append_nil] at hS hE hT hF
    exact trivial_case _ rfl rfl rfl rfl (by simp) hS hE hT hF
  | respawn n =>
    simp only [step] at hs
    split at hs
    · rename_i hw
      simp only [Option.some.injEq] at hs
      subst hs
      simp only [List.append_nil] at hS hE hT hF
      have hall : ∀ w ∈ s.workers, w = WState.exited := by
        have := hw.2
        rw [List.all_eq_true] at this
        intro w hw; simpa using this w hw
      have hex : executing s = [] := by
        simp only [executing, List.filterMap_eq_nil_iff]
        intro w hw; rw [hall w hw]
      have hb : busy s.workers = 0 := by
        simp only [busy, List.countP_eq_zero]
        intro w hw; rw [hall w hw]; simp
      refine ⟨by rw [hE, hT]; exact h.fifo, by rw [hS, hE]; exact h.subm, ?_, ?_, ?_⟩
      · rw [hT, hF]
        have h1 := h.fin
        rw [hex] at h1
        have : executing { s with running := true, workers := List.replicate n .top } = [] := by
          simp only [executing, List.filterMap_eq_nil_iff]
          intro w hw; rw [List.eq_of_mem_replicate hw]
        rw [this]; exact h1
      · have h1 := h.tot
        rw [hb] at h1
        simp only [busy, List.countP_replicate]
        simpa using h1
      · intro _ w hw
        rw [List.eq_of_mem_replicate hw]; simp
    · simp at hs
  | waitCall | waitLook | waitMore | waitOpenReturn | waitReadTotal | waitReadQueued =>
    simp only [step] at hs
    split at hs
    · simp only [Option.some.injEq] at hs
      subst hs
      simp only [List.append_nil] at hS hE hT hF
      exact trivial_case _ rfl rfl rfl rfl id hS hE hT hF
    · simp at hs
  | waitPausedMore | waitPausedReturn =>
    simp only [step] at hs
    split at hs
    · split at hs
      · simp only [Option.some.injEq] at hs
        subst hs
        simp only [List.append_nil] at hS hE hT hF
        exact trivial_case _ rfl rfl rfl rfl id hS hE hT hF
      · simp at hs
    · split at hs
      · simp only [Option.some.injEq] at hs
        subst hs
        simp only [List.append_nil] at hS hE hT hF
        exact trivial_case _ rfl rfl rfl rfl id hS hE hT hF
      · simp at hs
    · simp at hs

theorem inv_exec {n : Nat} {es : List Event} {s : Pool} (h : exec (fresh n) es = some s) :
    Inv es s := by
  induction es using List.reverseRecOn generalizing s with
  | nil => simp [exec] at h; subst h; exact inv_fresh n
  | append_singleton es e ih =>
    obtain ⟨s', h1, h2⟩ := exec_snoc h
    exact inv_step (ih h1) h2

end MLTK.Pool
