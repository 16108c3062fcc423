import Verif.Spec.PoolClient
import Verif.Props.ThreadPool
/-!
# C149-C152: futures, `reset`, the destructor and throwing tasks
-/
namespace MLTK.Props
open MLTK.Pool MLTK.Spec

variable {V : Type}

theorem fexec_snoc {kind : Task → Kind} {body : Task → Outcome V} {s s'' : FPool V} {a : List Event} {e : Event}
    (h : fexec kind body s (a ++ [e]) = some s'') :
    ∃ s', fexec kind body s a = some s' ∧ fstep kind body s' e = some s'' := by
  induction a generalizing s with
  | nil =>
    refine ⟨s, rfl, ?_⟩
    simp only [List.nil_append, fexec] at h
    cases h2 : fstep kind body s e with
    | none => rw [h2] at h; simp at h
    | some x => rw [h2] at h; simpa using h
  | cons b a ih =>
    simp only [List.cons_append, fexec] at h
    cases h1 : fstep kind body s b with
    | none => rw [h1] at h; simp at h
    | some x =>
      rw [h1] at h
      simp only [Option.bind_some] at h
      obtain ⟨s', h2, h3⟩ := ih h
      exact ⟨s', by simp [fexec, h1, h2], h3⟩

theorem fstep_pool {kind : Task → Kind} {body : Task → Outcome V} {s s' : FPool V} {e : Event}
    (h : fstep kind body s e = some s') : step s.pool e = some s'.pool ∧ s.terminated = false := by
  simp only [fstep] at h
  split at h
  · simp at h
  · rename_i ht
    simp only [Option.map_eq_some_iff] at h
    obtain ⟨p, hp, rfl⟩ := h
    exact ⟨hp, by simpa using ht⟩

theorem fexec_pool (n : Nat) (kind : Task → Kind) (body : Task → Outcome V) : ∀ (es : List Event) (s : FPool V),
    fexec kind body (ffresh V n) es = some s → exec (fresh n) es = some s.pool := by
  intro es
  induction es using List.reverseRecOn with
  | nil => intro s h; simp only [fexec, Option.some.injEq] at h; subst h; rfl
  | append_singleton es e ih =>
    intro s h
    obtain ⟨s', h1, h2⟩ := fexec_snoc h
    rw [exec_append, ih s' h1]
    simp [exec, (fstep_pool h2).1]

/-! ## C149 -/

/-- **C149** In every interleaving, a future returned by `submit` is ready just when its task has ended, and then holds
what the task returned or threw. -/
theorem C149_future (n : Nat) (kind : Task → Kind) (body : Task → Outcome V) (es : List Event) (s : FPool V)
    (h : fexec kind body (ffresh V n) es = some s) (t : Task) (ht : kind t = .future) (o : Outcome V) :
    s.ready t = some o ↔ t ∈ finished es ∧ o = body t := by
  induction es using List.reverseRecOn generalizing s o with
  | nil => simp only [fexec, Option.some.injEq] at h; subst h; simp [ffresh, finished]
  | append_singleton es e ih =>
    obtain ⟨s', h1, h2⟩ := fexec_snoc h
    have ih := fun o => ih s' h1 o
    rw [finished_snoc]
    have other : (∀ i u, e ≠ .finish i u) → s.ready = s'.ready := by
      intro hne
      simp only [fstep] at h2
      split at h2
      · simp at h2
      · simp only [Option.map_eq_some_iff] at h2
        obtain ⟨p, hp, rfl⟩ := h2
        cases e <;> first | rfl | exact absurd rfl (hne _ _)
    by_cases hf : ∃ i u, e = .finish i u
    · obtain ⟨i, u, rfl⟩ := hf
      simp only [fstep] at h2
      split at h2
      · simp at h2
      · simp only [Option.map_eq_some_iff] at h2
        obtain ⟨p, hp, rfl⟩ := h2
        by_cases hut : u = t
        · subst hut
          simp only [settle, ht, if_true, FPool.satisfy, List.mem_append, List.mem_singleton, or_true, true_and]
          by_cases hn : s'.ready u = none
          · simp [hn, eq_comm]
          · rw [if_neg (by simp [hn])]
            obtain ⟨o', ho'⟩ := Option.ne_none_iff_exists'.1 hn
            rw [ih o]
            have := (ih o').1 ho'
            simp [this.1]
        · have hm : t ∈ finished es ++ [u] ↔ t ∈ finished es := by
            simp [Ne.symm hut]
          show _ ↔ t ∈ finished es ++ [u] ∧ _
          rw [hm, ← ih o]
          simp only [settle]
          by_cases hk : kind u = .future
          · simp [hk, FPool.satisfy, Ne.symm hut]
          · simp [hk]
    · have hne : ∀ i u, e ≠ .finish i u := fun i u he => hf ⟨i, u, he⟩
      rw [other hne, ih o]
      cases e <;> first | (simp; done) | exact absurd rfl (hne _ _)

/-- **C149 (barrier)** When `wait_for_tasks` returns from a pool it saw unpaused, the future of every task submitted
before is ready. -/
theorem C149_future_barrier (n : Nat) (kind : Task → Kind) (body : Task → Outcome V) (es : List Event) (s : FPool V)
    (h : fexec kind body (ffresh V n) (es ++ [.waitOpenReturn]) = some s) (t : Task) (ht : kind t = .future)
    (hs : t ∈ submitted es) : s.ready t = some (body t) := by
  rw [C149_future n kind body _ s h t ht]
  refine ⟨?_, rfl⟩
  obtain ⟨s', h1, h2⟩ := exec_snoc (fexec_pool n kind body _ s h)
  have h0 : s'.total = 0 := by
    simp only [step] at h2
    split at h2
    · rename_i hh; exact hh.2
    · simp at h2
  have := (C31_total n es s' h1).2 h0
  rw [finished_snoc]
  simpa using this.mem_iff.1 hs

/-- Tasks 1 (returns 5) and 2 (throws) on one worker. -/
def futureTrace : List Event :=
  [.push 1, .enqueue 1, .push 2, .enqueue 2, .check 0, .look 0, .start 0 1, .finish 0 1, .dec 0, .check 0, .look 0,
   .start 0 2, .finish 0 2, .dec 0, .waitCall, .waitLook, .waitOpenReturn]

example : (fexec (fun _ => .future) (fun t => if t = 1 then .returned 5 else .threw 9) (ffresh Nat 1) futureTrace).map
    (fun s => (s.ready 1, s.ready 2, s.ready 3)) = some (some (.returned 5), some (.threw 9), none) := by decide +kernel

/-! ## C150 -/

theorem filter_nil_of {es : List Event} {p : Event → Bool} {l : List Event} (h : clientSteps es = l)
    (hp : ∀ e ∈ l, p e = false) (hw : ∀ e, isWorkerStep e = true → p e = false) : ∀ e ∈ es, p e = false := by
  intro e he
  by_cases hc : isWorkerStep e = true
  · exact hw e hc
  · refine hp e ?_
    rw [← h]
    simp only [clientSteps, List.mem_filter]
    exact ⟨he, by simpa using hc⟩

theorem filterMap_nil_of {es : List Event} {g : Event → Option Task} {p : Event → Bool} (h : ∀ e ∈ es, p e = false)
    (hg : ∀ e, p e = false → g e = none) : es.filterMap g = [] := by
  rw [List.filterMap_eq_nil_iff]
  exact fun e he => hg e (h e he)

/-- the event submits something -/
def isSubmit : Event → Bool
  | .push _ | .enqueue _ => true
  | _ => false

theorem no_submit {es l : List Event} (h : clientSteps es = l) (hl : ∀ e ∈ l, isSubmit e = false) :
    submitted es = [] ∧ enqueued es = [] := by
  have hn := filter_nil_of h hl (by intro e he; cases e <;> first | rfl | simp [isWorkerStep] at he)
  exact ⟨filterMap_nil_of hn (by intro e he; cases e <;> first | rfl | simp [isSubmit] at he),
    filterMap_nil_of hn (by intro e he; cases e <;> first | rfl | simp [isSubmit] at he)⟩

theorem waiting_no_submit {waits : List Event} (h : ∀ e ∈ waits, isWaiting e = true) :
    ∀ e ∈ waits, isSubmit e = false := by
  intro e he
  have := h e he
  cases e <;> first | rfl | simp [isWaiting] at this

theorem exec_split {s : Pool} {n : Nat} {pre es : List Event} {s0 : Pool} (h0 : exec (fresh n) pre = some s0)
    (h1 : exec s0 es = some s) : exec (fresh n) (pre ++ es) = some s := by
  rw [exec_append, h0]; exact h1

theorem app_submitted (a b : List Event) : submitted (a ++ b) = submitted a ++ submitted b := by
  simp [submitted]
theorem app_enqueued (a b : List Event) : enqueued (a ++ b) = enqueued a ++ enqueued b := by
  simp [enqueued]
theorem app_started (a b : List Event) : started (a ++ b) = started a ++ started b := by
  simp [started]

/-- nothing is submitted between two states -/
theorem quiet_span {n : Nat} {pre es : List Event} {s0 s : Pool} (h0 : exec (fresh n) pre = some s0)
    (h1 : exec s0 es = some s) (hn : submitted es = [] ∧ enqueued es = []) (hs : s0.submitting = []) :
    s.submitting = [] ∧ s0.queue = started es ++ s.queue := by
  have i0 := inv_exec h0
  have i1 := inv_exec (exec_split h0 h1)
  have hsub := i1.subm
  rw [app_submitted, app_enqueued, hn.1, hn.2, List.append_nil, List.append_nil] at hsub
  have h2 := i0.subm
  rw [hs, List.append_nil] at h2
  have hl := (h2.symm.trans hsub).length_eq
  have hf := i1.fifo
  rw [app_enqueued, app_started, hn.2, List.append_nil, i0.fifo, List.append_assoc] at hf
  refine ⟨?_, List.append_cancel_left hf⟩
  cases hsb : s.submitting with
  | nil => rfl
  | cons a as => rw [hsb] at hl; simp at hl

theorem paused_worker {s s' : Pool} {e : Event} (h : step s e = some s') (he : ∀ b, e ≠ .setPaused b) :
    s'.paused = s.paused := by
  cases e with
  | setPaused b => exact absurd rfl (he b)
  | _ =>
    simp only [step] at h
    (try split at h) <;> (try split at h) <;> simp only [Option.some.injEq, reduceCtorEq] at h <;> subst h <;> rfl

theorem paused_last : ∀ (es : List Event) (s s' : Pool), exec s es = some s' →
    s'.paused = ((es.filterMap (fun | .setPaused b => some b | _ => none)).getLast?).getD s.paused := by
  intro es
  induction es using List.reverseRecOn with
  | nil => intro s s' h; simp only [exec, Option.some.injEq] at h; subst h; rfl
  | append_singleton es e ih =>
    intro s s' h
    obtain ⟨s1, h1, h2⟩ := exec_snoc h
    rw [List.filterMap_append]
    by_cases hp : ∃ b, e = .setPaused b
    · obtain ⟨b, rfl⟩ := hp
      simp only [step, Option.some.injEq] at h2
      subst h2
      simp
    · rw [paused_worker h2 (fun b hb => hp ⟨b, hb⟩), ih s s1 h1]
      have : [e].filterMap (fun | .setPaused b => some b | _ => none) = ([] : List Bool) := by
        cases e <;> first | rfl | exact absurd ⟨_, rfl⟩ hp
      rw [this, List.append_nil]

theorem setPaused_client (es : List Event) :
    es.filterMap (fun | .setPaused b => some b | _ => (none : Option Bool)) =
      (clientSteps es).filterMap (fun | .setPaused b => some b | _ => none) := by
  induction es with
  | nil => rfl
  | cons e es ih => cases e <;> simp [clientSteps, isWorkerStep] at ih ⊢ <;> exact ih

theorem waits_setPaused {waits : List Event} (h : ∀ e ∈ waits, isWaiting e = true) :
    waits.filterMap (fun | .setPaused b => some b | _ => (none : Option Bool)) = [] := by
  rw [List.filterMap_eq_nil_iff]
  intro e he
  have := h e he
  cases e <;> first | rfl | simp [isWaiting] at this

theorem last_client {es : List Event} {l : List Event} {e : Event} (h : clientSteps (es ++ [e]) = l ++ [e]) 
    (he : isWorkerStep e = false) : clientSteps es = l := by
  simp only [clientSteps, List.filter_append] at h
  have : [e].filter (fun e => !isWorkerStep e) = [e] := by simp [he]
  rw [this] at h
  exact List.append_cancel_right h

/-- **C150** `reset(arg)`, in every interleaving with the workers, from every state the pool can be in while nobody
else uses it: when it returns, the pool has the asked number of threads (the hardware's for 0), runs, is paused just
as before, no task is being executed or lost: the tasks that were waiting are, in order, those started meanwhile and
those still waiting, and every submitted task has finished or is waiting; `get_tasks_total` is their number. -/
theorem C150_reset (n hardware arg : Nat) (pre es waits : List Event) (s0 s : Pool)
    (h0 : exec (fresh n) pre = some s0) (hsub : s0.submitting = []) (hw : ∀ e ∈ waits, isWaiting e = true)
    (h1 : exec s0 (es ++ [.respawn (threadCount hardware arg)]) = some s)
    (hc : clientSteps (es ++ [.respawn (threadCount hardware arg)]) = resetCalls hardware arg s0.paused waits) :
    s.workers.length = (if arg = 0 then hardware else arg) ∧ s.running = true ∧ s.paused = s0.paused ∧
      executing s = [] ∧ s0.queue = started es ++ s.queue ∧
      (submitted pre).Perm (finished (pre ++ es) ++ s.queue) ∧ s.total = s.queue.length := by
  have hns : submitted (es ++ [.respawn (threadCount hardware arg)]) = [] ∧
      enqueued (es ++ [.respawn (threadCount hardware arg)]) = [] := by
    refine no_submit hc ?_
    intro e he
    simp only [resetCalls, List.mem_append, List.mem_cons, List.not_mem_nil, or_false] at he
    rcases he with ((rfl | rfl) | he) | rfl | rfl | rfl | rfl <;> first | rfl | exact waiting_no_submit hw _ he
  obtain ⟨hs1, hq⟩ := quiet_span h0 h1 hns hsub
  obtain ⟨s', h2, h3⟩ := exec_snoc h1
  have hinv := inv_exec (exec_split h0 h1)
  have hst : started (es ++ [.respawn (threadCount hardware arg)]) = started es := by simp [started]
  have hfin : finished (pre ++ (es ++ [.respawn (threadCount hardware arg)])) = finished (pre ++ es) := by
    simp [finished]
  have hwk : s.workers = List.replicate (threadCount hardware arg) .top ∧ s.running = true := by
    simp only [step] at h3
    split at h3
    · simp only [Option.some.injEq] at h3; subst h3; exact ⟨rfl, rfl⟩
    · simp at h3
  have hex : executing s = [] := by
    simp only [executing, hwk.1, List.filterMap_eq_nil_iff]
    intro a ha; rw [List.eq_of_mem_replicate ha]
  refine ⟨?_, hwk.2, ?_, hex, ?_, ?_, ?_⟩
  · rw [hwk.1, List.length_replicate, threadCount]
    by_cases h : arg = 0 <;> simp [h]
  · rw [paused_last _ _ _ h1, setPaused_client, hc, resetCalls]
    simp only [List.filterMap_append, waits_setPaused hw]
    simp
  · rw [← hst]; exact hq
  · have hp := C31_conservation n _ s (exec_split h0 h1)
    rw [app_submitted, hns.1, List.append_nil, hfin, hex, hs1, List.append_nil, List.append_nil] at hp
    exact hp
  · have := hinv.tot
    rw [hs1, hwk.1] at this
    simpa [busy, List.countP_replicate] using this

/-- A reset of a one-thread pool with two waiting tasks to three threads: the worker had already looked at `paused` and
starts the first task after `wait_for_tasks` returned; the second one keeps waiting. -/
def resetTrace : List Event :=
  [.setPaused true, .waitCall, .waitLook, .waitReadTotal, .waitPausedReturn, .start 0 7, .stop, .finish 0 7, .dec 0,
   .check 0, .setPaused false]

example : ∃ s0 s, exec (fresh 1) [.push 7, .enqueue 7, .push 9, .enqueue 9, .check 0, .look 0] = some s0 ∧
    exec s0 (resetTrace ++ [.respawn (threadCount 8 3)]) = some s ∧
    clientSteps (resetTrace ++ [.respawn (threadCount 8 3)]) = resetCalls 8 3 s0.paused [.waitLook, .waitReadTotal] ∧
    s.queue = [9] := ⟨_, _, rfl, rfl, rfl, rfl⟩

/-! ## C151 -/

/-- the waiter is not in the paused branch -/
def OpenWait (s : Pool) : Prop := s.paused = false ∧ (s.waiter = .idle ∨ s.waiter = .top ∨ s.waiter = .sawOpen)

theorem openWait_step {s s' : Pool} {e : Event} (h : OpenWait s) (hs : step s e = some s') (he : ∀ b, e ≠ .setPaused b) :
    OpenWait s' ∧ e ≠ .waitPausedReturn := by
  obtain ⟨hp, hw⟩ := h
  refine ⟨⟨by rw [paused_worker hs he, hp], ?_⟩, ?_⟩
  · cases e with
    | setPaused b => exact absurd rfl (he b)
    | waitLook =>
      simp only [step, hp] at hs
      split at hs
      · simp only [Option.some.injEq] at hs; subst hs; simp
      · simp at hs
    | waitReadTotal | waitReadQueued =>
      simp only [step] at hs
      split at hs
      · rename_i hh; rw [hh] at hw; simp at hw
      · simp at hs
    | waitPausedMore | waitPausedReturn =>
      simp only [step] at hs
      split at hs
      · rename_i hh; rw [hh] at hw; simp at hw
      · rename_i hh; rw [hh] at hw; simp at hw
      · simp at hs
    | _ =>
      simp only [step] at hs
      (try split at hs) <;> (try split at hs) <;> simp only [Option.some.injEq, reduceCtorEq] at hs <;> subst hs <;>
        first | exact hw | simp
  · rintro rfl
    simp only [step] at hs
    split at hs
    · rename_i hh; rw [hh] at hw; simp at hw
    · rename_i hh; rw [hh] at hw; simp at hw
    · simp at hs

theorem openWait_exec : ∀ (es : List Event) (s s' : Pool), OpenWait s → exec s es = some s' →
    (∀ e ∈ es, ∀ b, e ≠ .setPaused b) → OpenWait s' ∧ .waitPausedReturn ∉ es := by
  intro es
  induction es with
  | nil => intro s s' h h1 _; simp only [exec, Option.some.injEq] at h1; subst h1; exact ⟨h, by simp⟩
  | cons e es ih =>
    intro s s' h h1 hp
    simp only [exec] at h1
    cases h2 : step s e with
    | none => rw [h2] at h1; simp at h1
    | some x =>
      rw [h2] at h1
      obtain ⟨h3, h4⟩ := openWait_step h h2 (hp e (by simp))
      obtain ⟨h5, h6⟩ := ih x s' h3 h1 (fun e he => hp e (by simp [he]))
      exact ⟨h5, by simp only [List.mem_cons, not_or]; exact ⟨fun h => h4 h.symm, h6⟩⟩

/-- **C151 (partial)** The destructor of a pool that is not paused and that nobody else uses: when its threads have
ended, every task ever submitted has been executed to its end.  Missing: a paused pool, see below. -/
theorem C151_destructor_partial (n : Nat) (pre es waits : List Event) (ret : Event) (s0 s : Pool)
    (h0 : exec (fresh n) pre = some s0) (hsub : s0.submitting = []) (hidle : s0.waiter = .idle)
    (hp : s0.paused = false) (hw : ∀ e ∈ waits, isWaiting e = true) (hr : isWaitReturn ret = true)
    (h1 : exec s0 es = some s) (hc : clientSteps es = destroyCalls waits ret) (hj : joined s = true) :
    (submitted pre).Perm (finished (pre ++ es)) ∧ s.queue = [] ∧ executing s = [] ∧ s.total = 0 := by
  have hret : ret ∈ es := by
    have : ret ∈ clientSteps es := by rw [hc]; simp [destroyCalls]
    exact (List.mem_filter.1 this).1
  have hnp : ∀ e ∈ es, ∀ b, e ≠ .setPaused b := by
    intro e he b hb
    subst hb
    have hm : Event.setPaused b ∈ clientSteps es := by
      simp only [clientSteps, List.mem_filter]; exact ⟨he, rfl⟩
    rw [hc] at hm
    simp only [destroyCalls, List.mem_append, List.mem_cons, List.not_mem_nil, or_false] at hm
    rcases hm with (hm | hm) | hm | hm
    · exact Event.noConfusion hm
    · have := hw _ hm; simp [isWaiting] at this
    · rw [← hm] at hr; simp [isWaitReturn] at hr
    · exact Event.noConfusion hm
  have hopen : OpenWait s0 := ⟨hp, Or.inl hidle⟩
  have hret' : ret = .waitOpenReturn := by
    have := (openWait_exec es s0 s hopen h1 hnp).2
    cases ret <;> simp [isWaitReturn] at hr ⊢
    exact this hret
  subst hret'
  have hns : submitted es = [] ∧ enqueued es = [] := by
    refine no_submit hc ?_
    intro e he
    simp only [destroyCalls, List.mem_append, List.mem_cons, List.not_mem_nil, or_false] at he
    rcases he with (rfl | he) | rfl | rfl <;> first | rfl | exact waiting_no_submit hw _ he
  obtain ⟨a, b, rfl⟩ := List.append_of_mem hret
  have hnsa : submitted a = [] ∧ enqueued a = [] := by
    have e1 := hns.1
    have e2 := hns.2
    rw [app_submitted] at e1
    rw [app_enqueued] at e2
    exact ⟨(List.append_eq_nil_iff.1 e1).1, (List.append_eq_nil_iff.1 e2).1⟩
  have hsplit : a ++ Event.waitOpenReturn :: b = (a ++ [.waitOpenReturn]) ++ b := by simp
  rw [hsplit, exec_append] at h1
  cases h2 : exec s0 (a ++ [.waitOpenReturn]) with
  | none => rw [h2] at h1; simp at h1
  | some s2 =>
    rw [h2] at h1
    simp only [Option.bind_some] at h1
    obtain ⟨s1, h3, h4⟩ := exec_snoc h2
    have ht : s1.total = 0 := by
      simp only [step] at h4
      split at h4
      · rename_i hh; exact hh.2
      · simp at h4
    have i1 := inv_exec (exec_split h0 h3)
    have hq1 : s1.queue = [] := by
      have := i1.tot; rw [ht] at this
      cases hq : s1.queue with
      | nil => rfl
      | cons x xs => rw [hq] at this; simp at this; omega
    have hwhole : exec s0 (a ++ Event.waitOpenReturn :: b) = some s := by
      rw [hsplit, exec_append, h2]; exact h1
    obtain ⟨k1, k2⟩ := quiet_span h0 hwhole hns hsub
    obtain ⟨k3, k4⟩ := quiet_span h0 h3 hnsa hsub
    have hq : s.queue = [] := by
      rw [k4, hq1, List.append_nil, app_started] at k2
      have := congrArg List.length k2
      simp only [List.length_append] at this
      cases hq : s.queue with
      | nil => rfl
      | cons x xs => rw [hq] at this; simp at this; omega
    have hex : executing s = [] := by
      simp only [executing, List.filterMap_eq_nil_iff]
      intro w hw'
      have := List.all_eq_true.1 hj w hw'
      simp at this
      rw [this]
    have i2 := inv_exec (exec_split h0 hwhole)
    refine ⟨?_, hq, hex, ?_⟩
    · have hp := C31_conservation n _ s (exec_split h0 hwhole)
      rw [app_submitted, hns.1, List.append_nil, hex, hq, k1, List.append_nil, List.append_nil, List.append_nil] at hp
      exact hp
    · have := i2.tot
      rw [k1, hq] at this
      have hb : busy s.workers = 0 := by
        simp only [busy, List.countP_eq_zero]
        intro w hw'
        have := List.all_eq_true.1 hj w hw'
        simp at this
        rw [this]; simp
      rw [this, hb]; rfl

/-- A pool destroyed while a task runs. -/
example : ∃ s0 s, exec (fresh 1) [.push 7, .enqueue 7, .check 0, .look 0, .start 0 7] = some s0 ∧
    exec s0 [.waitCall, .waitLook, .waitMore, .waitLook, .finish 0 7, .dec 0, .waitOpenReturn, .check 0, .look 0,
      .noTask 0, .stop, .check 0] = some s ∧ joined s = true ∧ s0.paused = false := ⟨_, _, rfl, rfl, rfl, rfl⟩

/-- **C151 (refuted)** The destructor of a paused pool drops the tasks that wait: it ends, the task was never started,
and its future never becomes ready. -/
theorem C151_paused_refuted : ∃ (es : List Event) (s : FPool Nat),
    fexec (fun _ => .future) (fun _ => .returned 0) (ffresh Nat 1)
      ([.setPaused true, .push 7, .enqueue 7] ++ es) = some s ∧
    clientSteps es = destroyCalls [.waitLook, .waitReadTotal] .waitPausedReturn ∧ joined s.pool = true ∧
    7 ∉ started es ∧ s.ready 7 = none :=
  ⟨[.waitCall, .waitLook, .waitReadTotal, .waitPausedReturn, .stop, .check 0], _, rfl, rfl, rfl, by decide, rfl⟩

/-! ## C152 -/

/-- **C152 (partial)** As long as every task that throws was given to `submit`, no exception leaves a worker: the
process goes on in every interleaving.  Missing: throwing tasks given to `push_task` (and so `parallelize_loop`). -/
theorem C152_throwing_tasks_partial (n : Nat) (kind : Task → Kind) (body : Task → Outcome V)
    (hb : ∀ t e, body t = .threw e → kind t = .future) (es : List Event) (s : FPool V)
    (h : fexec kind body (ffresh V n) es = some s) : s.terminated = false := by
  induction es using List.reverseRecOn generalizing s with
  | nil => simp only [fexec, Option.some.injEq] at h; subst h; rfl
  | append_singleton es e ih =>
    obtain ⟨s', h1, h2⟩ := fexec_snoc h
    simp only [fstep] at h2
    split at h2
    · simp at h2
    · simp only [Option.map_eq_some_iff] at h2
      obtain ⟨p, hp, rfl⟩ := h2
      cases e with
      | finish i t =>
        cases hk : kind t with
        | future => simp [escapes, hk]
        | raw =>
          cases hbt : body t with
          | returned v => simp [escapes, hk, hbt]
          | threw x => exact absurd (hb t x hbt) (by simp [hk])
      | _ => rfl

/-- and every schedule of the pool itself is possible. -/
theorem C152_same_schedules_partial (n : Nat) (kind : Task → Kind) (body : Task → Outcome V)
    (hb : ∀ t e, body t = .threw e → kind t = .future) (es : List Event) (p : Pool) (h : exec (fresh n) es = some p) :
    ∃ s, fexec kind body (ffresh V n) es = some s ∧ s.pool = p := by
  induction es using List.reverseRecOn generalizing p with
  | nil => simp only [exec, Option.some.injEq] at h; subst h; exact ⟨_, rfl, rfl⟩
  | append_singleton es e ih =>
    obtain ⟨p', h1, h2⟩ := exec_snoc h
    obtain ⟨s', h3, h4⟩ := ih p' h1
    have ht := C152_throwing_tasks_partial n kind body hb es s' h3
    obtain ⟨s'', h5, h6⟩ : ∃ s'', fstep kind body s' e = some s'' ∧ s''.pool = p := by
      simp only [fstep, ht, h4, h2]
      exact ⟨_, rfl, rfl⟩
    refine ⟨s'', ?_, h6⟩
    have app : ∀ (a : List Event) (x y : FPool V), fexec kind body x a = some y →
        fexec kind body x (a ++ [e]) = fstep kind body y e := by
      intro a
      induction a with
      | nil => intro x y hx; simp only [fexec, Option.some.injEq] at hx; subst hx; simp [fexec]
      | cons b a iha =>
        intro x y hx
        simp only [fexec, List.cons_append] at hx ⊢
        cases hb : fstep kind body x b with
        | none => rw [hb] at hx; simp at hx
        | some z => rw [hb] at hx; simp only [Option.bind_some] at hx ⊢; exact iha z y hx
    rw [app es _ _ h3, h5]

/-- **C152 (refuted)** A task given to `push_task` that throws ends the process, whatever else is waiting. -/
theorem C152_raw_refuted : ∃ (es : List Event) (s : FPool Nat),
    fexec (fun t => if t = 1 then .raw else .future) (fun t => if t = 1 then .threw 0 else .returned 4) (ffresh Nat 1) es
      = some s ∧ s.terminated = true ∧ 2 ∈ s.pool.queue ∧
    ∀ e, fstep (fun t => if t = 1 then .raw else .future) (fun t => if t = 1 then .threw 0 else .returned 4) s e = none :=
  ⟨[.push 1, .enqueue 1, .push 2, .enqueue 2, .check 0, .look 0, .start 0 1, .finish 0 1], _, rfl, rfl, by decide,
    fun _ => rfl⟩

end MLTK.Props
