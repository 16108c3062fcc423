import Verif.Lemmas.ThreadPoolLive
/-!
# Thread pool: C31, C32, C33
-/
namespace MLTK.Props
open MLTK.Pool MLTK.Spec

/-- An execution of a two-worker pool: two tasks are submitted, both run, the second overtakes the
first in finishing, then `wait_for_tasks` returns. -/
def demoTrace : List Event :=
  [.push 7, .check 0, .look 0, .enqueue 7, .push 9, .check 1, .enqueue 9, .start 0 7, .waitCall,
   .look 1, .start 1 9, .finish 1 9, .waitLook, .waitMore, .dec 1, .finish 0 7, .waitLook, .dec 0]

/-- C31: at every point of every interleaving, tasks have been started in submission order and the
queue holds exactly the submitted tasks not yet started, in order. -/
theorem C31_fifo (n : Nat) (es : List Event) (s : Pool) (h : exec (fresh n) es = some s) :
    enqueued es = started es ++ s.queue := (inv_exec h).fifo

/-- C31: nothing is lost or invented: every submitted task (with multiplicity) is in exactly one place:
finished, being executed, queued, or still inside `push_task`. -/
theorem C31_conservation (n : Nat) (es : List Event) (s : Pool) (h : exec (fresh n) es = some s) :
    (submitted es).Perm (finished es ++ executing s ++ s.queue ++ s.submitting) := by
  have i := inv_exec h
  refine i.subm.trans ?_
  rw [i.fifo]
  exact ((i.fin.append_right s.queue).append_right s.submitting)

/-- C31: a task submitted once is started at most once and finishes at most once. -/
theorem C31_at_most_once (n : Nat) (es : List Event) (s : Pool) (h : exec (fresh n) es = some s)
    (hd : (submitted es).Nodup) : (started es).Nodup ∧ (finished es).Nodup ∧
      (∀ t ∈ finished es, t ∈ started es) ∧ (∀ t ∈ started es, t ∈ submitted es) := by
  have i := inv_exec h
  have h1 : (enqueued es ++ s.submitting).Nodup := i.subm.nodup_iff.mp hd
  have h2 : (enqueued es).Nodup := (List.nodup_append.mp h1).1
  have h3 : (started es).Nodup := by
    rw [i.fifo] at h2; exact (List.nodup_append.mp h2).1
  have h4 : (finished es ++ executing s).Nodup := i.fin.nodup_iff.mp h3
  refine ⟨h3, (List.nodup_append.mp h4).1, ?_, ?_⟩
  · intro t ht; exact i.fin.mem_iff.mpr (by simp [ht])
  · intro t ht
    refine i.subm.mem_iff.mpr ?_
    rw [i.fifo]; simp [ht]

/-- C31: `get_tasks_total` counts exactly the unfinished tasks, a task being counted until its worker
has executed the decrement. -/
theorem C31_total (n : Nat) (es : List Event) (s : Pool) (h : exec (fresh n) es = some s) :
    (submitted es).length ≤ (finished es).length + s.total ∧
    (s.total = 0 → (submitted es).Perm (finished es)) := by
  have i := inv_exec h
  have hc := C31_conservation n es s h
  have hb : (executing s).length ≤ busy s.workers := by
    unfold executing busy
    generalize s.workers = l
    induction l with
    | nil => simp
    | cons w l ih => cases w <;> simp_all [List.countP_cons] <;> omega
  constructor
  · have := hc.length_eq
    simp only [List.length_append] at this
    have := i.tot
    omega
  · intro h0
    have ht := i.tot
    have e1 : executing s = [] := List.length_eq_zero_iff.mp (by omega)
    have e2 : s.queue = [] := List.length_eq_zero_iff.mp (by omega)
    have e3 : s.submitting = [] := List.length_eq_zero_iff.mp (by omega)
    simpa [e1, e2, e3] using hc

/-- C31, liveness: take any infinite execution in which from some point on the pool is running and
not paused, there is at least one worker, and every worker keeps getting turns.  Then every task in
the queue is eventually started by some worker and that worker eventually finishes it. -/
theorem C31_liveness (σ : Nat → Pool) (ev : Nat → Event) (N n : Nat)
    (hinit : σ 0 = fresh n)
    (hstep : ∀ k, step (σ k) (ev k) = some (σ (k+1)))
    (hopen : ∀ k, N ≤ k → (σ k).paused = false ∧ (σ k).running = true)
    (hworkers : 0 < (σ N).workers.length)
    (hfair : ∀ i, i < (σ N).workers.length → ∀ k, ∃ m, k ≤ m ∧ ofWorker i (ev m) = true)
    (k : Nat) (hk : N ≤ k) (t : Task) (ht : t ∈ (σ k).queue) :
    ∃ m i, k ≤ m ∧ ev m = .start i t ∧ ∃ m', m < m' ∧ ev m' = .finish i t := by
  have hinv : ∀ k, ∃ es, Inv es (σ k) := by
    intro k
    induction k with
    | zero => exact ⟨[], hinit ▸ inv_fresh n⟩
    | succ k ih => obtain ⟨es, h⟩ := ih; exact ⟨_, inv_step h (hstep k)⟩
  obtain ⟨q1, q2, hq⟩ := List.append_of_mem ht
  induction hl : q1.length generalizing k q1 q2 with
  | zero =>
    have : q1 = [] := List.length_eq_zero_iff.mp hl
    subst this
    have hlen := len_const σ ev N hstep hopen k hk 0 hworkers
    obtain ⟨es, hi⟩ := hinv k
    have hw : (σ k).workers[0]? = some (σ k).workers[0] := List.getElem?_eq_getElem hlen
    have hnex : (σ k).workers[0] ≠ .exited := hi.alive (hopen k hk).2 _ (List.getElem_mem hlen)
    obtain ⟨m0, hm0, i0, t0, hs0⟩ := some_start σ ev N hstep hopen hfair hworkers 5 k hk
      (by rw [hq]; simp) _ hw (by generalize (σ k).workers[0] = w; cases w <;> simp [rank])
      (by revert hnex; generalize (σ k).workers[0] = w; cases w <;> simp [rank])
    obtain ⟨m, hm, hm1, hm2⟩ := first_event ev
      (fun | .start _ _ => true | _ => false) k ⟨m0, hm0, by rw [hs0]⟩
    obtain ⟨x, hx⟩ := queue_grow σ ev N hstep hopen k m hm (by
      intro j h1 h2 i t he
      have := hm2 j h1 h2
      rw [he] at this; simp at this)
    cases he : ev m <;> rw [he] at hm1 <;> simp at hm1
    rename_i i t'
    have hst := hstep m
    rw [he] at hst
    obtain ⟨e1, e2⟩ := start_step hst
    rw [hx, hq] at e1
    simp only [List.nil_append, List.cons_append, List.cons.injEq] at e1
    obtain ⟨rfl, -⟩ := e1
    refine ⟨m, i, hm, he, ?_⟩
    have hilt : i < (σ N).workers.length := by
      by_contra hcon
      have hle : ∀ m, N ≤ m → (σ m).workers[i]? = none := by
        intro m hm
        induction m, hm using Nat.le_induction with
        | base => simp; omega
        | succ m hm ih =>
          by_cases hof : ofWorker i (ev m) = true
          · exfalso
            have hs := hstep m
            revert hs hof
            generalize ev m = e
            intro hof hs
            cases e <;> simp only [ofWorker, decide_eq_true_eq, Bool.false_eq_true] at hof <;>
              subst hof <;> simp [step, ih] at hs
          · rw [pc_step i (hopen m hm).2 (hstep m) (by simpa using hof), ih]
      have := hle (m+1) (by omega)
      rw [e2] at this
      simp at this
    obtain ⟨m', g1, g2, g3⟩ := first_event ev (ofWorker i) (m+1) (hfair i hilt (m+1))
    have hpc := pc_const σ ev N hstep hopen i (m+1) m' (by omega) g1 g3
    rw [e2] at hpc
    exact ⟨m', by omega, finish_step hpc (hstep m') g2⟩
  | succ l ih =>
    cases q1 with
    | nil => simp at hl
    | cons a q1 =>
      have hlen := len_const σ ev N hstep hopen k hk 0 hworkers
      obtain ⟨es, hi⟩ := hinv k
      have hw : (σ k).workers[0]? = some (σ k).workers[0] := List.getElem?_eq_getElem hlen
      have hnex : (σ k).workers[0] ≠ .exited := hi.alive (hopen k hk).2 _ (List.getElem_mem hlen)
      obtain ⟨m0, hm0, i0, t0, hs0⟩ := some_start σ ev N hstep hopen hfair hworkers 5 k hk
        (by rw [hq]; simp) _ hw (by generalize (σ k).workers[0] = w; cases w <;> simp [rank])
        (by revert hnex; generalize (σ k).workers[0] = w; cases w <;> simp [rank])
      obtain ⟨m, hm, hm1, hm2⟩ := first_event ev
        (fun | .start _ _ => true | _ => false) k ⟨m0, hm0, by rw [hs0]⟩
      obtain ⟨x, hx⟩ := queue_grow σ ev N hstep hopen k m hm (by
        intro j h1 h2 i t he
        have := hm2 j h1 h2
        rw [he] at this; simp at this)
      cases he : ev m <;> rw [he] at hm1 <;> simp at hm1
      rename_i i t'
      have hst := hstep m
      rw [he] at hst
      obtain ⟨e1, e2⟩ := start_step hst
      rw [hx, hq] at e1
      simp only [List.cons_append, List.cons.injEq] at e1
      have hq' : (σ (m+1)).queue = q1 ++ t :: (q2 ++ x) := by rw [← e1.2]; simp
      obtain ⟨m2, i2, h1, h2⟩ := ih (m+1) (by omega) (by rw [hq']; simp) q1 (q2 ++ x) hq'
        (by simpa using hl)
      exact ⟨m2, i2, by omega, h2⟩

/-- C31: `reset` keeps waiting tasks: respawning the workers changes neither the queue nor what has
been started or finished, and the FIFO history continues. -/
theorem C31_reset_keeps_queue (s s' : Pool) (n : Nat) (h : step s (.respawn n) = some s') :
    s'.queue = s.queue ∧ s'.submitting = s.submitting ∧ s'.workers = List.replicate n .top ∧
    executing s = [] := by
  simp only [step] at h
  split at h
  · rename_i hw
    simp only [Option.some.injEq] at h
    subst h
    refine ⟨rfl, rfl, rfl, ?_⟩
    simp only [executing, List.filterMap_eq_nil_iff]
    intro w hw'
    have := List.all_eq_true.mp hw.2 w hw'
    simp at this
    rw [this]
  · simp at h

example : ∃ s, exec (fresh 2) demoTrace = some s ∧ s.total = 0 ∧ started demoTrace = [7, 9] ∧
    finished demoTrace = [9, 7] := ⟨_, rfl, by decide, by decide, by decide⟩

/-- C31, non-vacuity of the liveness hypotheses: the idle loop of one worker is such an execution. -/
example : ∃ (σ : Nat → Pool) (ev : Nat → Event), σ 0 = fresh 1 ∧
    (∀ k, step (σ k) (ev k) = some (σ (k+1))) ∧
    (∀ k, 0 ≤ k → (σ k).paused = false ∧ (σ k).running = true) ∧ 0 < (σ 0).workers.length ∧
    (∀ i, i < (σ 0).workers.length → ∀ k, ∃ m, k ≤ m ∧ ofWorker i (ev m) = true) ∧
    7 ∈ (σ 2).queue := by
  let pre : List Event := [.push 7, .enqueue 7, .check 0, .look 0, .start 0 7, .finish 0 7, .dec 0]
  let loopS : Nat → Pool := fun k => { fresh 1 with workers :=
    [match k % 3 with | 0 => WState.top | 1 => .entered | _ => .ready] }
  let loopE : Nat → Event := fun k => match k % 3 with | 0 => .check 0 | 1 => .look 0 | _ => .noTask 0
  let σ : Nat → Pool := fun k => if k < 7 then (exec (fresh 1) (pre.take k)).getD (fresh 1) else loopS (k - 7)
  let ev : Nat → Event := fun k => if k < 7 then pre.getD k .stop else loopE (k - 7)
  have hl : ∀ k, step (loopS k) (loopE k) = some (loopS (k+1)) := by
    intro k
    have hk : k % 3 = 0 ∨ k % 3 = 1 ∨ k % 3 = 2 := by omega
    rcases hk with h | h | h
    · have h' : (k+1) % 3 = 1 := by omega
      simp only [loopS, loopE, h, h']; rfl
    · have h' : (k+1) % 3 = 2 := by omega
      simp only [loopS, loopE, h, h']; rfl
    · have h' : (k+1) % 3 = 0 := by omega
      simp only [loopS, loopE, h, h']; rfl
  refine ⟨σ, ev, rfl, ?_, ?_, ?_, ?_, ?_⟩
  · intro k
    by_cases h : k < 7
    · have : k = 0 ∨ k = 1 ∨ k = 2 ∨ k = 3 ∨ k = 4 ∨ k = 5 ∨ k = 6 := by omega
      rcases this with rfl | rfl | rfl | rfl | rfl | rfl | rfl <;> rfl
    · simp only [σ, ev, h, show ¬ (k + 1 < 7) by omega, if_false]
      rw [show k + 1 - 7 = (k - 7) + 1 by omega]
      exact hl _
  · intro k _
    by_cases h : k < 7
    · have : k = 0 ∨ k = 1 ∨ k = 2 ∨ k = 3 ∨ k = 4 ∨ k = 5 ∨ k = 6 := by omega
      rcases this with rfl | rfl | rfl | rfl | rfl | rfl | rfl <;> exact ⟨rfl, rfl⟩
    · simp only [σ, h, if_false, loopS]; exact ⟨rfl, rfl⟩
  · decide
  · intro i hi k
    have hi0 : i = 0 := by
      have : (σ 0).workers.length = 1 := rfl
      omega
    subst hi0
    refine ⟨k + 7, by omega, ?_⟩
    simp only [ev, show ¬ (k + 7 < 7) by omega, if_false, loopE]
    have hk : (k + 7 - 7) % 3 = 0 ∨ (k + 7 - 7) % 3 = 1 ∨ (k + 7 - 7) % 3 = 2 := by omega
    rcases hk with h | h | h <;> rw [h] <;> rfl
  · decide

/-- C32: in every interleaving, when `wait_for_tasks` returns from a pool it saw unpaused, every task
submitted before the call (indeed every task submitted before the return) has finished. -/
theorem C32_barrier (n : Nat) (pre mid : List Event) (s : Pool)
    (h : exec (fresh n) (pre ++ [.waitCall] ++ mid ++ [.waitOpenReturn]) = some s) :
    (∀ t ∈ submitted pre, t ∈ finished (pre ++ [.waitCall] ++ mid)) ∧
    (submitted (pre ++ [.waitCall] ++ mid)).Perm (finished (pre ++ [.waitCall] ++ mid)) := by
  obtain ⟨s', h1, h2⟩ := exec_snoc h
  have h0 : s'.total = 0 := by
    simp only [step] at h2
    split at h2
    · rename_i hh; exact hh.2
    · simp at h2
  have hp := (C31_total n _ s' h1).2 h0
  refine ⟨fun t ht => hp.mem_iff.mp ?_, hp⟩
  simp only [submitted, List.filterMap_append, List.mem_append]
  exact Or.inl (Or.inl ht)

example : ∃ s, exec (fresh 2) (demoTrace ++ [.waitOpenReturn]) = some s := ⟨_, rfl⟩

/-- The schedule that breaks the paused half of C32: the worker reads `paused == false`, the client
pauses and calls `wait_for_tasks`, which returns; then the worker pops and starts the task. -/
def pausedRace : List Event :=
  [.push 7, .enqueue 7, .check 0, .look 0, .setPaused true, .waitCall, .waitLook, .waitReadTotal,
   .waitPausedReturn]

/-- C32, paused half, is false of the code: `wait_for_tasks` can return on a paused pool and a task
can start afterwards although the pool stays paused. -/
theorem C32_paused_refuted :
    ¬ ∀ (n : Nat) (pre post : List Event) (s : Pool),
      exec (fresh n) (pre ++ [.waitPausedReturn] ++ post) = some s →
      (∀ s0, exec (fresh n) pre = some s0 → s0.paused = true) →
      (∀ b, Event.setPaused b ∉ post) → started post = [] := by
  intro h
  have := h 1 [.push 7, .enqueue 7, .check 0, .look 0, .setPaused true, .waitCall, .waitLook,
    .waitReadTotal] [.start 0 7] _ rfl (by intro s0 hs; cases hs; rfl) (by simp)
  simp [started] at this

/-- C32, paused half: even a task that is running when `wait_for_tasks` is called may still be running
when it returns, because `get_tasks_running` reads the two counters separately. -/
theorem C32_running_refuted :
    ∃ (es : List Event) (s : Pool), exec (fresh 1) (es ++ [.waitPausedReturn]) = some s ∧
      s.paused = true ∧ executing s = [3] ∧ 3 ∈ started es :=
  ⟨[.push 3, .enqueue 3, .check 0, .look 0, .start 0 3, .setPaused true, .waitCall, .waitLook,
    .waitReadTotal, .push 4, .enqueue 4], _, rfl, rfl, rfl, by decide⟩

/-- No worker is past its check of `paused`. -/
def Quiet (s : Pool) : Prop := s.paused = true ∧ ∀ w ∈ s.workers, w ≠ WState.ready

theorem quiet_step {s s' : Pool} {e : Event} (hq : Quiet s) (hs : step s e = some s')
    (he : e ≠ .setPaused false) : Quiet s' ∧ (∀ i t, e ≠ .start i t) ∧
      busy s'.workers ≤ busy s.workers := by
  obtain ⟨hp, hw⟩ := hq
  have mv : ∀ (t : Pool) (i : Nat) (w w' : WState), t.workers = s.workers → t.paused = true →
      s.workers[i]? = some w → w' ≠ .ready → busy [w'] ≤ busy [w] →
      Quiet (t.setW i w') ∧ busy (t.setW i w').workers ≤ busy s.workers := by
    intro t i w w' ht htp hi hr hb
    obtain ⟨a, b, e1, e2, -⟩ := set_split _ _ _ w' hi
    refine ⟨⟨htp, ?_⟩, ?_⟩
    · intro v hv
      simp only [Pool.setW, ht, e2] at hv
      rw [e1] at hw
      simp only [List.mem_append, List.mem_cons] at hv hw
      rcases hv with hv | rfl | hv
      · exact hw v (Or.inl hv)
      · exact hr
      · exact hw v (Or.inr (Or.inr hv))
    · simp only [Pool.setW, ht, e2]
      rw [e1]
      simp only [busy, List.countP_append] at hb ⊢
      rw [← List.singleton_append, List.countP_append, ← List.singleton_append (l := b),
        List.countP_append]
      omega
  have fin : ∀ (t : Pool) (i : Nat) (w w' : WState), t.workers = s.workers → t.paused = true →
      s.workers[i]? = some w → w' ≠ .ready → busy [w'] ≤ busy [w] → (∀ i t, e ≠ .start i t) →
      Quiet (t.setW i w') ∧ (∀ i t, e ≠ .start i t) ∧ busy (t.setW i w').workers ≤ busy s.workers := by
    intro t i w w' a b c d f g
    exact ⟨(mv t i w w' a b c d f).1, g, (mv t i w w' a b c d f).2⟩
  cases e with
  | check i =>
    simp only [step] at hs
    split at hs
    · rename_i h
      simp only [Option.some.injEq] at hs
      subst hs
      exact fin s i _ _ rfl hp h (by split <;> simp) (by split <;> simp [busy]) (by simp)
    · simp at hs
  | look i =>
    simp only [step, hp, if_true] at hs
    split at hs
    · rename_i h
      simp only [Option.some.injEq] at hs
      subst hs
      exact fin s i _ _ rfl hp h (by simp) (by simp [busy]) (by simp)
    · simp at hs
  | start i t =>
    simp only [step] at hs
    split at hs
    · rename_i h
      exact absurd rfl (hw _ (List.mem_of_getElem? h.1))
    · simp at hs
  | noTask i =>
    simp only [step] at hs
    split at hs
    · rename_i h
      exact absurd rfl (hw _ (List.mem_of_getElem? h.1))
    · simp at hs
  | finish i t =>
    simp only [step] at hs
    split at hs
    · rename_i h
      simp only [Option.some.injEq] at hs
      subst hs
      exact fin s i _ _ rfl hp h (by simp) (by simp [busy]) (by simp)
    · simp at hs
  | dec i =>
    simp only [step] at hs
    split at hs
    · rename_i h
      simp only [Option.some.injEq] at hs
      subst hs
      exact fin { s with total := s.total - 1 } i _ _ rfl hp h (by simp) (by simp [busy]) (by simp)
    · simp at hs
  | setPaused b =>
    simp only [step, Option.some.injEq] at hs
    subst hs
    cases b with
    | false => exact absurd rfl he
    | true => exact ⟨⟨rfl, hw⟩, by simp, le_refl _⟩
  | respawn n =>
    simp only [step] at hs
    split at hs
    · simp only [Option.some.injEq] at hs
      subst hs
      refine ⟨⟨hp, ?_⟩, by simp, ?_⟩
      · intro w hw'
        rw [List.eq_of_mem_replicate hw']; simp
      · simp [busy, List.countP_replicate]
    · simp at hs
  | _ =>
    simp only [step] at hs
    (try split at hs) <;> (try split at hs) <;>
      simp only [Option.some.injEq, reduceCtorEq] at hs <;> subst hs <;>
      exact ⟨⟨hp, hw⟩, by simp, le_refl _⟩

theorem frame_step {s s' : Pool} {e : Event} (hs : step s e = some s') (h1 : ∀ t, e ≠ .push t)
    (h2 : ∀ t, e ≠ .enqueue t) (h3 : ∀ i t, e ≠ .start i t) :
    s'.queue = s.queue ∧ s'.submitting = s.submitting := by
  cases e with
  | push t => exact absurd rfl (h1 t)
  | enqueue t => exact absurd rfl (h2 t)
  | start i t => exact absurd rfl (h3 i t)
  | _ =>
    simp only [step] at hs
    (try split at hs) <;> (try split at hs) <;>
      simp only [Option.some.injEq, reduceCtorEq] at hs <;> subst hs <;> exact ⟨rfl, rfl⟩

theorem waiter_step {s s' : Pool} {e : Event} (hs : step s e = some s') :
    s'.waiter = s.waiter ∨
    ((∀ v, s'.waiter ≠ .readTotal v) ∧ (∀ v, s'.waiter ≠ .readQueued v)) ∨
    (s'.waiter = .readTotal s.total ∧ s'.workers = s.workers) ∨
    s'.waiter = .readQueued s.queue.length := by
  cases e with
  | waitReadTotal =>
    simp only [step] at hs
    split at hs <;> simp only [Option.some.injEq, reduceCtorEq] at hs
    subst hs; exact Or.inr (Or.inr (Or.inl ⟨rfl, rfl⟩))
  | waitReadQueued =>
    simp only [step] at hs
    split at hs <;> simp only [Option.some.injEq, reduceCtorEq] at hs
    subst hs; exact Or.inr (Or.inr (Or.inr rfl))
  | waitCall | waitMore | waitOpenReturn | waitPausedMore | waitPausedReturn =>
    simp only [step] at hs
    (try split at hs) <;> (try split at hs) <;>
      simp only [Option.some.injEq, reduceCtorEq] at hs <;> subst hs <;> exact Or.inr (Or.inl (by simp))
  | waitLook =>
    simp only [step] at hs
    split at hs
    · simp only [Option.some.injEq] at hs
      subst hs
      refine Or.inr (Or.inl ?_)
      cases s.paused <;> simp
    · simp at hs
  | _ =>
    simp only [step] at hs
    (try split at hs) <;> (try split at hs) <;>
      simp only [Option.some.injEq, reduceCtorEq] at hs <;> subst hs <;> exact Or.inl rfl

/-- C32 (partial), paused half: it holds when the pool was already paused and every worker had noticed
(none sits between its check of `paused` and its pop) and no `push_task` is in progress or begins
before the return.  Then on return no task is running, and none starts until unpaused.
Missing from C32: calls racing with the pausing itself or with submitters, see the refutations. -/
theorem C32_paused_partial (n : Nat) (pre mid post : List Event) (s0 s1 s : Pool)
    (h0 : exec (fresh n) pre = some s0)
    (h1 : exec s0 ([.waitCall] ++ mid ++ [.waitPausedReturn]) = some s1)
    (h2 : exec s1 post = some s)
    (hpaused : s0.paused = true) (hquiet : ∀ w ∈ s0.workers, w ≠ WState.ready)
    (hsub : s0.submitting = []) (hpush : ∀ t, Event.push t ∉ mid)
    (hmid : Event.setPaused false ∉ mid) (hpost : Event.setPaused false ∉ post) :
    executing s1 = [] ∧ executing s = [] ∧ started post = [] := by
  have hinv0 := inv_exec h0
  -- invariant of the waiting phase
  have phase : ∀ (es : List Event) (sa sb : Pool) (hist : List Event), exec sa es = some sb →
      Event.setPaused false ∉ es → (∀ t, Event.push t ∉ es) → Inv hist sa →
      Quiet sa → sa.submitting = [] →
      (∀ v, sa.waiter = .readTotal v → v = sa.queue.length → busy sa.workers = 0) →
      (∀ v, sa.waiter = .readQueued v → v = sa.queue.length) →
      (∃ hist', Inv hist' sb) ∧ Quiet sb ∧ sb.submitting = [] ∧
      (∀ v, sb.waiter = .readTotal v → v = sb.queue.length → busy sb.workers = 0) ∧
      (∀ v, sb.waiter = .readQueued v → v = sb.queue.length) := by
    intro es
    induction es with
    | nil =>
      intro sa sb hist h _ _ i q sub w1 w2
      simp [exec] at h; subst h
      exact ⟨⟨hist, i⟩, q, sub, w1, w2⟩
    | cons e es ih =>
      intro sa sb hist h hp hpu i q sub w1 w2
      simp only [exec] at h
      cases hst : step sa e with
      | none => rw [hst] at h; simp at h
      | some sc =>
        rw [hst] at h
        simp only [Option.bind_some] at h
        obtain ⟨q', hns, hb⟩ := quiet_step q hst (by rintro rfl; simp at hp)
        have hi' := inv_step i hst
        have htot := i.tot
        have hnp : ∀ t, e ≠ .push t := by rintro t rfl; exact hpu t (by simp)
        have hkey : sc.submitting = [] ∧ sc.queue = sa.queue ∧
            (∀ v, sc.waiter = .readTotal v → v = sc.queue.length → busy sc.workers = 0) ∧
            (∀ v, sc.waiter = .readQueued v → v = sc.queue.length) := by
          rw [sub] at htot
          simp only [List.length_nil, Nat.zero_add] at htot
          have hne : ∀ t, e ≠ .enqueue t := by
            rintro t rfl; simp [step, sub] at hst
          obtain ⟨f1, f2⟩ := frame_step hst hnp hne hns
          refine ⟨by rw [f2, sub], f1, ?_, ?_⟩
          · intro v hv hl
            rw [f1] at hl
            rcases waiter_step hst with h | h | ⟨h, hwk⟩ | h
            · have := w1 v (by rw [← h, hv]) hl
              omega
            · exact absurd hv (h.1 v)
            · rw [h] at hv
              cases hv
              rw [hwk]; omega
            · rw [h] at hv; cases hv
          · intro v hv
            rw [f1]
            rcases waiter_step hst with h | h | h | h
            · exact w2 v (by rw [← h, hv])
            · exact absurd hv (h.2 v)
            · rw [h.1] at hv; cases hv
            · rw [h] at hv; cases hv; rfl
        exact ih sc sb _ h (by simp at hp; exact hp.2) (fun t ht => hpu t (by simp [ht])) hi' q'
          hkey.1 hkey.2.2.1 hkey.2.2.2
  -- the quiet phase after the return
  have after : ∀ (es : List Event) (sa sb : Pool), exec sa es = some sb →
      Event.setPaused false ∉ es → Quiet sa → busy sa.workers = 0 →
      busy sb.workers = 0 ∧ started es = [] := by
    intro es
    induction es with
    | nil => intro sa sb h _ _ hb; simp [exec] at h; subst h; exact ⟨hb, rfl⟩
    | cons e es ih =>
      intro sa sb h hp q hb
      simp only [exec] at h
      cases hst : step sa e with
      | none => rw [hst] at h; simp at h
      | some sc =>
        rw [hst] at h
        simp only [Option.bind_some] at h
        obtain ⟨q', hns, hb'⟩ := quiet_step q hst (by rintro rfl; simp at hp)
        obtain ⟨r1, r2⟩ := ih sc sb h (by simp at hp; exact hp.2) q' (by omega)
        refine ⟨r1, ?_⟩
        have : started (e :: es) = started [e] ++ started es := by
          simp only [started, ← List.filterMap_append, List.singleton_append]
        rw [this, r2]
        cases e <;> simp [started]
        exact absurd rfl (hns _ _)
  have exec_of_busy : ∀ s : Pool, busy s.workers = 0 → executing s = [] := by
    intro s hb
    simp only [executing, List.filterMap_eq_nil_iff]
    intro w hw
    simp only [busy, List.countP_eq_zero] at hb
    have := hb w hw
    cases w <;> simp_all
  obtain ⟨s2, g1, g2⟩ := exec_snoc h1
  have hidle : s0.waiter = .idle := by
    simp only [List.singleton_append, exec, step] at g1
    by_contra hne
    simp [hne] at g1
  obtain ⟨⟨hist, i2⟩, q2, sub2, w1, w2⟩ := phase ([.waitCall] ++ mid) s0 s2 pre g1
    (by simpa using hmid) (by simpa using hpush) hinv0 ⟨hpaused, hquiet⟩ hsub
    (by rw [hidle]; simp) (by rw [hidle]; simp)
  have hb2 : busy s2.workers = 0 := by
    have htot := i2.tot
    rw [sub2] at htot
    simp only [List.length_nil, Nat.zero_add] at htot
    simp only [step] at g2
    split at g2
    · rename_i v hv
      split at g2
      · rename_i hh; exact w1 v hv hh
      · simp at g2
    · rename_i v hv
      split at g2
      · rename_i hh
        have := w2 v hv
        omega
      · simp at g2
    · simp at g2
  obtain ⟨q1, -, hb1⟩ := quiet_step q2 g2 (by simp)
  obtain ⟨r1, r2⟩ := after post s1 s h2 hpost q1 (by omega)
  exact ⟨exec_of_busy s1 (by omega), exec_of_busy s r1, r2⟩

/-- The hypotheses of `C32_paused_partial` are met: one task finishes while the client waits, another
stays queued. -/
example : ∃ s0 s1 s, exec (fresh 1) [.push 3, .enqueue 3, .push 4, .enqueue 4, .check 0, .look 0,
      .start 0 3, .setPaused true] = some s0 ∧
    exec s0 ([.waitCall] ++ [.waitLook, .waitReadTotal, .waitPausedMore, .finish 0 3, .dec 0,
      .waitLook, .waitReadQueued] ++ [.waitPausedReturn]) = some s1 ∧
    exec s1 [.check 0, .look 0] = some s ∧ s0.paused = true ∧
    (∀ w ∈ s0.workers, w ≠ WState.ready) ∧ s0.submitting = [] ∧ executing s0 = [3] :=
  ⟨_, _, _, rfl, rfl, rfl, rfl, by decide, rfl, rfl⟩

/-- C33: the blocks of `parallelize_loop`, visited in order, enumerate every index of the range between
the two bounds exactly once and in increasing order; every block is non-empty and there are at most as
many blocks as requested (the thread count if 0 was requested).  For an empty range nothing is
submitted. -/
theorem C33_tiling (first last : Int) (threadCount numBlocks : Nat)
    (hnb : 0 < numBlocks ∨ 0 < threadCount) :
    ∃ bs, blocks first last threadCount numBlocks = .ok bs ∧
      bs.flatMap (fun b => indices b.1 b.2) = indices (min first last) (max first last) ∧
      (∀ b ∈ bs, b.1 < b.2) ∧ (first = last → bs = []) ∧
      bs.length ≤ (if numBlocks = 0 then threadCount else numBlocks) := by
  unfold blocks
  by_cases hfl : first = last
  · subst hfl
    exact ⟨[], by simp, by simp [indices], by simp, by simp, by simp⟩
  simp only [hfl, if_false]
  set lo := if last < first then last else first with hlo
  set hi := (if last < first then first else last) - 1 with hhi
  have hmin : min first last = lo := by rw [hlo]; split <;> omega
  have hmax : max first last = hi + 1 := by rw [hhi]; split <;> omega
  rw [hmin, hmax]
  have hle : lo ≤ hi := by rw [hlo, hhi]; split <;> omega
  set nb := if numBlocks = 0 then threadCount else numBlocks with hnbdef
  have hnb0 : nb ≠ 0 := by rw [hnbdef]; split <;> omega
  simp only [hnb0, if_false]
  set total := (hi - lo + 1).toNat with htotal
  have htot : (total : Int) = hi - lo + 1 := by omega
  have htpos : 0 < total := by omega
  set nb' := if total / nb = 0 then (if total > 1 then total else 1) else nb with hnb'
  set bs' := if total / nb = 0 then 1 else total / nb with hbs'
  have hb1 : 0 < bs' := by
    rw [hbs']; split
    · omega
    · rename_i h; exact Nat.pos_of_ne_zero h
  have hb2 : 0 < nb' := by rw [hnb']; split <;> (try split) <;> omega
  have hb3 : nb' * bs' ≤ total := by
    rw [hnb', hbs']
    split
    · split <;> omega
    · exact Nat.mul_div_le total nb
  have hb4 : nb' ≤ nb := by
    rw [hnb']
    split
    · rename_i h
      have : total < nb := by
        rcases (Nat.div_eq_zero_iff).mp h with h | h <;> omega
      split <;> omega
    · exact le_refl _
  refine ⟨_, rfl, ?_, ?_, False.elim, by simpa using hb4⟩
  · -- prefixes of the block list tile prefixes of the range
    have glue : ∀ a b c : Int, a ≤ b → b ≤ c → indices a b ++ indices b c = indices a c := by
      intro a b c h1 h2
      simp only [indices]
      have : (c - a).toNat = (b - a).toNat + (c - b).toNat := by omega
      rw [this, List.range_add, List.map_append, List.map_map]
      congr 1
      apply List.map_congr_left
      intro k _
      simp only [Function.comp]
      push_cast
      omega
    have pre : ∀ m, m < nb' → ((List.range m).map (fun t =>
        (((t * bs' : Nat) : Int) + lo,
         if t = nb' - 1 then hi + 1 else (((t + 1) * bs' : Nat) : Int) + lo))).flatMap
          (fun b => indices b.1 b.2) = indices lo (((m * bs' : Nat) : Int) + lo) := by
      intro m
      induction m with
      | zero => intro _; simp [indices]
      | succ m ih =>
        intro hm
        rw [List.range_succ, List.map_append, List.flatMap_append, ih (by omega)]
        simp only [List.map_cons, List.map_nil, List.flatMap_cons, List.flatMap_nil, List.append_nil,
          if_neg (show ¬ m = nb' - 1 by omega)]
        apply glue
        · omega
        · have : m * bs' ≤ (m+1) * bs' := Nat.mul_le_mul_right _ (by omega)
          omega
    obtain ⟨m, hm⟩ : ∃ m, nb' = m + 1 := ⟨nb' - 1, by omega⟩
    have hp := pre m (by omega)
    rw [hm] at hp ⊢
    rw [List.range_succ, List.map_append, List.flatMap_append, hp]
    simp only [List.map_cons, List.map_nil, List.flatMap_cons, List.flatMap_nil, List.append_nil,
      Nat.add_sub_cancel, if_true]
    apply glue
    · omega
    · rw [hm] at hb3
      have : m * bs' ≤ (m+1) * bs' := Nat.mul_le_mul_right _ (by omega)
      omega
  · intro b hb
    simp only [List.mem_map, List.mem_range] at hb
    obtain ⟨t, ht, rfl⟩ := hb
    simp only
    split
    · have h1 : (t + 1) * bs' ≤ nb' * bs' := Nat.mul_le_mul_right _ (by omega)
      have h2 : (t + 1) * bs' = t * bs' + bs' := Nat.succ_mul t bs'
      omega
    · have h2 : (t + 1) * bs' = t * bs' + bs' := Nat.succ_mul t bs'
      omega

/-- C33: hence every index of the range lies in exactly one block, and no other index in any. -/
theorem C33_exactly_one (first last : Int) (threadCount numBlocks : Nat)
    (hnb : 0 < numBlocks ∨ 0 < threadCount) (bs : List (Int × Int))
    (hbs : blocks first last threadCount numBlocks = .ok bs) (i : Int) :
    (bs.countP (fun b => decide (b.1 ≤ i ∧ i < b.2))) =
      if min first last ≤ i ∧ i < max first last then 1 else 0 := by
  obtain ⟨bs', h1, h2, h3, -⟩ := C33_tiling first last threadCount numBlocks hnb
  rw [hbs] at h1
  cases h1
  have mem_ind : ∀ a b x : Int, x ∈ indices a b ↔ a ≤ x ∧ x < b := by
    intro a b x
    simp only [indices, List.mem_map, List.mem_range]
    constructor
    · rintro ⟨k, hk, rfl⟩; omega
    · intro h; exact ⟨(x - a).toNat, by omega, by omega⟩
  have nodup_ind : ∀ a b : Int, (indices a b).Nodup := by
    intro a b
    simp only [indices]
    rw [List.nodup_iff_pairwise_ne, List.pairwise_map]
    exact List.nodup_range.imp (fun h => by simpa using h)
  have cnt : ∀ a b : Int, (indices a b).count i = if a ≤ i ∧ i < b then 1 else 0 := by
    intro a b
    by_cases h : i ∈ indices a b
    · rw [(nodup_ind a b).count (a := i), if_pos h, if_pos ((mem_ind a b i).mp h)]
    · rw [List.count_eq_zero_of_not_mem h, if_neg (fun hh => h ((mem_ind a b i).mpr hh))]
  rw [← cnt, ← h2]
  clear h2 h3 hbs
  induction bs with
  | nil => simp
  | cons b bs ih =>
    rw [List.flatMap_cons, List.count_append, List.countP_cons, ih, cnt]
    simp only [decide_eq_true_eq]
    omega

/-- C33: with no block count and a thread count of zero (`hardware_concurrency()` may return 0) the
division is undefined. -/
theorem C33_zero_threads_refuted :
    ¬ ∀ (first last : Int) (threadCount numBlocks : Nat),
      ∃ bs, blocks first last threadCount numBlocks = .ok bs := by
  intro h
  obtain ⟨bs, h⟩ := h 0 1 0 0
  simp [blocks] at h

example : blocks 10 0 4 3 = .ok [(0, 3), (3, 6), (6, 10)] := by decide
example : blocks (-2) 1 8 0 = .ok [(-2, -1), (-1, 0), (0, 1)] := by decide

end MLTK.Props
