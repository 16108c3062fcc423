import Verif.Model.PoolCounts
import Verif.Spec.PoolCounts
import Verif.Lemmas.ThreadPool
import Verif.Props.ThreadPool
/-!
# C181: the progress numbers of a thread pool
-/
namespace MLTK.Props
open MLTK.Pool MLTK.Spec

private theorem atWork_busy (s : Pool) : atWork s = busy s.workers := rfl

private theorem atWork_split (s : Pool) : atWork s = (executing s).length + reporting s := by
  unfold atWork executing reporting
  generalize s.workers = l
  induction l with
  | nil => rfl
  | cons w l ih => cases w <;> simp_all <;> omega

private theorem atWork_le (s : Pool) : atWork s ≤ s.workers.length := List.countP_le_length

private theorem counts {n : Nat} {es : List Event} {s : Pool} (h : exec (fresh n) es = some s) :
    (submitted es).length = (enqueued es).length + s.submitting.length ∧
    (enqueued es).length = (started es).length + s.queue.length ∧
    (started es).length = (finished es).length + (executing s).length ∧
    s.total = s.submitting.length + s.queue.length + (executing s).length + reporting s := by
  have i := inv_exec h
  have h1 := i.subm.length_eq
  have h2 := congrArg List.length i.fifo
  have h3 := i.fin.length_eq
  have h4 := i.tot
  have h5 := atWork_split s
  rw [atWork_busy] at h5
  simp only [List.length_append] at h1 h2 h3
  omega

private theorem reported_snoc (es : List Event) (e : Event) :
    reported (es ++ [e]) = reported es + (match e with | .dec _ => 1 | _ => 0) := by
  cases e <;> simp [reported, List.countP_append]

private theorem total_step {s s' : Pool} {e : Event} (hs : step s e = some s') :
    (∃ t, e = .push t ∧ s'.total = s.total + 1) ∨
    (∃ i, e = .dec i ∧ s.workers[i]? = some .done ∧ s'.total = s.total - 1) ∨
    ((∀ t, e ≠ .push t) ∧ (∀ i, e ≠ .dec i) ∧ s'.total = s.total) := by
  cases e with
  | push t => simp only [step, Option.some.injEq] at hs; subst hs; exact .inl ⟨t, rfl, rfl⟩
  | dec i =>
    simp only [step] at hs
    split at hs
    · rename_i hd
      simp only [Option.some.injEq] at hs; subst hs; exact .inr (.inl ⟨i, rfl, hd, rfl⟩)
    · simp at hs
  | _ =>
    refine .inr (.inr ⟨nofun, nofun, ?_⟩)
    simp only [step, Pool.setW] at hs
    repeat' split at hs
    all_goals first
      | (simp only [Option.some.injEq] at hs; subst hs; rfl)
      | simp at hs

private theorem total_reported {n : Nat} {es : List Event} {s : Pool}
    (h : exec (fresh n) es = some s) : (submitted es).length = s.total + reported es := by
  induction es using List.reverseRecOn generalizing s with
  | nil => simp only [exec, Option.some.injEq] at h; subst h; rfl
  | append_singleton es e ih =>
    obtain ⟨s0, h0, hs⟩ := exec_snoc h
    have hi := ih h0
    rw [submitted_snoc, reported_snoc, List.length_append]
    rcases total_step hs with ⟨t, rfl, ht⟩ | ⟨i, rfl, hd, ht⟩ | ⟨hp, hd, ht⟩
    · simp only [List.length_singleton]; omega
    · have hpos : 0 < atWork s0 := by
        refine List.countP_pos_iff.mpr ⟨.done, List.mem_of_getElem? hd, rfl⟩
      have := (inv_exec h0).tot
      rw [← atWork_busy] at this
      simp only [List.length_nil]; omega
    · cases e <;> first
        | exact absurd rfl (hp _)
        | exact absurd rfl (hd _)
        | (simp only [List.length_nil]; omega)

/-- C181: at every point of every execution, `get_tasks_total` is the number of tasks given to the
pool whose end has not been reported by their worker; a worker reports a task after the task has
returned, and at most one task per thread is returned and unreported. -/
theorem C181_total (n : Nat) (es : List Event) (s : Pool) (h : exec (fresh n) es = some s) :
    (submitted es).length = getTotal s + reported es ∧
    (finished es).length = reported es + reporting s ∧ reporting s ≤ s.workers.length := by
  have c := counts h
  have t := total_reported h
  exact ⟨t, by omega, List.countP_le_length⟩

/-- C181: at every point of every execution, `get_tasks_queued` is the number of tasks whose
`push_task` has put them in the queue and which no worker has started. -/
theorem C181_queued (n : Nat) (es : List Event) (s : Pool) (h : exec (fresh n) es = some s) :
    (enqueued es).length = (started es).length + getQueued s := (counts h).2.1

private theorem wordSub_le {a b : Nat} (ha : a < wordSize) (hb : b ≤ a) : wordSub a b = a - b := by
  unfold wordSub
  have hb' : b < wordSize := by omega
  rw [Nat.mod_eq_of_lt ha, Nat.mod_eq_of_lt hb', show wordSize + a - b = wordSize + (a - b) by omega,
    Nat.add_mod_left, Nat.mod_eq_of_lt (by omega)]

private theorem wordSub_gt {a b : Nat} (hb : b < wordSize) (h : a < b) :
    wordSub a b = wordSize - (b - a) := by
  unfold wordSub
  rw [Nat.mod_eq_of_lt (show a < wordSize by omega), Nat.mod_eq_of_lt hb,
    Nat.mod_eq_of_lt (by omega)]
  omega

/-- C181, exact case: if nothing happens in the pool between the two reads, no `push_task` is half
way, and there are fewer than 2^64 tasks, `get_tasks_running` is the number of tasks being executed
plus those whose end is being reported, at most one per thread.

Missing for the full claim: calls that overlap with submissions or with the work of the threads
(see the `_refuted` theorems; `C181_between_partial` gives the value for the latter). -/
theorem C181_running_partial (n : Nat) (es : List Event) (s : Pool)
    (h : exec (fresh n) es = some s) (hsub : (submitted es).length = (enqueued es).length)
    (hlt : (submitted es).length < 2 ^ 64) :
    getRunning s s = (executing s).length + reporting s ∧
    getRunning s s ≤ s.workers.length := by
  have c := counts h
  have t := total_reported h
  have e : getRunning s s = (executing s).length + reporting s := by
    unfold getRunning getTotal getQueued
    rw [wordSub_le (by unfold wordSize; omega) (by omega)]
    omega
  refine ⟨e, ?_⟩
  rw [e, ← atWork_split]
  exact atWork_le s

example : ∃ es s, exec (fresh 2) es = some s ∧ (submitted es).length = (enqueued es).length ∧
    (submitted es).length < 2 ^ 64 ∧ executing s = [5] ∧ getQueued s = 1 ∧ getRunning s s = 1 :=
  ⟨[.push 5, .enqueue 5, .push 6, .enqueue 6, .check 0, .look 0, .start 0 5], _, rfl, rfl,
    by decide, rfl, rfl, by decide⟩

/-- C181, calls that overlap with the threads but with no submission: if `tasks_total` is read first,
the answer is the number of tasks in hand at the first read plus the tasks started before the second
read; if the queue is read first, it is the number of tasks in hand at the first read less the tasks
reported before the second read, counted modulo 2^64.

Missing for the full claim: submissions between the reads. -/
theorem C181_between_partial (n : Nat) (pre mid : List Event) (s₁ s₂ : Pool)
    (h₁ : exec (fresh n) pre = some s₁) (h₂ : exec s₁ mid = some s₂)
    (hsub : (submitted pre).length = (enqueued pre).length) (hmid : submitted mid = [])
    (hlt : (submitted pre).length < 2 ^ 64) :
    getRunning s₁ s₂ = (executing s₁).length + reporting s₁ + (started mid).length ∧
    (reported mid ≤ (executing s₁).length + reporting s₁ →
      getRunning s₂ s₁ = (executing s₁).length + reporting s₁ - reported mid) ∧
    ((executing s₁).length + reporting s₁ < reported mid →
      getRunning s₂ s₁ = 2 ^ 64 - (reported mid - ((executing s₁).length + reporting s₁))) := by
  have h12 : exec (fresh n) (pre ++ mid) = some s₂ := by
    rw [exec_append, h₁]; exact h₂
  have c1 := counts h₁
  have c2 := counts h12
  have t1 := total_reported h₁
  have t2 := total_reported h12
  have a1 : (submitted (pre ++ mid)).length = (submitted pre).length := by
    unfold submitted at hmid ⊢
    rw [List.filterMap_append, hmid, List.append_nil]
  have a2 : (enqueued (pre ++ mid)).length = (enqueued pre).length + (enqueued mid).length := by
    unfold enqueued; rw [List.filterMap_append, List.length_append]
  have a3 : (started (pre ++ mid)).length = (started pre).length + (started mid).length := by
    unfold started; rw [List.filterMap_append, List.length_append]
  have a4 : reported (pre ++ mid) = reported pre + reported mid := by
    unfold reported; rw [List.countP_append]
  refine ⟨?_, fun hr => ?_, fun hr => ?_⟩
  · unfold getRunning getTotal getQueued
    rw [wordSub_le (by unfold wordSize; omega) (by omega)]
    omega
  · unfold getRunning getTotal getQueued
    rw [wordSub_le (by unfold wordSize; omega) (by omega)]
    omega
  · unfold getRunning getTotal getQueued
    rw [wordSub_gt (by unfold wordSize; omega) (by omega)]
    unfold wordSize
    omega

/-- C181 is false of the code: the answer can exceed the number of threads with nothing running,
because a `push_task` that has counted its task but not queued it looks like a running task. -/
theorem C181_submitting_refuted :
    ∃ (es : List Event) (s : Pool), exec (fresh 1) es = some s ∧ executing s = [] ∧
      reporting s = 0 ∧ s.workers.length = 1 ∧ getRunning s s = 2 :=
  ⟨[.push 1, .push 2], _, rfl, rfl, rfl, rfl, by decide⟩

/-- C181 is false of the code: with a task submitted between the two reads, the answer on an idle
pool is 2^64 − 1. -/
theorem C181_pushed_refuted :
    ∃ (mid : List Event) (s₂ : Pool), exec (fresh 1) mid = some s₂ ∧ started mid = [] ∧
      getRunning (fresh 1) s₂ = 2 ^ 64 - 1 :=
  ⟨[.push 1, .enqueue 1], _, rfl, rfl, by decide⟩

/-- C181 is false of the code even without submissions: if the queue is read first and its only task
is carried out before `tasks_total` is read, the answer is 2^64 − 1. -/
theorem C181_wrap_refuted :
    ∃ (pre mid : List Event) (s₁ s₂ : Pool), exec (fresh 1) pre = some s₁ ∧
      exec s₁ mid = some s₂ ∧ submitted mid = [] ∧ s₁.submitting = [] ∧ executing s₁ = [] ∧
      executing s₂ = [] ∧ getRunning s₂ s₁ = 2 ^ 64 - 1 :=
  ⟨[.push 1, .enqueue 1], [.check 0, .look 0, .start 0 1, .finish 0 1, .dec 0], _, _, rfl, rfl, rfl,
    rfl, rfl, rfl, by decide⟩

/-- C181 is false of the code even without submissions: if `tasks_total` is read first, the answer can
exceed the number of threads. -/
theorem C181_threads_refuted :
    ∃ (pre mid : List Event) (s₁ s₂ : Pool), exec (fresh 1) pre = some s₁ ∧
      exec s₁ mid = some s₂ ∧ submitted mid = [] ∧ s₁.submitting = [] ∧ s₁.workers.length = 1 ∧
      getRunning s₁ s₂ = 2 :=
  ⟨[.push 1, .enqueue 1, .push 2, .enqueue 2],
    [.check 0, .look 0, .start 0 1, .finish 0 1, .dec 0, .check 0, .look 0, .start 0 2], _, _, rfl,
    rfl, rfl, rfl, rfl, by decide⟩

end MLTK.Props
