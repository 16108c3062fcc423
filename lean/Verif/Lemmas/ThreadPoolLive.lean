import Verif.Lemmas.ThreadPool
/-!
# Progress of the thread pool under a fair schedule
-/
namespace MLTK.Pool
open MLTK.Spec

theorem pc_step {s s' : Pool} {e : Event} (i : Nat) (hr : s.running = true)
    (hs : step s e = some s') (he : ofWorker i e = false) : s'.workers[i]? = s.workers[i]? := by
  have key : ∀ (t : Pool) (j : Nat) (w : WState), i ≠ j → (t.setW j w).workers[i]? = t.workers[i]? := by
    intro t j w h
    simp only [Pool.setW]
    rw [List.getElem?_set_ne (Ne.symm h)]
  cases e <;> simp only [step, ofWorker] at hs he <;>
    (try split at hs) <;> (try split at hs) <;>
    first
    | simp only [Option.some.injEq] at hs; subst hs; first | rfl | exact key _ _ _ (by simpa using he)
    | (simp at hs; done)
    | (rename_i h; rw [hr] at h; simp at h; done)
    | skip

/-- What a worker step of an unpaused, running pool does to the queue and to its program counter. -/
theorem queue_step {s s' : Pool} {e : Event} (hs : step s e = some s')
    (hn : ∀ i t, e ≠ .start i t) : ∃ x, s'.queue = s.queue ++ x := by
  cases e <;> simp only [step] at hs <;>
    (try split at hs) <;> (try split at hs) <;>
    first
    | (exact absurd rfl (hn _ _))
    | (simp only [Option.some.injEq] at hs; subst hs; exact ⟨[], (List.append_nil _).symm⟩)
    | (simp only [Option.some.injEq] at hs; subst hs; exact ⟨_, rfl⟩)
    | (simp at hs; done)

theorem start_step {s s' : Pool} {i : Nat} {t : Task} (hs : step s (.start i t) = some s') :
    s.queue = t :: s'.queue ∧ s'.workers[i]? = some (.exec t) := by
  simp only [step] at hs
  split at hs
  · rename_i h
    simp only [Option.some.injEq] at hs
    subst hs
    constructor
    · simp only [Pool.setW]
      cases hq : s.queue with
      | nil => rw [hq] at h; simp at h
      | cons x q => rw [hq] at h; simp at h; simp [h.2]
    · simp only [Pool.setW]
      have := h.1
      rw [List.getElem?_set]
      obtain ⟨hlt, -⟩ := List.getElem?_eq_some_iff.mp this
      simp [hlt]
  · simp at hs

/-- Distance of a program counter from the next pop. -/
def rank : WState → Nat
  | .exec _ => 5 | .done => 4 | .top => 3 | .entered => 2 | .ready => 1 | .exited => 0

theorem setW_self {s : Pool} {i : Nat} {w w' : WState} (h : s.workers[i]? = some w) :
    (s.setW i w').workers[i]? = some w' := by
  obtain ⟨hlt, -⟩ := List.getElem?_eq_some_iff.mp h
  simp [Pool.setW, hlt]

/-- A step of worker `i` that is not a pop brings it nearer to the pop when the queue is not empty. -/
theorem rank_step {s s' : Pool} {e : Event} {i : Nat} {w : WState} (hw : s.workers[i]? = some w)
    (hs : step s e = some s') (he : ofWorker i e = true) (hr : s.running = true)
    (hp : s.paused = false) (hq : s.queue ≠ []) (hn : ∀ t, e ≠ .start i t) :
    ∃ w', s'.workers[i]? = some w' ∧ rank w' < rank w ∧ 0 < rank w' := by
  cases e <;> simp only [step, ofWorker, decide_eq_true_eq, Bool.false_eq_true] at hs he <;> subst he <;>
    split at hs <;> simp only [Option.some.injEq, reduceCtorEq] at hs <;> subst hs <;> rename_i h
  · rw [hw] at h; cases h
    refine ⟨_, setW_self hw, ?_⟩; simp [hr, rank]
  · rw [hw] at h; cases h
    refine ⟨_, setW_self hw, ?_⟩; simp [hp, rank]
  · exact absurd rfl (hn _)
  · exact absurd h.2 hq
  · rw [hw] at h; cases h
    exact ⟨_, setW_self hw, by simp [rank]⟩
  · rw [hw] at h; cases h
    refine ⟨_, setW_self (s := { s with total := s.total - 1 }) hw, by simp [rank]⟩

theorem finish_step {s s' : Pool} {e : Event} {i : Nat} {t : Task}
    (hw : s.workers[i]? = some (.exec t)) (hs : step s e = some s') (he : ofWorker i e = true) :
    e = .finish i t := by
  cases e <;> simp only [step, ofWorker, decide_eq_true_eq, Bool.false_eq_true] at hs he <;> subst he <;>
    split at hs <;> simp only [Option.some.injEq, reduceCtorEq] at hs <;> rename_i h <;>
    simp_all

section
variable (σ : Nat → Pool) (ev : Nat → Event) (N : Nat)
variable (hstep : ∀ k, step (σ k) (ev k) = some (σ (k+1)))
variable (hopen : ∀ k, N ≤ k → (σ k).paused = false ∧ (σ k).running = true)
variable (hfair : ∀ i, i < (σ N).workers.length → ∀ k, ∃ m, k ≤ m ∧ ofWorker i (ev m) = true)
include hstep hopen

theorem pc_const (i k m : Nat) (hk : N ≤ k) (hkm : k ≤ m)
    (hno : ∀ j, k ≤ j → j < m → ofWorker i (ev j) = false) :
    (σ m).workers[i]? = (σ k).workers[i]? := by
  induction m, hkm using Nat.le_induction with
  | base => rfl
  | succ m hm ih =>
    rw [pc_step i (hopen m (by omega)).2 (hstep m) (hno m hm (by omega))]
    exact ih (fun j h1 h2 => hno j h1 (by omega))

theorem len_const (m : Nat) (hm : N ≤ m) (i : Nat) (hi : i < (σ N).workers.length) :
    i < (σ m).workers.length := by
  induction m, hm using Nat.le_induction with
  | base => exact hi
  | succ m hm ih =>
    have hs := hstep m
    have hr := (hopen m hm).2
    revert hs ih
    generalize σ m = s at hr ⊢
    generalize σ (m+1) = s'
    generalize ev m = e
    intro ih hs
    cases e <;> simp only [step] at hs <;>
      (try split at hs) <;> (try split at hs) <;>
      first
      | (simp only [Option.some.injEq] at hs; subst hs; simpa [Pool.setW] using ih)
      | (simp at hs; done)
      | (rename_i h; rw [hr] at h; simp at h; done)

omit hstep hopen in
/-- The first event of a given kind at or after `k`. -/
theorem first_event (p : Event → Bool) (k : Nat) (h : ∃ m, k ≤ m ∧ p (ev m) = true) :
    ∃ m, k ≤ m ∧ p (ev m) = true ∧ ∀ j, k ≤ j → j < m → p (ev j) = false := by
  classical
  have h' : ∃ m, k ≤ m ∧ p (ev m) = true := h
  refine ⟨Nat.find h', (Nat.find_spec h').1, (Nat.find_spec h').2, ?_⟩
  intro j h1 h2
  have := Nat.find_min h' h2
  simp only [not_and, Bool.not_eq_true] at this
  exact this h1

theorem queue_grow (k m : Nat) (hkm : k ≤ m)
    (hno : ∀ j, k ≤ j → j < m → ∀ i t, ev j ≠ .start i t) :
    ∃ x, (σ m).queue = (σ k).queue ++ x := by
  induction m, hkm using Nat.le_induction with
  | base => exact ⟨[], by simp⟩
  | succ m hm ih =>
    obtain ⟨x, hx⟩ := ih (fun j h1 h2 => hno j h1 (by omega))
    obtain ⟨y, hy⟩ := queue_step (hstep m) (hno m hm (by omega))
    exact ⟨x ++ y, by rw [hy, hx, List.append_assoc]⟩

include hfair

theorem some_start (h0 : 0 < (σ N).workers.length) (r : Nat) : ∀ (k : Nat), N ≤ k →
    (σ k).queue ≠ [] → ∀ w, (σ k).workers[0]? = some w → rank w ≤ r → 0 < rank w →
    ∃ m, k ≤ m ∧ ∃ i t, ev m = .start i t := by
  induction r with
  | zero => intro k _ _ w _ h1 h2; omega
  | succ r ih =>
    intro k hk hq w hw h1 h2
    by_contra hcon
    push Not at hcon
    obtain ⟨m, hm, hm1, hm2⟩ := first_event ev (ofWorker 0) k (hfair 0 h0 k)
    have hpc := pc_const σ ev N hstep hopen 0 k m hk hm hm2
    obtain ⟨x, hx⟩ := queue_grow σ ev N hstep hopen k m hm (fun j h _ => hcon j h)
    have hqm : (σ m).queue ≠ [] := by rw [hx]; simp [hq]
    rw [hw] at hpc
    obtain ⟨hp, hr⟩ := hopen m (by omega)
    obtain ⟨w', e1, e2, e3⟩ := rank_step hpc (hstep m) hm1 hr hp hqm (fun t => hcon m hm 0 t)
    obtain ⟨y, hy⟩ := queue_step (hstep m) (hcon m hm)
    obtain ⟨m', hm', i, t, h⟩ := ih (m+1) (by omega) (by rw [hy]; simp [hqm]) w' e1 (by omega) e3
    exact hcon m' (by omega) i t h

end
end MLTK.Pool
