import Mathlib.Data.List.Basic
import Mathlib.Tactic.Ring
import Verif.Spec.SyncStream
/-!
# C162: lines printed through a synced stream are never mixed
-/
namespace MLTK.Props
open MLTK.SyncS MLTK.Spec
variable {α : Type}

private theorem madeBy_append (t u : Nat) (c : Call α) (d : List (Nat × Call α)) :
    madeBy t (d ++ [(u, c)]) = madeBy t d ++ (if u = t then [c] else []) := by
  unfold madeBy
  rw [List.filter_append, List.map_append]
  by_cases h : u = t <;> simp [h]

private theorem args_eq (nl : α) (c : Call α) : c.args nl = lineText nl c := by cases c <;> rfl

/-- What holds in every reachable state when all calls are made on one object. -/
private structure Inv (nl : α) (o : Nat) (progs : List (List (Call α))) (s : St α) (done : List (Nat × Call α)) : Prop where
  len : s.threads.length = progs.length
  tags : ∀ c ∈ done, c.1 < progs.length
  outside : ∀ t p cs, progs[t]? = some p → s.threads[t]? = some ⟨cs, none⟩ → madeBy t done ++ cs = p
  within : ∀ t p cs q rest, progs[t]? = some p → s.threads[t]? = some ⟨cs, some (q, rest)⟩ →
    q = o ∧ s.owner o = some t ∧ ∃ c written, madeBy t done ++ c :: cs = p ∧ lineText nl c = written ++ rest ∧
      s.out = done.flatMap (fun c => lineText nl c.2) ++ written
  free : s.owner o = none → s.out = done.flatMap (fun c => lineText nl c.2)
  held : ∀ t, s.owner o = some t → ∃ cs q rest, s.threads[t]? = some ⟨cs, some (q, rest)⟩

private theorem inv_start (nl : α) (o : Nat) (progs : List (List (Call α))) : Inv nl o progs (start progs) [] where
  len := by simp [start]
  tags := by simp
  outside := by
    intro t p cs hp ht
    simp [start, hp] at ht
    simp [madeBy, ht]
  within := by
    intro t p cs q rest hp ht
    simp [start, hp] at ht
  free := fun _ => rfl
  held := fun t h => by simp [start] at h

private theorem inv_step (nl : α) (o : Nat) (progs : List (List (Call α))) (ho : ∀ p ∈ progs, ∀ c ∈ p, c.obj = o)
    (s s' : St α) (e : Event) (done : List (Nat × Call α)) (h : Inv nl o progs s done) (he : step nl s e = some s') :
    ∃ done', Inv nl o progs s' done' := by
  cases e with
  | lock t =>
    simp only [step] at he
    split at he
    · rename_i c cs ht
      split at he
      · rename_i hfree
        cases he
        have hlt : t < s.threads.length := by
          by_contra hc
          rw [List.getElem?_eq_none (by omega)] at ht; cases ht
        obtain ⟨p, hp⟩ : ∃ p, progs[t]? = some p := ⟨_, List.getElem?_eq_getElem (by rw [← h.len]; exact hlt)⟩
        have hsplit := h.outside t p _ hp ht
        have hco : c.obj = o := ho p (List.mem_of_getElem? hp) c (by rw [← hsplit]; simp)
        rw [hco] at hfree
        refine ⟨done, ?_, h.tags, ?_, ?_, ?_, ?_⟩
        · simpa using h.len
        · intro u q ds hq hu
          by_cases hut : t = u
          · subst hut
            rw [List.getElem?_set_self hlt] at hu; cases hu
          · rw [List.getElem?_set_ne hut] at hu
            exact h.outside u q ds hq hu
        · intro u q ds q' rest hq hu
          by_cases hut : t = u
          · subst hut
            rw [List.getElem?_set_self hlt] at hu
            cases hu
            rw [hp] at hq
            cases hq
            refine ⟨hco, by simp [hco], c, [], hsplit, by rw [args_eq]; rfl, ?_⟩
            rw [List.append_nil]; exact h.free hfree
          · rw [List.getElem?_set_ne hut] at hu
            have := (h.within u q ds q' rest hq hu).2.1
            rw [hfree] at this; cases this
        · intro hn
          simp [hco] at hn
        · intro u hu
          simp [hco] at hu
          subst hu
          exact ⟨_, _, _, List.getElem?_set_self hlt⟩
      · cases he
    · cases he
  | write t =>
    simp only [step] at he
    split at he
    · rename_i cs o' a as ht
      cases he
      have hlt : t < s.threads.length := by
        by_contra hc
        rw [List.getElem?_eq_none (by omega)] at ht; cases ht
      obtain ⟨p, hp⟩ : ∃ p, progs[t]? = some p := ⟨_, List.getElem?_eq_getElem (by rw [← h.len]; exact hlt)⟩
      obtain ⟨hqo, hown, c, wr, h1, h2, h3⟩ := h.within t p _ _ _ hp ht
      refine ⟨done, by simpa using h.len, h.tags, ?_, ?_, ?_, ?_⟩
      · intro u q ds hq hu
        by_cases hut : t = u
        · subst hut
          rw [List.getElem?_set_self hlt] at hu; cases hu
        · rw [List.getElem?_set_ne hut] at hu
          exact h.outside u q ds hq hu
      · intro u q ds q' rest hq hu
        by_cases hut : t = u
        · subst hut
          rw [List.getElem?_set_self hlt] at hu
          cases hu
          rw [hp] at hq
          cases hq
          exact ⟨hqo, hown, c, wr ++ [a], h1, by simp [h2], by simp [h3]⟩
        · rw [List.getElem?_set_ne hut] at hu
          have := (h.within u q ds q' rest hq hu).2.1
          rw [hown] at this; cases this; exact absurd rfl hut
      · intro hn
        rw [hown] at hn; cases hn
      · intro u hu
        rw [hown] at hu; cases hu
        exact ⟨_, _, _, List.getElem?_set_self hlt⟩
    · cases he
  | unlock t =>
    simp only [step] at he
    split at he
    · rename_i cs o' ht
      cases he
      have hlt : t < s.threads.length := by
        by_contra hc
        rw [List.getElem?_eq_none (by omega)] at ht; cases ht
      obtain ⟨p, hp⟩ : ∃ p, progs[t]? = some p := ⟨_, List.getElem?_eq_getElem (by rw [← h.len]; exact hlt)⟩
      obtain ⟨hqo, hown, c, wr, h1, h2, h3⟩ := h.within t p _ _ _ hp ht
      rw [List.append_nil] at h2
      refine ⟨done ++ [(t, c)], by simpa using h.len, ?_, ?_, ?_, ?_, ?_⟩
      · intro d hd
        rcases List.mem_append.1 hd with hd | hd
        · exact h.tags d hd
        · rw [List.mem_singleton.1 hd, ← h.len]; exact hlt
      · intro u q ds hq hu
        rw [madeBy_append]
        by_cases hut : t = u
        · subst hut
          rw [List.getElem?_set_self hlt] at hu
          cases hu
          rw [hp] at hq
          cases hq
          simpa using h1
        · rw [List.getElem?_set_ne hut] at hu
          rw [if_neg hut, List.append_nil]
          exact h.outside u q ds hq hu
      · intro u q ds q' rest hq hu
        by_cases hut : t = u
        · subst hut
          rw [List.getElem?_set_self hlt] at hu
          cases hu
        · rw [List.getElem?_set_ne hut] at hu
          have := (h.within u q ds q' rest hq hu).2.1
          rw [hown] at this; cases this; exact absurd rfl hut
      · intro _
        simp only
        rw [List.flatMap_append, h3, ← h2]; simp
      · intro u hu
        simp [hqo] at hu
    · cases he

private theorem inv_exec (nl : α) (o : Nat) (progs : List (List (Call α))) (ho : ∀ p ∈ progs, ∀ c ∈ p, c.obj = o) :
    ∀ (es : List Event) (s s' : St α) (done : List (Nat × Call α)), Inv nl o progs s done → exec nl s es = some s' →
      ∃ done', Inv nl o progs s' done'
  | [], s, s', done, h, he => by cases he; exact ⟨done, h⟩
  | e :: es, s, s', done, h, he => by
    simp only [exec] at he
    cases hs : step nl s e with
    | none => rw [hs] at he; cases he
    | some s1 =>
      rw [hs] at he
      obtain ⟨d1, h1⟩ := inv_step nl o progs ho s s1 e done h hs
      exact inv_exec nl o progs ho es s1 s' d1 h1 he

/-- **C162 (partial)** When all threads print through the same synced stream, then after any number of steps in any order the
output consists of the texts of whole calls, each thread's calls in the order it makes them, followed by at most the
beginning of the text of one call in progress; and when all threads have come to their end, of the texts of all calls. -/
theorem C162_whole_lines_partial (nl : α) (o : Nat) (progs : List (List (Call α)))
    (ho : ∀ p ∈ progs, ∀ c ∈ p, c.obj = o) (es : List Event) (s : St α) (he : exec nl (start progs) es = some s) :
    WholeCalls nl progs s.out ∧ (Finished s → AllCalls nl progs s.out) := by
  obtain ⟨done, h⟩ := inv_exec nl o progs ho es _ _ _ (inv_start nl o progs) he
  have hpre : ∀ t p, progs[t]? = some p → madeBy t done <+: p := by
    intro t p hp
    have hlt : t < s.threads.length := by
      rw [h.len]; by_contra hc
      rw [List.getElem?_eq_none (by omega)] at hp; cases hp
    have ht := List.getElem?_eq_getElem hlt
    generalize s.threads[t] = th at ht
    obtain ⟨cs, _ | ⟨q, rest⟩⟩ := th
    · exact ⟨cs, h.outside t p cs hp ht⟩
    · obtain ⟨-, -, c, -, h1, -⟩ := h.within t p cs q rest hp ht
      exact ⟨c :: cs, h1⟩
  refine ⟨⟨done, hpre, ?_⟩, fun hf => ⟨done, h.tags, fun t p hp => ?_, ?_⟩⟩
  · cases hown : s.owner o with
    | none => exact .inl (h.free hown)
    | some t =>
      obtain ⟨cs, q, rest, ht⟩ := h.held t hown
      have hlt : t < s.threads.length := by
        by_contra hc
        rw [List.getElem?_eq_none (by omega)] at ht; cases ht
      obtain ⟨p, hp⟩ : ∃ p, progs[t]? = some p := ⟨_, List.getElem?_eq_getElem (by rw [← h.len]; exact hlt)⟩
      obtain ⟨-, -, c, wr, h1, h2, h3⟩ := h.within t p cs q rest hp ht
      exact .inr ⟨t, p, c, wr, hp, ⟨cs, by simpa using h1⟩, ⟨rest, h2.symm⟩, h3⟩
  · have hlt : t < s.threads.length := by
      rw [h.len]; by_contra hc
      rw [List.getElem?_eq_none (by omega)] at hp; cases hp
    have ht := List.getElem?_eq_getElem hlt
    obtain ⟨h1, h2⟩ := hf _ (List.getElem_mem hlt)
    generalize s.threads[t] = th at ht h1 h2
    obtain ⟨cs, r⟩ := th
    simp only at h1 h2
    subst h1 h2
    simpa using h.outside t p [] hp ht
  · cases hown : s.owner o with
    | none => exact h.free hown
    | some t =>
      obtain ⟨cs, q, rest, ht⟩ := h.held t hown
      have := (hf _ (List.mem_of_getElem? ht)).2
      cases this

/-- **C162 (progress, partial)** With one synced stream the threads never block each other for ever: as long as one of them
has not come to its end some step is possible, and every sequence of steps is finite. -/
theorem C162_progress_partial (nl : α) (o : Nat) (progs : List (List (Call α)))
    (ho : ∀ p ∈ progs, ∀ c ∈ p, c.obj = o) (es : List Event) (s : St α) (he : exec nl (start progs) es = some s) :
    es.length ≤ stepsOf nl progs ∧ (¬ Finished s → ∃ e s', step nl s e = some s') := by
  constructor
  · let left : Thread α → Nat := fun th => (th.todo.map (fun c => (lineText nl c).length + 2)).sum +
      (match th.inside with | none => 0 | some (_, r) => r.length + 1)
    have hset : ∀ (l : List (Thread α)) (t : Nat) (th th' : Thread α), l[t]? = some th → left th = left th' + 1 →
        (l.map left).sum = ((l.set t th').map left).sum + 1 := by
      intro l
      induction l with
      | nil => intro t th th' h; simp at h
      | cons a l ih =>
        intro t th th' h hl
        cases t with
        | zero =>
          simp at h; subst h
          simp [hl]; omega
        | succ t =>
          simp at h
          have := ih t th th' h hl
          simp only [List.set_cons_succ, List.map_cons, List.sum_cons]; omega
    have hstep : ∀ (s s' : St α) (e : Event), step nl s e = some s' →
        (s.threads.map left).sum = (s'.threads.map left).sum + 1 := by
      intro s s' e h
      cases e with
      | lock t =>
        simp only [step] at h
        split at h
        · rename_i c cs ht
          split at h
          · cases h
            refine hset _ t _ _ ht ?_
            simp [left, args_eq]; omega
          · cases h
        · cases h
      | write t =>
        simp only [step] at h
        split at h
        · rename_i cs o' a as ht
          cases h
          refine hset _ t _ _ ht ?_
          simp [left]; omega
        · cases h
      | unlock t =>
        simp only [step] at h
        split at h
        · rename_i cs o' ht
          cases h
          refine hset _ t _ _ ht ?_
          simp [left]
        · cases h
    have hexec : ∀ (es : List Event) (s s' : St α), exec nl s es = some s' →
        es.length + (s'.threads.map left).sum = (s.threads.map left).sum := by
      intro es
      induction es with
      | nil => intro s s' h; cases h; simp
      | cons e es ih =>
        intro s s' h
        simp only [exec] at h
        cases hs : step nl s e with
        | none => rw [hs] at h; cases h
        | some s1 =>
          rw [hs] at h
          have h1 := hstep s s1 e hs
          have h2 := ih s1 s' h
          simp; omega
    have h0 : ((start progs).threads.map left).sum = stepsOf nl progs := by
      simp [start, stepsOf, left, Function.comp_def]
    have := hexec es _ _ he
    omega
  · intro hnf
    obtain ⟨done, h⟩ := inv_exec nl o progs ho es _ _ _ (inv_start nl o progs) he
    cases hown : s.owner o with
    | some t =>
      obtain ⟨cs, q, rest, ht⟩ := h.held t hown
      cases rest with
      | nil => exact ⟨.unlock t, _, by simp only [step, ht]; rfl⟩
      | cons a as => exact ⟨.write t, _, by simp only [step, ht]; rfl⟩
    | none =>
      unfold Finished at hnf
      push Not at hnf
      obtain ⟨th, hth, hne⟩ := hnf
      obtain ⟨t, hlt, ht⟩ := List.mem_iff_getElem.1 hth
      have ht' : s.threads[t]? = some th := by rw [List.getElem?_eq_getElem hlt, ht]
      obtain ⟨p, hp⟩ : ∃ p, progs[t]? = some p := ⟨_, List.getElem?_eq_getElem (by rw [← h.len]; exact hlt)⟩
      obtain ⟨cs, _ | ⟨q, rest⟩⟩ := th
      · cases cs with
        | nil => exact absurd rfl (hne rfl)
        | cons c cs =>
          have hsplit := h.outside t p _ hp ht'
          have hco : c.obj = o := ho p (List.mem_of_getElem? hp) c (by rw [← hsplit]; simp)
          exact ⟨.lock t, _, by simp only [step, ht', hco, hown, if_true]; rfl⟩
      · have := (h.within t p cs q rest hp ht').2.1
        rw [hown] at this; cases this

/-- Two threads that print one line each. -/
example : ∃ s, exec 'N' (start [[.println 0 ['a', 'b']], [.println 0 ['c']]])
      [.lock 1, .write 1, .write 1, .unlock 1, .lock 0, .write 0] = some s ∧ s.out = ['c', 'N', 'a'] :=
  ⟨_, rfl, rfl⟩

/-- **C162 refuted** for two synced streams on the same output (the default of both is the standard output): a line printed
through one lands inside a line printed through the other. -/
theorem C162_two_streams_refuted :
    ∃ es s, exec 'N' (start [[.println 0 ['a', 'b']], [.println 1 ['c']]]) es = some s ∧ Finished s ∧
      s.out = ['a', 'c', 'N', 'b', 'N'] ∧ ¬ AllCalls 'N' [[.println 0 ['a', 'b']], [.println 1 ['c']]] s.out := by
  refine ⟨[.lock 0, .write 0, .lock 1, .write 1, .write 1, .write 0, .write 0, .unlock 0, .unlock 1], _, rfl, ?_, rfl, ?_⟩
  · intro th hth
    rcases List.mem_cons.1 hth with h | h
    · subst h; exact ⟨rfl, rfl⟩
    · rcases List.mem_cons.1 h with h | h
      · subst h; exact ⟨rfl, rfl⟩
      · cases h
  · rintro ⟨done, htag, h, ho⟩
    have h0 := h 0 _ rfl
    have h1 := h 1 _ rfl
    have : ∀ d ∈ done, d.2 = .println 0 ['a', 'b'] ∨ d.2 = .println 1 ['c'] := by
      intro d hd
      have hlt := htag d hd
      simp at hlt
      have : d.1 = 0 ∨ d.1 = 1 := by omega
      rcases this with e | e
      · left
        have : d.2 ∈ madeBy 0 done := List.mem_map.2 ⟨d, List.mem_filter.2 ⟨hd, by simp [e]⟩, rfl⟩
        rw [h0] at this; simpa using this
      · right
        have : d.2 ∈ madeBy 1 done := List.mem_map.2 ⟨d, List.mem_filter.2 ⟨hd, by simp [e]⟩, rfl⟩
        rw [h1] at this; simpa using this
    cases done with
    | nil => simp [madeBy] at h0
    | cons d ds =>
      rcases this d (by simp) with e | e <;> simp [e, lineText, start] at ho
end MLTK.Props
