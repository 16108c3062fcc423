import Verif.Lemmas.GnuplotFiles
/-!
# The files of gnuplot sessions and the way to the program (C178-C180)
-/
namespace MLTK.Props
open MLTK.Gp MLTK.Spec
open MLTK.Data (Res_bind_ok Res_bind_error Res_pure)
variable {K : Type}

/-! ### Temporary files -/

/-- C178.  In a program in which a session that has removed its temporary files makes and removes no more, the disk always holds
what it held at the beginning and some temporary files; the shared counter is their number, they have different names, none the
name of a file that was there, and they are at most 63.  Missing from C178: sessions that draw again after a removal, or remove
twice (see the refutations). -/
theorem C178_count_partial (str : K → Txt) (term : Txt) (disk : List (File K)) (p : List (Op K)) (h : RemovesOnce p) :
    ∃ tmp : List (File K), (run str term (start disk) p).env.files = disk ++ tmp ∧
      (run str term (start disk) p).env.num = tmp.length ∧ tmp.length ≤ 63 ∧ (tmp.map (·.name)).Nodup ∧
      ∀ f ∈ tmp, ∀ g ∈ disk, f.name ≠ g.name := by
  obtain ⟨T, hT⟩ := kept_run str term p (kept_start disk) (idle_start p) h
  refine ⟨T, hT.files, hT.num.symm, ?_, hT.nodup, ?_⟩
  · have h1 := hT.num
    have h2 := hT.le
    omega
  · intro f hf g hg e
    exact hT.apart f hf (e ▸ List.mem_map.2 ⟨g, hg, rfl⟩)

private theorem willRemove_tail {i : Nat} {o : Op K} {p : List (Op K)} (h : WillRemove i (o :: p))
    (ho : o ≠ Op.on i Call.removeTmp) : WillRemove i p := by
  obtain ⟨q1, q2, e, hd⟩ := h
  cases q1 with
  | nil => exact absurd (List.cons.inj e).1 ho
  | cons a q1 => exact ⟨q1, q2, (List.cons.inj e).2, fun h => hd (List.mem_cons_of_mem _ h)⟩

private theorem willRemove_destroy {i : Nat} {p : List (Op K)} (h : WillRemove i (Op.destroy i :: p)) : False := by
  obtain ⟨q1, q2, e, hd⟩ := h
  cases q1 with
  | nil => cases (List.cons.inj e).1
  | cons a q1 => exact hd (by rw [← (List.cons.inj e).1]; simp)

/-- Every temporary file is in the list of a session that is alive and will remove its files. -/
private def Covered (disk : List (File K)) (p : List (Op K)) (w : World K) : Prop :=
  ∀ f ∈ w.env.files, f ∈ disk ∨ ∃ (i : Nat) (s : Session), w.sessions[i]? = some (some s) ∧ f.name ∈ s.tmpfiles ∧ WillRemove i p

private theorem set_same {l : List (Option Session)} {i j : Nat} {x y : Session} {n : Txt} (h : l[j]? = some (some x))
    (hy : l[i]? = some (some y)) {z : Session} (hz : ∀ m ∈ y.tmpfiles, m ∈ z.tmpfiles) (hn : n ∈ x.tmpfiles) :
    ∃ x', (l.set i (some z))[j]? = some (some x') ∧ n ∈ x'.tmpfiles := by
  by_cases hij : i = j
  · subst hij
    rw [h] at hy
    cases hy
    have hlt : i < l.length := (List.getElem?_eq_some_iff.1 h).1
    exact ⟨z, by rw [List.getElem?_set_self hlt], hz n hn⟩
  · exact ⟨x, by rw [List.getElem?_set_ne hij, h], hn⟩

private theorem covered_step (str : K → Txt) (term : Txt) {disk : List (File K)} {o : Op K} {p : List (Op K)} {w : World K}
    (hc : Covered disk (o :: p) w) (ht : ∀ i mk v t, o = Op.on i (Call.vectors mk v t) → WillRemove i p) :
    Covered disk p (step str term w o) := by
  cases o with
  | new style =>
    intro f hf
    rcases hc f hf with h | ⟨i, s, h1, h2, h3⟩
    · exact .inl h
    · refine .inr ⟨i, s, ?_, h2, willRemove_tail h3 nofun⟩
      show (w.sessions ++ [_])[i]? = _
      rw [List.getElem?_append_left (List.getElem?_eq_some_iff.1 h1).1, h1]
  | destroy k =>
    intro f hf
    rcases hc f hf with h | ⟨i, s, h1, h2, h3⟩
    · exact .inl h
    · by_cases hki : k = i
      · subst hki
        exact (willRemove_destroy h3).elim
      · refine .inr ⟨i, s, ?_, h2, willRemove_tail h3 nofun⟩
        show (w.sessions.set k none)[i]? = _
        rw [List.getElem?_set_ne hki, h1]
  | on k c =>
    rcases step_on str term w k c with h | ⟨s0, e, s1, hs0, hcl, h⟩
    · rw [h]
      intro f hf
      rcases hc f hf with h | ⟨i, s, h1, h2, h3⟩
      · exact .inl h
      · refine .inr ⟨i, s, h1, h2, ?_⟩
        by_cases ho : Op.on k c = Op.on i Call.removeTmp
        · exfalso
          cases ho
          have : step str term w (.on k .removeTmp) = ⟨removeTmp w.env s, w.sessions.set k (some s)⟩ := by
            simp only [step, h1, call]
          rw [this] at h
          have hw : w.env = removeTmp w.env s := congrArg World.env h.symm
          rw [hw, removeTmp_eq, List.mem_filter] at hf
          exact absurd h2 (by simpa using hf.2)
        · exact willRemove_tail h3 ho
    · rw [h]
      rcases call_effect hcl with ⟨rfl, hs, hr, -⟩ | ⟨name, v, t, rfl, -, -, -, rfl, hs⟩ | ⟨rfl, rfl, rfl⟩
      · intro f hf
        rcases hc f hf with h | ⟨i, s, h1, h2, h3⟩
        · exact .inl h
        · obtain ⟨x, hx, hn⟩ := set_same h1 hs0 (z := s1) (fun m hm => hs ▸ hm) h2
          exact .inr ⟨i, x, hx, hn, willRemove_tail h3 (fun ho => by cases ho; exact hr rfl)⟩
      · intro f hf
        rw [List.mem_append, List.mem_singleton] at hf
        rcases hf with hf | rfl
        · rcases hc f hf with h | ⟨i, s, h1, h2, h3⟩
          · exact .inl h
          · obtain ⟨x, hx, hn⟩ := set_same h1 hs0 (z := s1) (fun m hm => hs ▸ List.mem_append_left _ hm) h2
            exact .inr ⟨i, x, hx, hn, willRemove_tail h3 nofun⟩
        · refine .inr ⟨k, s1, ?_, by rw [hs]; simp, ht k _ _ _ rfl⟩
          show (w.sessions.set k (some s1))[k]? = _
          rw [List.getElem?_set_self (List.getElem?_eq_some_iff.1 hs0).1]
      · intro f hf
        rw [removeTmp_eq] at hf
        obtain ⟨hf, hf2⟩ := List.mem_filter.1 hf
        rcases hc f hf with h | ⟨i, s, h1, h2, h3⟩
        · exact .inl h
        · have hki : k ≠ i := by
            rintro rfl
            rw [h1] at hs0
            cases hs0
            exact absurd h2 (by simpa using hf2)
          refine .inr ⟨i, s, ?_, h2, willRemove_tail h3 (fun ho => by cases ho; exact hki rfl)⟩
          show (w.sessions.set k (some s1))[i]? = _
          rw [List.getElem?_set_ne hki, h1]

private theorem covered_run (str : K → Txt) (term : Txt) {disk : List (File K)} : ∀ (p : List (Op K)) {w : World K},
    Covered disk p w → Tidy p → Covered disk [] (run str term w p)
  | [], _, h, _ => h
  | _ :: p, _, h, ht => covered_run str term p (covered_step str term h ht.1) ht.2

/-- C178 (cleaning up).  If moreover every session that has drawn from vectors removes its files before it is destroyed, at the end
the disk is what it was and the counter is zero. -/
theorem C178_cleaned_partial (str : K → Txt) (term : Txt) (disk : List (File K)) (p : List (Op K)) (h : RemovesOnce p)
    (ht : Tidy p) : (run str term (start disk) p).env.files = disk ∧ (run str term (start disk) p).env.num = 0 := by
  obtain ⟨T, h1, h2, -, -, h5⟩ := C178_count_partial str term disk p h
  have hc := covered_run str term p (w := start disk) (disk := disk) (fun f hf => .inl hf) ht
  have : T = [] := by
    cases T with
    | nil => rfl
    | cons f T =>
      exfalso
      rcases hc f (by rw [h1]; simp) with hf | ⟨i, s, -, -, q1, q2, e, -⟩
      · exact h5 f (by simp) f hf rfl
      · cases q1 <;> cases e
  subst this
  exact ⟨by rw [h1, List.append_nil], by rw [h2]; rfl⟩

/-- A drawing of one vector. -/
private def oneDraw (i : Nat) (name : Txt) : Op Nat := .on i (.vectors (some name) (.vx [7]) [])

/-- Programs that meet the conditions: two sessions that draw, one twice, and remove their files. -/
example : RemovesOnce [.new [], .new [], oneDraw 0 ['a'], oneDraw 1 ['b'], oneDraw 0 ['c'], .on 0 .removeTmp, .destroy 0,
      .on 1 .replot, .on 1 .removeTmp] ∧
    Tidy [.new [], .new [], oneDraw 0 ['a'], oneDraw 1 ['b'], oneDraw 0 ['c'], .on 0 .removeTmp, .destroy 0,
      .on 1 .replot, .on 1 .removeTmp] := by
  constructor
  · simp [RemovesOnce, oneDraw]
  · simp only [Tidy, oneDraw]
    refine ⟨nofun, nofun, ?_, ?_, ?_, nofun, nofun, nofun, nofun, trivial⟩
    · intro i mk v t e
      cases e
      exact ⟨[oneDraw 1 ['b'], oneDraw 0 ['c']], [.destroy 0, .on 1 .replot, .on 1 .removeTmp], rfl, by simp [oneDraw]⟩
    · intro i mk v t e
      cases e
      exact ⟨[oneDraw 0 ['c'], .on 0 .removeTmp, .destroy 0, .on 1 .replot], [], rfl, by simp [oneDraw]⟩
    · intro i mk v t e
      cases e
      exact ⟨[], [.destroy 0, .on 1 .replot, .on 1 .removeTmp], rfl, by simp⟩

private theorem run_append (str : K → Txt) (term : Txt) (w : World K) (p q : List (Op K)) :
    run str term w (p ++ q) = run str term (run str term w p) q := List.foldl_append

private theorem run_one (str : K → Txt) (term : Txt) (w : World K) (o : Op K) : run str term w [o] = step str term w o := rfl

private theorem step_draw (str : K → Txt) (term : Txt) (w : World K) (i : Nat) (s : Session) (name : Txt) (v : Vectors K) (t : Txt)
    (hs : w.sessions[i]? = some (some s)) (h1 : v.check = true) (h2 : w.env.num ≠ 63)
    (h3 : name ∉ w.env.files.map (·.name)) :
    ∃ s', step str term w (.on i (.vectors (some name) v t)) =
      ⟨⟨w.env.files ++ [⟨name, true, v.rows⟩], w.env.num + 1, w.env.fds + 1⟩, w.sessions.set i (some s')⟩ ∧
      s'.tmpfiles = s.tmpfiles ++ [name] := by
  obtain ⟨s', h4, h5⟩ := vectors_succeeds str term w.env s name v t h1 h2 h3
  exact ⟨s', by simp only [step, hs, h4], h5⟩

/-- Many drawings of one session. -/
private theorem draws (str : K → Txt) (term : Txt) (w : World K) (i : Nat) (s : Session) (g : Nat → Txt) (v : Vectors K) (t : Txt)
    (hg : ∀ a b, g a = g b → a = b) (hs : w.sessions[i]? = some (some s)) (h1 : v.check = true) : ∀ m : Nat,
    w.env.num + m ≤ 63 → (∀ k < m, g k ∉ w.env.files.map (·.name)) →
    ∃ s', run str term w ((List.range m).map (fun k => Op.on i (.vectors (some (g k)) v t))) =
      ⟨⟨w.env.files ++ (List.range m).map (fun k => ⟨g k, true, v.rows⟩), w.env.num + m, w.env.fds + m⟩,
        w.sessions.set i (some s')⟩
  | 0, _, _ => by
    refine ⟨s, ?_⟩
    have : w.sessions.set i (some s) = w.sessions := by
      apply List.ext_getElem?
      intro j
      by_cases hij : i = j
      · subst hij
        rw [List.getElem?_set_self (List.getElem?_eq_some_iff.1 hs).1, hs]
      · rw [List.getElem?_set_ne hij]
    simp [run, this]
  | m + 1, hm, hf => by
    obtain ⟨s1, h2⟩ := draws str term w i s g v t hg hs h1 m (by omega) (fun k hk => hf k (by omega))
    rw [List.range_succ, List.map_append, run_append, h2, List.map_singleton, run_one]
    have hlt : i < w.sessions.length := (List.getElem?_eq_some_iff.1 hs).1
    obtain ⟨s2, h3, -⟩ := step_draw str term ⟨⟨w.env.files ++ (List.range m).map (fun k => ⟨g k, true, v.rows⟩), w.env.num + m,
        w.env.fds + m⟩, w.sessions.set i (some s1)⟩ i s1 (g m) v t (List.getElem?_set_self hlt) h1
        (by show w.env.num + (m : Int) ≠ 63; omega) (by
          simp only [List.map_append, List.map_map, List.mem_append, List.mem_map, List.mem_range, Function.comp, not_or]
          refine ⟨?_, ?_⟩
          · have := hf m (by omega)
            simpa using this
          · rintro ⟨k, hk, e⟩
            have := hg _ _ e
            omega)
    refine ⟨s2, ?_⟩
    rw [h3]
    simp only [List.set_set, List.map_append, List.map_singleton, List.append_assoc]
    congr 2
    · push_cast; ring

private theorem run_cons (str : K → Txt) (term : Txt) (w : World K) (o : Op K) (p : List (Op K)) :
    run str term w (o :: p) = run str term (step str term w o) p := rfl

private theorem run_nil (str : K → Txt) (term : Txt) (w : World K) : run str term w [] = w := rfl

private theorem check_iff (v : Vectors K) : v.check = true ↔ Drawable v := by
  cases v <;> simp only [Vectors.check, Drawable, ne_eq, decide_eq_true_eq, List.length_eq_zero_iff]
  · constructor
    · rintro ⟨h1, -, h3⟩; exact ⟨h1, h3.symm⟩
    · rintro ⟨h1, h2⟩
      refine ⟨h1, ?_, h2.symm⟩
      intro h; rw [h] at h2; exact h1 (List.length_eq_zero_iff.1 h2.symm)
  · constructor
    · rintro ⟨h1, -, -, h4, h5⟩; exact ⟨h1, h4.symm, by omega⟩
    · rintro ⟨h1, h2, h3⟩
      refine ⟨h1, ?_, ?_, h2.symm, by omega⟩
      · intro h; rw [h] at h2; exact h1 (List.length_eq_zero_iff.1 h2.symm)
      · intro h; rw [h] at h3; exact h1 (List.length_eq_zero_iff.1 h3.symm)
  · constructor
    · rintro ⟨h1, -, -, h4, h5⟩; exact ⟨h1, h4.symm, by omega⟩
    · rintro ⟨h1, h2, h3⟩
      refine ⟨h1, ?_, ?_, h2.symm, by omega⟩
      · intro h; rw [h] at h2; exact h1 (List.length_eq_zero_iff.1 h2.symm)
      · intro h; rw [h] at h3; exact h1 (List.length_eq_zero_iff.1 h3.symm)

private theorem run_new (str : K → Txt) (term style : Txt) (w : World K) :
    step str term w (.new style) = ⟨w.env, w.sessions ++ [some (newSession str term style)]⟩ := rfl

private theorem start_new (str : K → Txt) (term style : Txt) (disk : List (File K)) :
    step str term (start disk) (.new style) = ⟨(start disk).env, [some (newSession str term style)]⟩ := rfl

/-- The promise of the header that the destructor deletes the temporary files is refuted: whatever is drawn, and whatever is on
the disk, the file is there when its session is gone. -/
theorem C178_destroy_refuted (str : K → Txt) (term style : Txt) (disk : List (File K)) (name : Txt) (v : Vectors K) (title : Txt)
    (hv : Drawable v) (hn : ∀ f ∈ disk, f.name ≠ name) :
    ∃ f, (run str term (start disk) [.new style, .on 0 (.vectors (some name) v title), .destroy 0]).env.files = disk ++ [f] ∧
      f.name = name ∧ ∀ s ∈ (run str term (start disk) [.new style, .on 0 (.vectors (some name) v title), .destroy 0]).sessions,
        s = none := by
  obtain ⟨s', h1, -⟩ := step_draw str term ⟨(start disk).env, [some (newSession str term style)]⟩ 0 _ name v title rfl
    ((check_iff v).2 hv) (by simp [start]) (by
      intro h
      obtain ⟨f, hf, e⟩ := List.mem_map.1 h
      exact hn f hf e)
  have h : run str term (start disk) [.new style, .on 0 (.vectors (some name) v title), .destroy 0] =
      ⟨⟨disk ++ [⟨name, true, v.rows⟩], 1, 1⟩, [none]⟩ := by
    rw [run_cons, run_cons, run_cons, run_nil, start_new, h1]
    simp [step, start]
  rw [h]
  exact ⟨_, rfl, rfl, by simp⟩

/-- Different names. -/
private def names (k : Nat) : Txt := List.replicate (k + 1) 'a'

private theorem names_inj (a b : Nat) (h : names a = names b) : a = b := by
  have := congrArg List.length h
  simpa [names] using this

/-- The counter is at its limit and no session has files. -/
private def Stuck (w : World K) : Prop := w.env.num = 63 ∧ ∀ (i : Nat) s, w.sessions[i]? = some (some s) → s.tmpfiles = []

private theorem stuck_step (str : K → Txt) (term : Txt) (w : World K) (o : Op K) (h : Stuck w) : Stuck (step str term w o) := by
  obtain ⟨h1, h2⟩ := h
  cases o with
  | new style =>
    refine ⟨h1, fun i s hs => ?_⟩
    rcases append_alive hs with hs | ⟨-, rfl⟩
    · exact h2 i s hs
    · exact new_tmp str term style
  | destroy k =>
    refine ⟨h1, fun i s hs => ?_⟩
    rcases set_alive hs with ⟨-, h⟩ | ⟨-, hs⟩
    · cases h
    · exact h2 i s hs
  | on k c =>
    rcases step_on str term w k c with h | ⟨s0, e, s1, hs0, hcl, h⟩
    · rw [h]; exact ⟨h1, h2⟩
    · rw [h]
      rcases call_effect hcl with ⟨rfl, hs, -, -⟩ | ⟨name, v, t, rfl, -, h63, -, -, -⟩ | ⟨rfl, rfl, rfl⟩
      · refine ⟨h1, fun i s hs' => ?_⟩
        rcases set_alive hs' with ⟨-, h9⟩ | ⟨-, hs'⟩
        · cases h9
          rw [hs, h2 k s0 hs0]
        · exact h2 i s hs'
      · exact absurd h1 h63
      · refine ⟨?_, fun i s hs' => ?_⟩
        · rw [removeTmp_eq, h2 k s1 hs0]
          show w.env.num - _ = 63
          rw [h1]; rfl
        · rcases set_alive hs' with ⟨-, h9⟩ | ⟨-, hs'⟩
          · cases h9
            exact h2 k s1 hs0
          · exact h2 i s hs'

private theorem stuck_run (str : K → Txt) (term : Txt) : ∀ (q : List (Op K)) (w : World K), Stuck w → Stuck (run str term w q)
  | [], _, h => h
  | o :: q, w, h => stuck_run str term q _ (stuck_step str term w o h)

private theorem draw_destroy (str : K → Txt) (term style : Txt) (v : Vectors K) (hv : Drawable v) (m : Nat) (hm : m ≤ 63) :
    run str term (start []) (.new style :: (List.range m).map (fun k => Op.on 0 (.vectors (some (names k)) v [])) ++
      [.destroy 0]) = ⟨⟨(List.range m).map (fun k => ⟨names k, true, v.rows⟩), m, m⟩, [none]⟩ := by
  obtain ⟨s1, h1⟩ := draws str term ⟨(start []).env, [some (newSession str term style)]⟩ 0 _ names v [] names_inj rfl
    ((check_iff v).2 hv) m (by show (0 : Int) + m ≤ 63; omega) (by simp [start])
  rw [run_append, run_one, run_cons, start_new, h1]
  simp [step, start]

/-- C178 in full is refuted by sessions that are destroyed with their files: after a first part of the program, in which one
session draws 63 vectors and is destroyed, no drawing from vectors ever succeeds again, in whatever session, whatever the program
does. -/
theorem C178_exhausted_refuted (str : K → Txt) (term style : Txt) (v : Vectors K) (hv : Drawable v) : ∃ p : List (Op K),
    RemovesOnce p ∧ (run str term (start []) p).env.files.length = 63 ∧
    ∀ (q : List (Op K)) (i : Nat) (s : Session), (run str term (start []) (p ++ q)).sessions[i]? = some (some s) →
      ∀ mk v' t, ∃ f, call str term (run str term (start []) (p ++ q)).env s (.vectors mk v' t) = .error f := by
  obtain ⟨m, hm⟩ : ∃ m : Nat, m = 63 := ⟨63, rfl⟩
  have h := draw_destroy str term style v hv m (by omega)
  refine ⟨.new style :: (List.range m).map (fun k => Op.on 0 (.vectors (some (names k)) v [])) ++ [.destroy 0], ?_, ?_, ?_⟩
  · have hr : ∀ p : List (Op K), (∀ i, Op.on i Call.removeTmp ∉ p) → RemovesOnce p := by
      intro p
      induction p with
      | nil => exact fun _ => trivial
      | cons o p ih =>
        intro hp
        refine ⟨?_, ih (fun i hi => hp i (List.mem_cons_of_mem _ hi))⟩
        split
        · rename_i i
          exact absurd (by simp) (hp i)
        · trivial
    apply hr
    simp
  · rw [h]; simp [hm]
  · intro q i s hs mk v' t
    have hst : Stuck (run str term (start []) ((.new style :: (List.range m).map
        (fun k => Op.on 0 (.vectors (some (names k)) v [])) ++ [.destroy 0]) ++ q)) := by
      rw [run_append, h]
      refine stuck_run str term q _ ⟨by rw [hm]; rfl, fun i s hs => ?_⟩
      cases i with
      | zero => cases hs
      | succ i => cases hs
    cases hc : call str term (run str term (start []) ((.new style :: (List.range m).map
        (fun k => Op.on 0 (.vectors (some (names k)) v [])) ++ [.destroy 0]) ++ q)).env s (.vectors mk v' t) with
    | error f => exact ⟨f, rfl⟩
    | ok r =>
      exfalso
      obtain ⟨e', s'⟩ := r
      rcases call_effect hc with ⟨-, -, -, hne⟩ | ⟨_, _, _, -, -, h63, -, -, -⟩ | ⟨hne, -, -⟩
      · exact hne mk v' t rfl
      · exact h63 hst.1
      · cases hne

private theorem run_removals (str : K → Txt) (term : Txt) (i : Nat) : ∀ (n : Nat) (e : Env K) (l : List (Option Session))
    (s : Session), l[i]? = some (some s) → (∀ f ∈ e.files, f.name ∉ s.tmpfiles) →
    run str term ⟨e, l⟩ (List.replicate n (Op.on i .removeTmp)) = ⟨{ e with num := e.num - n * s.tmpfiles.length }, l⟩
  | 0, e, l, s, _, _ => by simp [run]
  | n + 1, e, l, s, hs, hf => by
    have h1 : step str term ⟨e, l⟩ (.on i .removeTmp) = ⟨{ e with num := e.num - s.tmpfiles.length }, l⟩ := by
      simp only [step, hs, call]
      rw [removeTmp_eq]
      congr 1
      · congr 1
        rw [List.filter_eq_self]
        intro f hf'
        rw [decide_eq_true_eq]
        exact hf f hf'
      · apply List.ext_getElem?
        intro j
        by_cases hij : i = j
        · subst hij
          rw [List.getElem?_set_self (List.getElem?_eq_some_iff.1 hs).1, hs]
        · rw [List.getElem?_set_ne hij]
    rw [List.replicate_succ]
    rw [run_cons, h1, run_removals str term i n { e with num := e.num - s.tmpfiles.length } l s hs hf]
    congr 2
    push_cast
    ring

/-- C178 in full is refuted by sessions that remove twice: a program can hold more temporary files than any given number, because
every repeated removal lowers the counter. -/
theorem C178_twice_refuted (str : K → Txt) (term style : Txt) (v : Vectors K) (hv : Drawable v) (n : Nat) :
    ∃ p : List (Op K), (run str term (start []) p).env.files.length > n ∧ (run str term (start []) p).env.num ≤ 63 := by
  obtain ⟨s1, h1, h1t⟩ := step_draw str term ⟨(start []).env, [some (newSession str term style)]⟩ 0 _ (names 0) v [] rfl
    ((check_iff v).2 hv) (by simp [start]) (by simp [start])
  rw [new_tmp] at h1t
  have hrem : step str term ⟨⟨[⟨names 0, true, v.rows⟩], 1, 1⟩, [some s1]⟩ (.on 0 .removeTmp) = ⟨⟨[], 0, 1⟩, [some s1]⟩ := by
    simp only [step, call, List.getElem?_cons_zero]
    rw [removeTmp_eq, h1t]
    simp
  have h2 := run_removals str term 0 n (⟨[], 0, 1⟩ : Env K) [some s1] s1 rfl (by simp)
  rw [h1t] at h2
  obtain ⟨s3, h3⟩ := draws str term ⟨⟨[], 0 - n * (([] ++ [names 0] : List Txt).length : Int), 1⟩,
    [some s1, some (newSession str term style)]⟩ 1 _ names v [] names_inj rfl ((check_iff v).2 hv) (n + 63) (by simp) (by simp)
  refine ⟨[.new style, .on 0 (.vectors (some (names 0)) v []), .on 0 .removeTmp] ++ List.replicate n (Op.on 0 .removeTmp) ++
    [.new style] ++ (List.range (n + 63)).map (fun k => Op.on 1 (.vectors (some (names k)) v [])), ?_⟩
  have h4 : run str term (start []) [.new style, .on 0 (.vectors (some (names 0)) v []), .on 0 .removeTmp] =
      ⟨⟨[], 0, 1⟩, [some s1]⟩ := by
    rw [run_cons, run_cons, run_cons, run_nil, start_new, h1]
    exact hrem
  rw [run_append, run_append, run_append, h4, h2, run_one, run_new]
  show _ ∧ _
  simp only [List.cons_append, List.nil_append] at h3 ⊢
  rw [h3]
  simp

/-- The descriptors `mkstemp` opens are never closed: a program can clean up all it has made and leave as many open as it likes. -/
theorem C178_descriptors_refuted (str : K → Txt) (term style : Txt) (v : Vectors K) (hv : Drawable v) (n : Nat) :
    ∃ p : List (Op K), (run str term (start []) p).env = ⟨[], 0, n⟩ ∧
      ∀ s ∈ (run str term (start []) p).sessions, s = none := by
  have H : ∀ n : Nat, ∃ p : List (Op K), run str term (start []) p = ⟨⟨[], 0, n⟩, List.replicate n none⟩ := by
    intro n
    induction n with
    | zero => exact ⟨[], rfl⟩
    | succ n ih =>
      obtain ⟨p, hp⟩ := ih
      have hget : (List.replicate n none ++ [some (newSession str term style)])[n]? = some (some (newSession str term style)) := by
        rw [List.getElem?_append_right (by simp)]
        simp
      obtain ⟨s1, h1, h1t⟩ := step_draw str term ⟨⟨[], 0, n⟩, List.replicate n none ++ [some (newSession str term style)]⟩ n _
        (names 0) v [] hget ((check_iff v).2 hv) (by simp) (by simp)
      rw [new_tmp] at h1t
      refine ⟨p ++ [.new style, .on n (.vectors (some (names 0)) v []), .on n .removeTmp, .destroy n], ?_⟩
      rw [run_append, hp]
      rw [run_cons, run_cons, run_cons, run_cons, run_nil, run_new, h1]
      have hset : (List.replicate n none ++ [some (newSession str term style)]).set n (some s1) =
          List.replicate n none ++ [some s1] := by
        rw [List.set_append_right _ _ (by simp)]
        simp
      have hget' : (List.replicate n none ++ [some s1])[n]? = some (some s1) := by
        rw [List.getElem?_append_right (by simp)]
        simp
      simp only [hset]
      have h5 : step str term (⟨⟨[] ++ [⟨names 0, true, v.rows⟩], 0 + 1, n + 1⟩, List.replicate n none ++ [some s1]⟩ : World K)
          (.on n .removeTmp) = ⟨⟨[], 0, n + 1⟩, List.replicate n none ++ [some s1]⟩ := by
        simp only [step, hget', call]
        rw [removeTmp_eq, h1t, List.set_append_right _ _ (by simp)]
        simp
      rw [h5]
      simp only [step]
      rw [List.set_append_right _ _ (by simp)]
      simp [List.replicate_succ']
  obtain ⟨p, hp⟩ := H n
  refine ⟨p, by rw [hp], ?_⟩
  rw [hp]
  intro s hs
  exact List.eq_of_mem_replicate hs

/-! ### What is in the files -/

private theorem zip3 (x y z : List K) (hy : y.length = x.length) (hz : z.length = x.length) :
    (List.zipWith (fun a r => a :: r) x (List.zipWith (fun b c => [b, c]) y z)).length = x.length ∧
    ∀ (i : Nat) a b c, x[i]? = some a → y[i]? = some b → z[i]? = some c →
      (List.zipWith (fun a r => a :: r) x (List.zipWith (fun b c => [b, c]) y z))[i]? = some [a, b, c] := by
  refine ⟨by simp [hy, hz], ?_⟩
  intro i a b c h1 h2 h3
  simp [List.getElem?_zipWith, h1, h2, h3]

private theorem flatMap_get (f : Nat → Nat → List K) (w : Nat) : ∀ (h r c : Nat), r < h → c < w →
    ((List.range h).flatMap (fun r => (List.range w).map (fun c => f r c)))[r * w + c]? = some (f r c)
  | 0, r, c, hr, _ => by omega
  | h + 1, r, c, hr, hc => by
    have hl : ((List.range h).flatMap (fun r => (List.range w).map (fun c => f r c))).length = h * w := by
      simp [List.length_flatMap]
    rw [List.range_succ, List.flatMap_append, List.flatMap_singleton]
    by_cases hrh : r < h
    · rw [List.getElem?_append_left]
      · exact flatMap_get f w h r c hrh hc
      · rw [hl]
        calc r * w + c < r * w + w := by omega
          _ = (r + 1) * w := by ring
          _ ≤ h * w := Nat.mul_le_mul_right _ hrh
    · have : r = h := by omega
      subst this
      rw [List.getElem?_append_right (by rw [hl]; omega), hl, Nat.add_sub_cancel_left]
      simp [hc]

private theorem rows_hold (v : Vectors K) (hv : Drawable v) : Holds v.rows v := by
  cases v with
  | vx x => exact ⟨by simp [Vectors.rows], fun i h => by simp [Vectors.rows, h]⟩
  | vxy x y =>
    refine ⟨by simp [Vectors.rows, hv.2], fun i a b h1 h2 => by simp [Vectors.rows, List.getElem?_zipWith, h1, h2]⟩
  | vxyErr x y d => exact zip3 x y d hv.2.1 hv.2.2
  | vxyz x y z => exact zip3 x y z hv.2.1 hv.2.2
  | vimage num w h px =>
    refine ⟨by simp [Vectors.rows, List.length_flatMap], fun r c hr hc => ?_⟩
    exact flatMap_get (fun r c => [num c, num r, px (r * w + c)]) w h r c hr hc

private theorem line_picture (str : K → Txt) (s : Session) (title : Txt) (src : Source K) :
    ∃ b ∈ ["plot ", "splot ", "replot "], drawLine str s title src = b.toList ++ picture str s.pstyle s.smooth title src := by
  rw [drawLine_eq]
  cases flat src with
  | true =>
    rw [if_pos rfl]
    unfold head2
    split
    · exact ⟨"replot ", by simp, Eq.refl _⟩
    · exact ⟨"plot ", by simp, Eq.refl _⟩
  | false =>
    rw [if_neg (by simp)]
    unfold head3
    split
    · exact ⟨"replot ", by simp, Eq.refl _⟩
    · exact ⟨"splot ", by simp, Eq.refl _⟩

/-- C179.  A drawing from vectors succeeds exactly if they can be drawn, a new name can be had and there are fewer than 63
temporary files; then one file is new on the disk, it holds the vectors row by row, nothing else has changed there, and the line
sent reads the columns of that file in order. -/
theorem C179_written (str : K → Txt) (term : Txt) (e : Env K) (s : Session) (hs : s.valid = true) (mk : Option Txt) (v : Vectors K)
    (title : Txt) :
    ((∃ r, call str term e s (.vectors mk v title) = .ok r) ↔
      Drawable v ∧ e.num ≠ 63 ∧ ∃ name, mk = some name ∧ ∀ f ∈ e.files, f.name ≠ name) ∧
    ∀ e' s', call str term e s (.vectors mk v title) = .ok (e', s') → ∃ name rows b, mk = some name ∧
      e'.files = e.files ++ [⟨name, true, rows⟩] ∧ Holds rows v ∧ b ∈ ["plot ", "splot ", "replot "] ∧
      s'.sent = s.sent ++ [b.toList ++ picture str s.pstyle s.smooth title (readBack name v)] := by
  refine ⟨⟨?_, ?_⟩, ?_⟩
  · rintro ⟨⟨e', s'⟩, h⟩
    obtain ⟨h1, h2, name, h3, h4, -, -⟩ := vectors_ok h
    exact ⟨(check_iff v).1 h1, h2, name, h3, fun f hf e => h4 (List.mem_map.2 ⟨f, hf, e⟩)⟩
  · rintro ⟨h1, h2, name, rfl, h3⟩
    obtain ⟨s', h4, -⟩ := vectors_succeeds str term e s name v title ((check_iff v).2 h1) h2 (by
      intro h
      obtain ⟨f, hf, e⟩ := List.mem_map.1 h
      exact h3 f hf e)
    exact ⟨_, h4⟩
  · intro e' s' h
    obtain ⟨h1, -, name, h3, -, h5, h6⟩ := vectors_ok h
    obtain ⟨b, hb, hl⟩ := line_picture str s title (readBack name v)
    refine ⟨name, v.rows, b, h3, by rw [h5], rows_hold v ((check_iff v).1 h1), hb, ?_⟩
    have hv : ({ s with tmpfiles := s.tmpfiles ++ [name] } : Session).valid = true := hs
    rw [h6, cmd_sent _ hv, hl]

/-- A drawing that meets the conditions. -/
example : ∃ r, call (fun n : Nat => Nat.toDigits 10 n) "x11".toList ⟨[], 5, 0⟩
    (newSession (fun n : Nat => Nat.toDigits 10 n) "x11".toList []) (.vectors (some ['f']) (.vxy [1, 2] [3, 4]) []) = .ok r := by
  refine ((C179_written _ _ _ _ ?_ _ _ _).1).2 ⟨by simp [Drawable], by decide, ['f'], rfl, by simp⟩
  decide +kernel

/-- The file `f` of session `i` is on the disk, and no other session that may still remove files has it in its list. -/
private def Safe (i : Nat) (f : File K) (R : Nat → Prop) (w : World K) : Prop :=
  f ∈ w.env.files ∧ ∀ (j : Nat) s, j ≠ i → ¬ R j → w.sessions[j]? = some (some s) → f.name ∉ s.tmpfiles

private theorem safe_step (str : K → Txt) (term : Txt) {i : Nat} {f : File K} {R : Nat → Prop} {w : World K} (o : Op K)
    (h : Safe i f R w) (hi : ∀ j, R j → ∀ c, o = Op.on j c → c ≠ Call.removeTmp) (ho : o ≠ Op.on i Call.removeTmp) :
    Safe i f (grow R o) (step str term w o) := by
  obtain ⟨h1, h2⟩ := h
  have hR : ∀ j, ¬ grow R o j → ¬ R j := fun j h h' => h (.inl h')
  cases o with
  | new style =>
    refine ⟨h1, fun j s hj hr hs => ?_⟩
    rcases append_alive hs with hs | ⟨-, rfl⟩
    · exact h2 j s hj (hR j hr) hs
    · rw [new_tmp]; simp
  | destroy k =>
    refine ⟨h1, fun j s hj hr hs => ?_⟩
    rcases set_alive hs with ⟨-, h⟩ | ⟨-, hs⟩
    · cases h
    · exact h2 j s hj (hR j hr) hs
  | on k c =>
    rcases step_on str term w k c with h | ⟨s0, e, s1, hs0, hcl, h⟩
    · rw [h]; exact ⟨h1, fun j s hj hr hs => h2 j s hj (hR j hr) hs⟩
    · rw [h]
      rcases call_effect hcl with ⟨rfl, ht, -, -⟩ | ⟨name, v, t, rfl, -, -, hnew, rfl, ht⟩ | ⟨rfl, rfl, rfl⟩
      · refine ⟨h1, fun j s hj hr hs => ?_⟩
        rcases set_alive hs with ⟨e1, h9⟩ | ⟨-, hs⟩
        · cases h9
          rw [ht]
          exact h2 j s0 hj (hR j hr) (e1 ▸ hs0)
        · exact h2 j s hj (hR j hr) hs
      · refine ⟨List.mem_append_left _ h1, fun j s hj hr hs => ?_⟩
        rcases set_alive hs with ⟨e1, h9⟩ | ⟨-, hs⟩
        · cases h9
          rw [ht, List.mem_append, List.mem_singleton, not_or]
          exact ⟨h2 j s0 hj (hR j hr) (e1 ▸ hs0), fun e => hnew (e ▸ List.mem_map.2 ⟨f, h1, rfl⟩)⟩
        · exact h2 j s hj (hR j hr) hs
      · have hki : k ≠ i := by rintro rfl; exact ho rfl
        have hk0 : ¬ R k := fun h => hi k h _ rfl rfl
        refine ⟨?_, fun j s hj hr hs => ?_⟩
        · rw [removeTmp_eq]
          exact List.mem_filter.2 ⟨h1, by rw [decide_eq_true_eq]; exact h2 k s1 hki hk0 hs0⟩
        · rcases set_alive hs with ⟨e1, h9⟩ | ⟨-, hs⟩
          · cases h9
            exact h2 j s1 hj (hR j hr) (e1 ▸ hs0)
          · exact h2 j s hj (hR j hr) hs

private theorem safe_run (str : K → Txt) (term : Txt) {i : Nat} {f : File K} : ∀ (q : List (Op K)) {R : Nat → Prop} {w : World K},
    Safe i f R w → Idle R q → RemovesOnce q → Op.on i Call.removeTmp ∉ q → f ∈ (run str term w q).env.files
  | [], _, _, h, _, _, _ => h.1
  | o :: q, R, w, h, hi, hr, ho => safe_run str term q
      (safe_step str term o h (fun j hj c hc => (hi j hj o (by simp) c hc).1) (fun e => ho (by rw [e]; simp)))
      (idle_grow hi hr) hr.2 (fun hm => ho (List.mem_cons_of_mem _ hm))

private theorem idle_grown : ∀ (p : List (Op K)) {R : Nat → Prop} {q : List (Op K)}, Idle R (p ++ q) → RemovesOnce (p ++ q) →
    Idle (grown R p) q ∧ RemovesOnce q
  | [], _, _, hi, hr => ⟨hi, hr⟩
  | _ :: p, _, _, hi, hr => idle_grown p (idle_grow hi hr) hr.2

private theorem once_left : ∀ (p : List (Op K)) {q : List (Op K)}, RemovesOnce (p ++ q) → RemovesOnce p
  | [], _, _ => trivial
  | o :: p, q, hr => by
    refine ⟨?_, once_left p hr.2⟩
    have h1 := hr.1
    cases o with
    | new s => trivial
    | destroy s => trivial
    | on i c =>
      cases c with
      | removeTmp => exact fun o ho => h1 o (List.mem_append_left _ ho)
      | _ => trivial

/-- C179 (how long the data stay).  The file of a drawing keeps the vectors until its session removes its files, whatever the
program does otherwise, if the sessions remove once and last.  Missing from C179: other programs (see the refutation). -/
theorem C179_stays_partial (str : K → Txt) (term : Txt) (disk : List (File K)) (p q : List (Op K)) (i : Nat) (s : Session)
    (name : Txt) (v : Vectors K) (title : Txt) (hr : RemovesOnce (p ++ .on i (.vectors (some name) v title) :: q))
    (hs : (run str term (start disk) p).sessions[i]? = some (some s))
    (hc : ∃ r, call str term (run str term (start disk) p).env s (.vectors (some name) v title) = .ok r)
    (hq : Op.on i Call.removeTmp ∉ q) :
    ∃ rows, Holds rows v ∧
      ⟨name, true, rows⟩ ∈ (run str term (start disk) (p ++ .on i (.vectors (some name) v title) :: q)).env.files := by
  obtain ⟨⟨e', s'⟩, hc⟩ := hc
  obtain ⟨T, hT⟩ := kept_run str term p (kept_start disk) (idle_start p) (once_left p hr)
  obtain ⟨h1, h2⟩ := idle_grown p (idle_start (p ++ .on i (.vectors (some name) v title) :: q)) hr
  obtain ⟨hv, -, n, hn, hnew, he, -⟩ := vectors_ok hc
  cases hn
  refine ⟨v.rows, rows_hold v ((check_iff v).1 hv), ?_⟩
  rw [run_append, run_cons]
  have hstep : step str term (run str term (start disk) p) (.on i (.vectors (some name) v title)) =
      ⟨e', (run str term (start disk) p).sessions.set i (some s')⟩ := by
    simp only [step, hs, hc]
  rw [hstep]
  refine safe_run str term q (i := i) (R := grown (fun _ => False) p) ⟨?_, ?_⟩ ?_ h2.2 hq
  · rw [he]; simp
  · intro j t hj hrj ht hm
    rcases set_alive ht with ⟨e1, -⟩ | ⟨-, ht⟩
    · exact hj e1.symm
    · have := (hT.own j t ht hrj).2 _ hm
      apply hnew
      rw [hT.files, List.map_append]
      exact List.mem_append_right _ this
  · exact fun j hj o ho => h1 j hj o (List.mem_cons_of_mem _ ho)

/-- A program that meets the conditions: the session is destroyed and another one draws and removes its files. -/
example : RemovesOnce ([.new []] ++ oneDraw 0 ['a'] :: [.destroy 0, .new [], oneDraw 1 ['b'], .on 1 .removeTmp]) ∧
    (∃ s, (run (fun n : Nat => Nat.toDigits 10 n) [] (start []) [.new []]).sessions[0]? = some (some s) ∧
      ∃ r, call (fun n : Nat => Nat.toDigits 10 n) [] (run (fun n : Nat => Nat.toDigits 10 n) [] (start []) [.new []]).env s
        (.vectors (some ['a']) (.vx [7]) []) = .ok r) := by
  refine ⟨by simp [RemovesOnce, oneDraw], _, rfl, ?_⟩
  obtain ⟨s', h, -⟩ := vectors_succeeds (fun n : Nat => Nat.toDigits 10 n) [] (start []).env
    (newSession (fun n : Nat => Nat.toDigits 10 n) [] []) ['a'] (.vx [7]) [] rfl (by simp [start]) (by simp [start])
  exact ⟨_, h⟩

/-- C179 in full is refuted by a session that removes twice: it takes away the file another session has drawn from since, under a
name that had become free. -/
theorem C179_foreign_refuted (str : K → Txt) (term style : Txt) (name : Txt) (v : Vectors K) (hv : Drawable v) :
    ∃ p : List (Op K), (∃ rows, (run str term (start []) p).env.files = [⟨name, true, rows⟩] ∧ Holds rows v) ∧
      (∃ s, (run str term (start []) p).sessions[1]? = some (some s) ∧ s.tmpfiles = [name]) ∧
      (run str term (start []) (p ++ [.on 0 .removeTmp])).env.files = [] := by
  obtain ⟨s1, h1, h1t⟩ := step_draw str term ⟨⟨[], 0, 0⟩, [some (newSession str term style), some (newSession str term style)]⟩ 0 _
    name v [] rfl ((check_iff v).2 hv) (by simp) (by simp)
  rw [new_tmp] at h1t
  obtain ⟨s2, h2, h2t⟩ := step_draw str term ⟨⟨[], 0, 1⟩, [some s1, some (newSession str term style)]⟩ 1 _
    name v [] rfl ((check_iff v).2 hv) (by simp) (by simp)
  rw [new_tmp] at h2t
  have hrem : step str term ⟨⟨[⟨name, true, v.rows⟩], 1, 1⟩, [some s1, some (newSession str term style)]⟩ (.on 0 .removeTmp) =
      ⟨⟨[], 0, 1⟩, [some s1, some (newSession str term style)]⟩ := by
    simp only [step, call, List.getElem?_cons_zero]
    rw [removeTmp_eq, h1t]
    simp
  have hrem2 : (step str term ⟨⟨[⟨name, true, v.rows⟩], 1, 2⟩, [some s1, some s2]⟩ (.on 0 .removeTmp)).env.files = [] := by
    simp only [step, call, List.getElem?_cons_zero]
    rw [removeTmp_eq, h1t]
    simp
  have h : run str term (start []) [.new style, .new style, .on 0 (.vectors (some name) v []), .on 0 .removeTmp,
      .on 1 (.vectors (some name) v [])] = ⟨⟨[⟨name, true, v.rows⟩], 1, 2⟩, [some s1, some s2]⟩ := by
    rw [run_cons, run_cons, run_cons, run_cons, run_cons, run_nil, start_new, run_new]
    simp only [List.cons_append, List.nil_append, start] at h1 h2 ⊢
    rw [h1]
    simp only [List.set_cons_zero, zero_add]
    rw [hrem, h2]
    simp
  refine ⟨_, ⟨v.rows, by rw [h], rows_hold v hv⟩, ⟨s2, by rw [h]; rfl, by rw [h2t]; rfl⟩, ?_⟩
  rw [run_append, h, run_one, hrem2]

/-! ### The way to the program -/

private theorem stringtok_end : ∀ (d cur : Txt), ':' ∉ d → stringtok [':'] cur d = if cur.reverse ++ d = [] then [] else [cur.reverse ++ d]
  | [], cur, _ => by
    simp only [stringtok, List.append_nil, List.reverse_eq_nil_iff]
  | c :: d, cur, h => by
    have hc : c ∉ [':'] := by
      rw [List.mem_singleton]
      intro e; exact h (by simp [e])
    rw [stringtok, if_neg hc, stringtok_end d (c :: cur) (fun hm => h (List.mem_cons_of_mem _ hm))]
    simp

private theorem stringtok_colon : ∀ (d cur rest : Txt), ':' ∉ d → stringtok [':'] cur (d ++ ':' :: rest) =
    (if cur.reverse ++ d = [] then [] else [cur.reverse ++ d]) ++ stringtok [':'] [] rest
  | [], cur, rest, _ => by
    rw [List.nil_append, stringtok, if_pos (by simp)]
    by_cases h : cur = [] <;> simp [h]
  | c :: d, cur, rest, h => by
    have hc : c ∉ [':'] := by
      rw [List.mem_singleton]
      intro e; exact h (by simp [e])
    rw [List.cons_append, stringtok, if_neg hc, stringtok_colon d (c :: cur) rest (fun hm => h (List.mem_cons_of_mem _ hm))]
    simp

private theorem stringtok_pieces : ∀ (all : List Txt), all ≠ [] → (∀ d ∈ all, ':' ∉ d) →
    stringtok [':'] [] (List.intercalate [':'] all) = all.filter (fun d => !d.isEmpty)
  | [], h, _ => absurd rfl h
  | [d], _, h => by
    have : List.intercalate [':'] [d] = d := by simp [List.intercalate]
    rw [this, stringtok_end d [] (h d (by simp))]
    cases d <;> simp
  | d :: d' :: all, _, h => by
    have : List.intercalate [':'] (d :: d' :: all) = d ++ ':' :: List.intercalate [':'] (d' :: all) := by
      simp [List.intercalate]
    rw [this, stringtok_colon d [] _ (h d (by simp)), stringtok_pieces (d' :: all) (by simp) (fun x hx => h x (List.mem_cons_of_mem _ hx))]
    cases d <;> simp

/-- Every list of directories has its pieces. -/
private theorem pieces_exist : ∀ path : Txt, ∃ dirs, PathPieces path dirs := by
  intro path
  have : ∃ all : List Txt, List.intercalate [':'] all = path ∧ all ≠ [] ∧ ∀ d ∈ all, ':' ∉ d := by
    induction path with
    | nil => exact ⟨[[]], by simp [List.intercalate], by simp, by simp⟩
    | cons c path ih =>
      obtain ⟨all, h1, h2, h3⟩ := ih
      cases all with
      | nil => exact absurd rfl h2
      | cons d all =>
        by_cases hc : c = ':'
        · refine ⟨[] :: d :: all, ?_, by simp, ?_⟩
          · rw [hc, ← h1]; simp [List.intercalate]
          · intro x hx
            rcases List.mem_cons.1 hx with rfl | hx
            · simp
            · exact h3 x hx
        · refine ⟨(c :: d) :: all, ?_, by simp, ?_⟩
          · rw [← h1]; cases all <;> simp [List.intercalate]
          · intro x hx
            rcases List.mem_cons.1 hx with rfl | hx
            · intro hm
              rcases List.mem_cons.1 hm with e | hm
              · exact hc e.symm
              · exact h3 d (by simp) hm
            · exact h3 x (List.mem_cons_of_mem _ hx)
  obtain ⟨all, h1, h2, h3⟩ := this
  exact ⟨_, all, h1, h2, h3, rfl⟩

/-- C180.  A session is opened with the gnuplot of the configured directory if it has one, else of the first directory of `PATH`
that has one; if there is none, or no `PATH`, an exception is thrown. -/
theorem C180_found (exec : Txt → Bool) (configured : Txt) (path : Option Txt) :
    (exec configured = true → programPath exec configured path = .ok configured) ∧
    (exec configured = false → path = none → programPath exec configured path = .error .exception) ∧
    (exec configured = false → ∀ p, path = some p → ∃ dirs, PathPieces p dirs ∧
      ((∃ d before after, programPath exec configured path = .ok d ∧ dirs = before ++ d :: after ∧ exec d = true ∧
          ∀ x ∈ before, exec x = false) ∨
        (programPath exec configured path = .error .exception ∧ ∀ x ∈ dirs, exec x = false))) := by
  refine ⟨fun h => by rw [programPath.eq_def, if_pos h], ?_, ?_⟩
  · rintro h rfl
    rw [programPath, if_neg (by simp [h])]
  · rintro h p rfl
    obtain ⟨dirs, hd⟩ := pieces_exist p
    refine ⟨dirs, hd, ?_⟩
    have hst : stringtok [':'] [] p = dirs := by
      obtain ⟨all, h1, h2, h3, h4⟩ := hd
      rw [← h1, stringtok_pieces all h2 h3, h4]
    rw [programPath, if_neg (by simp [h])]
    simp only [hst]
    cases hf : dirs.find? exec with
    | some d =>
      left
      obtain ⟨h1, before, after, h2, h3⟩ := List.find?_eq_some_iff_append.1 hf
      exact ⟨d, before, after, rfl, h2, h1, fun x hx => by simpa using h3 x hx⟩
    | none =>
      right
      exact ⟨rfl, fun x hx => by simpa using List.find?_eq_none.1 hf x hx⟩

/-- The pieces of a list of directories are determined, so C180 says which directory is used. -/
theorem C180_pieces (path : Txt) : ∃ dirs, PathPieces path dirs ∧ ∀ dirs', PathPieces path dirs' → dirs' = dirs := by
  obtain ⟨dirs, hd⟩ := pieces_exist path
  have key : ∀ ds, PathPieces path ds → ds = stringtok [':'] [] path := by
    rintro ds ⟨all, h1, h2, h3, h4⟩
    rw [← h1, stringtok_pieces all h2 h3, h4]
  exact ⟨dirs, hd, fun ds h => (key ds h).trans (key dirs hd).symm⟩

/-- The pieces of a list with an empty directory. -/
example : PathPieces "/bin::/opt".toList ["/bin".toList, "/opt".toList] :=
  ⟨["/bin".toList, [], "/opt".toList], by decide +kernel, by simp, by decide +kernel, by decide +kernel⟩

/-- Setting the directory.  A directory with gnuplot is configured and used from then on. -/
theorem C180_set_partial (exec : Txt → Bool) (dir : Txt) (path : Option Txt) (h : (setPath exec dir).2 = true) :
    exec dir = true ∧ programPath exec (setPath exec dir).1 path = .ok dir := by
  by_cases he : exec dir = true
  · exact ⟨he, by rw [setPath, if_pos he, programPath.eq_def, if_pos he]⟩
  · rw [setPath, if_neg he] at h
    cases h

/-- That an attempt that fails leaves the configuration as it was is refuted: wherever gnuplot was configured, if it is not on the
`PATH`, a failed attempt to set another directory makes it unavailable. -/
theorem C180_unset_refuted (exec : Txt → Bool) (configured dir p : Txt) (hc : exec configured = true) (hd : exec dir = false)
    (he : exec [] = false) (hp : ∀ dirs, PathPieces p dirs → ∀ x ∈ dirs, exec x = false) :
    programPath exec configured (some p) = .ok configured ∧ (setPath exec dir).2 = false ∧
      programPath exec (setPath exec dir).1 (some p) = .error .exception := by
  have h1 : setPath exec dir = ([], false) := by rw [setPath, if_neg (by simp [hd])]
  refine ⟨(C180_found exec configured (some p)).1 hc, by rw [h1], ?_⟩
  rw [h1]
  obtain ⟨dirs, hds, h | h⟩ := (C180_found exec [] (some p)).2.2 he p rfl
  · obtain ⟨d, before, after, -, e, hx, -⟩ := h
    have := hp dirs hds d (by rw [e]; simp)
    rw [this] at hx
    cases hx
  · exact h.1

/-- A configuration that meets the conditions. -/
example : ∃ (exec : Txt → Bool) (configured dir p : Txt), exec configured = true ∧ exec dir = false ∧ exec [] = false ∧
    p ≠ [] ∧ ∀ dirs, PathPieces p dirs → ∀ x ∈ dirs, exec x = false := by
  refine ⟨fun d => decide (d = ['g']), ['g'], ['h'], ['b'], by decide, by decide, by decide, by decide, ?_⟩
  rintro dirs ⟨all, h1, h2, h3, rfl⟩ x hx
  have := stringtok_pieces all h2 h3
  rw [h1] at this
  rw [← this] at hx
  have h4 : stringtok [':'] [] ['b'] = [['b']] := by decide
  rw [h4, List.mem_singleton] at hx
  subst hx
  decide

end MLTK.Props
