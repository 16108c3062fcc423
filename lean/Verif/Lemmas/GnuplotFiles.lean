import Verif.Lemmas.Gnuplot
import Mathlib.Data.List.Nodup
import Mathlib.Data.List.Perm.Basic
/-!
# Lemmas about the temporary files of gnuplot sessions
-/
namespace MLTK.Gp
open MLTK.Spec
open MLTK.Data (Res_bind_ok Res_bind_error Res_pure)
variable {K : Type}

theorem cmd_tmp (s : Session) (t : Txt) : (cmd s t).tmpfiles = s.tmpfiles := by
  unfold cmd
  by_cases hv : s.valid = true
  · simp only [hv, Bool.not_true, Bool.false_eq_true, if_false]
    split
    · rfl
    · split
      · rfl
      · split <;> rfl
  · simp [hv]

theorem cmds_tmp : ∀ (ls : List Txt) (s : Session), (cmds s ls).tmpfiles = s.tmpfiles
  | [], _ => rfl
  | t :: ls, s => by
    have := cmds_tmp ls (cmd s t)
    rw [cmd_tmp] at this
    exact this

theorem setStyle_tmp (s : Session) (t : Txt) : (setStyle s t).tmpfiles = s.tmpfiles := by rw [setStyle]

theorem setSmooth_tmp (s : Session) (t : Txt) : (setSmooth s t).tmpfiles = s.tmpfiles := by rw [setSmooth]

theorem new_tmp (str : K → Txt) (term style : Txt) : (newSession str term style).tmpfiles = [] := by
  rw [newSession, setStyle_tmp, cmds_tmp]

/-- What a call that succeeds does to the files. -/
theorem call_effect {str : K → Txt} {term : Txt} {e e' : Env K} {s s' : Session} {c : Call K}
    (h : call str term e s c = .ok (e', s')) :
    (e' = e ∧ s'.tmpfiles = s.tmpfiles ∧ c ≠ .removeTmp ∧ ∀ mk v t, c ≠ .vectors mk v t) ∨
    (∃ name v t, c = .vectors (some name) v t ∧ v.check = true ∧ e.num ≠ 63 ∧ name ∉ e.files.map (·.name) ∧
      e' = ⟨e.files ++ [⟨name, true, v.rows⟩], e.num + 1, e.fds + 1⟩ ∧ s'.tmpfiles = s.tmpfiles ++ [name]) ∨
    (c = .removeTmp ∧ s' = s ∧ e' = removeTmp e s) := by
  cases c with
  | set c =>
    left
    simp only [call, Except.ok.injEq, Prod.mk.injEq] at h
    exact ⟨h.1.symm, by rw [← h.2, cmds_tmp], nofun, nofun⟩
  | style t =>
    left
    simp only [call, Except.ok.injEq, Prod.mk.injEq] at h
    exact ⟨h.1.symm, by rw [← h.2, setStyle_tmp], nofun, nofun⟩
  | smooth t =>
    left
    simp only [call, Except.ok.injEq, Prod.mk.injEq] at h
    exact ⟨h.1.symm, by rw [← h.2, setSmooth_tmp], nofun, nofun⟩
  | unsmooth =>
    left
    simp only [call, Except.ok.injEq, Prod.mk.injEq] at h
    exact ⟨h.1.symm, by rw [← h.2], nofun, nofun⟩
  | replot =>
    left
    simp only [call, Except.ok.injEq, Prod.mk.injEq] at h
    refine ⟨h.1.symm, ?_, nofun, nofun⟩
    rw [← h.2]
    split
    · rw [cmd_tmp]
    · rfl
  | resetPlot =>
    left
    simp only [call, Except.ok.injEq, Prod.mk.injEq] at h
    exact ⟨h.1.symm, by rw [← h.2], nofun, nofun⟩
  | resetAll =>
    left
    simp only [call, Except.ok.injEq, Prod.mk.injEq] at h
    refine ⟨h.1.symm, ?_, nofun, nofun⟩
    rw [← h.2, cmds_tmp, cmds_tmp]
  | draw src title =>
    left
    obtain ⟨s1, h1, h2⟩ := Aos.bind_inv h
    simp only [Res_pure, Except.ok.injEq, Prod.mk.injEq] at h2
    exact ⟨h2.1.symm, by rw [← h2.2, draw_ok h1, cmd_tmp], nofun, nofun⟩
  | vectors mk v title =>
    right; left
    obtain ⟨h1, h2, name, rfl, h3, h4, h5⟩ := vectors_ok h
    exact ⟨name, v, title, rfl, h1, h2, h3, h4, by rw [h5, cmd_tmp]⟩
  | removeTmp =>
    right; right
    simp only [call, Except.ok.injEq, Prod.mk.injEq] at h
    exact ⟨rfl, h.2.symm, h.1.symm⟩

/-- A drawing from vectors succeeds unless one of the reasons to throw is there. -/
theorem vectors_succeeds (str : K → Txt) (term : Txt) (e : Env K) (s : Session) (name : Txt) (v : Vectors K) (t : Txt)
    (h1 : v.check = true) (h2 : e.num ≠ 63) (h3 : name ∉ e.files.map (·.name)) :
    ∃ s', call str term e s (.vectors (some name) v t) = .ok (⟨e.files ++ [⟨name, true, v.rows⟩], e.num + 1, e.fds + 1⟩, s') ∧
      s'.tmpfiles = s.tmpfiles ++ [name] := by
  have hav : available (⟨e.files ++ [⟨name, true, v.rows⟩], e.num + 1, e.fds + 1⟩ : Env K) name = true := by
    unfold available
    have : (e.files ++ [(⟨name, true, v.rows⟩ : File K)]).find? (fun g => decide (g.name = name)) = some ⟨name, true, v.rows⟩ := by
      rw [List.find?_append]
      have : e.files.find? (fun g => decide (g.name = name)) = none := by
        rw [List.find?_eq_none]
        intro g hg hn
        exact h3 (List.mem_map.2 ⟨g, hg, by simpa using hn⟩)
      rw [this]
      simp
    rw [this]
  have hd : ∃ s', draw str (⟨e.files ++ [⟨name, true, v.rows⟩], e.num + 1, e.fds + 1⟩ : Env K)
      { s with tmpfiles := s.tmpfiles ++ [name] } (v.source name) t = .ok s' := by
    unfold draw
    split
    · exact ⟨_, rfl⟩
    · rename_i f hf
      have : f = name := by
        cases v <;> simp [Vectors.source, Source.file] at hf <;> exact hf.symm
      rw [this, if_pos hav]
      exact ⟨_, rfl⟩
  obtain ⟨s', hs'⟩ := hd
  refine ⟨s', ?_, ?_⟩
  · show drawVectors str e s (some name) v t = _
    unfold drawVectors
    rw [if_pos h1]
    have : createTmp e s (some name) v.rows = .ok (⟨e.files ++ [⟨name, true, v.rows⟩], e.num + 1, e.fds + 1⟩,
        { s with tmpfiles := s.tmpfiles ++ [name] }, name) := by
      unfold createTmp
      rw [if_neg (by simpa using h2)]
      simp only
      rw [if_neg h3]
    rw [this, Res_bind_ok]
    simp only
    rw [hs', Res_bind_ok, Res_pure]
  · rw [draw_ok hs', cmd_tmp]

theorem filter_length (T : List (File K)) (l : List Txt) (hT : (T.map (·.name)).Nodup) (hl : l.Nodup)
    (hs : ∀ n ∈ l, n ∈ T.map (·.name)) :
    (T.filter (fun f => decide (f.name ∉ l))).length + l.length = T.length := by
  have h1 : l.Perm ((T.map (·.name)).filter (fun n => decide (n ∈ l))) := by
    refine (List.perm_ext_iff_of_nodup hl (hT.filter _)).2 fun n => ?_
    simp only [List.mem_filter, decide_eq_true_eq]
    exact ⟨fun h => ⟨hs n h, h⟩, fun h => h.2⟩
  have h2 : l.length = (T.filter (fun f => decide (f.name ∈ l))).length := by
    rw [h1.length_eq, List.filter_map, List.length_map]
    rfl
  have h3 := List.length_eq_length_filter_add (l := T) (fun f => decide (f.name ∈ l))
  rw [h3, h2]
  have : T.filter (fun f => decide (f.name ∉ l)) = T.filter (fun f => !decide (f.name ∈ l)) := by
    congr 1; funext f; simp
  rw [this]
  omega

/-- The files are those there were and `T`, which the counter counts and of which every session not in `R` has its own. -/
structure Kept (disk : List (File K)) (R : Nat → Prop) (w : World K) (T : List (File K)) : Prop where
  files : w.env.files = disk ++ T
  num : (T.length : Int) = w.env.num
  le : w.env.num ≤ 63
  nodup : (T.map (·.name)).Nodup
  apart : ∀ f ∈ T, f.name ∉ disk.map (·.name)
  own : ∀ (i : Nat) s, w.sessions[i]? = some (some s) → ¬ R i → s.tmpfiles.Nodup ∧ ∀ n ∈ s.tmpfiles, n ∈ T.map (·.name)
  disj : ∀ (i j : Nat) s t, i ≠ j → ¬ R i → ¬ R j → w.sessions[i]? = some (some s) → w.sessions[j]? = some (some t) →
    ∀ n ∈ s.tmpfiles, n ∉ t.tmpfiles

/-- The sessions in `R` neither make nor remove files. -/
def Idle (R : Nat → Prop) (p : List (Op K)) : Prop :=
  ∀ i, R i → ∀ o ∈ p, ∀ c, o = Op.on i c → c ≠ Call.removeTmp ∧ ∀ mk v t, c ≠ Call.vectors mk v t

/-- The sessions that have removed their files after one operation. -/
def grow (R : Nat → Prop) (o : Op K) : Nat → Prop := fun i => R i ∨ o = Op.on i Call.removeTmp

theorem set_alive {l : List (Option Session)} {i j : Nat} {x : Option Session} {s : Session}
    (h : (l.set i x)[j]? = some (some s)) : (i = j ∧ x = some s) ∨ (i ≠ j ∧ l[j]? = some (some s)) := by
  rw [List.getElem?_set] at h
  by_cases hij : i = j
  · left
    rw [if_pos hij] at h
    split at h
    · exact ⟨hij, Option.some.inj h⟩
    · cases h
  · rw [if_neg hij] at h
    exact .inr ⟨hij, h⟩

theorem append_alive {l : List (Option Session)} {j : Nat} {x s : Session}
    (h : (l ++ [some x])[j]? = some (some s)) : l[j]? = some (some s) ∨ (j = l.length ∧ s = x) := by
  rw [List.getElem?_append] at h
  split at h
  · exact .inl h
  · rw [List.getElem?_singleton] at h
    split at h
    · exact .inr ⟨by omega, (Option.some.inj (Option.some.inj h)).symm⟩
    · cases h

theorem removeTmp_eq (e : Env K) (s : Session) : removeTmp e s =
    { e with files := e.files.filter (fun f => decide (f.name ∉ s.tmpfiles)), num := e.num - s.tmpfiles.length } := by
  unfold removeTmp
  split
  · rfl
  · rename_i h
    have : s.tmpfiles = [] := by
      cases hs : s.tmpfiles with
      | nil => rfl
      | cons a l => rw [hs] at h; simp at h
    rw [this]
    simp

theorem step_on (str : K → Txt) (term : Txt) (w : World K) (k : Nat) (c : Call K) :
    step str term w (.on k c) = w ∨ ∃ s e s', w.sessions[k]? = some (some s) ∧ call str term w.env s c = .ok (e, s') ∧
      step str term w (.on k c) = ⟨e, w.sessions.set k (some s')⟩ := by
  simp only [step]
  split
  · rename_i s hs
    split
    · rename_i e s' hc
      exact .inr ⟨s, e, s', hs, hc, rfl⟩
    · exact .inl rfl
  · exact .inl rfl

theorem kept_step (str : K → Txt) (term : Txt) {disk : List (File K)} {R : Nat → Prop} {w : World K} {T : List (File K)}
    (hk : Kept disk R w T) (o : Op K)
    (hi : ∀ i, R i → ∀ c, o = Op.on i c → c ≠ Call.removeTmp ∧ ∀ mk v t, c ≠ Call.vectors mk v t) :
    ∃ T', Kept disk (grow R o) (step str term w o) T' := by
  have hR : ∀ i, ¬ grow R o i → ¬ R i := fun i h h' => h (.inl h')
  cases o with
  | new style =>
    refine ⟨T, hk.files, hk.num, hk.le, hk.nodup, hk.apart, ?_, ?_⟩
    · intro i s h hr
      rcases append_alive h with h | ⟨-, rfl⟩
      · exact hk.own i s h (hR i hr)
      · rw [new_tmp]; simp
    · intro i j s t hij ri rj h1 h2 n hn
      rcases append_alive h1 with h1 | ⟨-, rfl⟩
      · rcases append_alive h2 with h2 | ⟨-, rfl⟩
        · exact hk.disj i j s t hij (hR i ri) (hR j rj) h1 h2 n hn
        · rw [new_tmp]; simp
      · rw [new_tmp] at hn; simp at hn
  | destroy k =>
    refine ⟨T, hk.files, hk.num, hk.le, hk.nodup, hk.apart, ?_, ?_⟩
    · intro i s h hr
      rcases set_alive h with ⟨-, h⟩ | ⟨-, h⟩
      · cases h
      · exact hk.own i s h (hR i hr)
    · intro i j s t hij ri rj h1 h2 n hn
      rcases set_alive h1 with ⟨-, h1⟩ | ⟨-, h1⟩
      · cases h1
      · rcases set_alive h2 with ⟨-, h2⟩ | ⟨-, h2⟩
        · cases h2
        · exact hk.disj i j s t hij (hR i ri) (hR j rj) h1 h2 n hn
  | on k c =>
    have hsame : Kept disk (grow R (Op.on k c)) w T :=
      ⟨hk.files, hk.num, hk.le, hk.nodup, hk.apart, fun i s h hr => hk.own i s h (hR i hr),
        fun i j s t hij ri rj => hk.disj i j s t hij (hR i ri) (hR j rj)⟩
    rcases step_on str term w k c with h | ⟨s0, e, s1, hs0, hc, h⟩
    · rw [h]; exact ⟨T, hsame⟩
    · rw [h]
      rcases call_effect hc with ⟨rfl, ht, -, -⟩ | ⟨name, v, t, rfl, -, hn63, hnew, rfl, ht⟩ | ⟨rfl, rfl, rfl⟩
      · refine ⟨T, hk.files, hk.num, hk.le, hk.nodup, hk.apart, ?_, ?_⟩
        · intro i s h hr
          rcases set_alive h with ⟨rfl, h9⟩ | ⟨-, h⟩
          · cases h9
            rw [ht]
            exact hk.own _ _ hs0 (hR _ hr)
          · exact hk.own i s h (hR i hr)
        · intro i j s t hij ri rj h1 h2 n hn
          rcases set_alive h1 with ⟨e1, h1⟩ | ⟨-, h1⟩
          · cases h1
            rw [ht] at hn
            rcases set_alive h2 with ⟨e2, h2⟩ | ⟨-, h2⟩
            · exact absurd (e1.symm.trans e2) hij
            · exact hk.disj i j s0 t hij (hR i ri) (hR j rj) (e1 ▸ hs0) h2 n hn
          · rcases set_alive h2 with ⟨e2, h2⟩ | ⟨-, h2⟩
            · cases h2
              rw [ht]
              exact hk.disj i j s s0 hij (hR i ri) (hR j rj) h1 (e2 ▸ hs0) n hn
            · exact hk.disj i j s t hij (hR i ri) (hR j rj) h1 h2 n hn
      · rw [hk.files, List.map_append, List.mem_append, not_or] at hnew
        have hown : ∀ i s, w.sessions[i]? = some (some s) → ¬ R i → name ∉ s.tmpfiles :=
          fun i s h hr hm => hnew.2 ((hk.own i s h hr).2 _ hm)
        refine ⟨T ++ [⟨name, true, v.rows⟩], ?_, ?_, ?_, ?_, ?_, ?_, ?_⟩
        · simp [hk.files]
        · simp [hk.num]
        · have := hk.le; show w.env.num + 1 ≤ 63; omega
        · rw [List.map_append, List.nodup_append]
          refine ⟨hk.nodup, by simp, ?_⟩
          intro a ha b hb
          rw [List.map_singleton, List.mem_singleton] at hb
          subst hb
          exact fun h => hnew.2 (h ▸ ha)
        · intro f hf
          rw [List.mem_append, List.mem_singleton] at hf
          rcases hf with hf | rfl
          · exact hk.apart f hf
          · exact hnew.1
        · intro i s h hr
          rcases set_alive h with ⟨rfl, h9⟩ | ⟨-, h⟩
          · cases h9
            obtain ⟨h1, h2⟩ := hk.own _ _ hs0 (hR _ hr)
            rw [ht]
            constructor
            · rw [List.nodup_append]
              refine ⟨h1, by simp, ?_⟩
              intro a ha b hb
              rw [List.mem_singleton] at hb
              subst hb
              exact fun h => hown _ _ hs0 (hR _ hr) (h ▸ ha)
            · intro n hn
              rw [List.mem_append, List.mem_singleton] at hn
              rw [List.map_append, List.mem_append]
              rcases hn with hn | rfl
              · exact .inl (h2 n hn)
              · exact .inr (by simp)
          · obtain ⟨h1, h2⟩ := hk.own _ _ h (hR _ hr)
            refine ⟨h1, fun n hn => ?_⟩
            rw [List.map_append, List.mem_append]
            exact .inl (h2 n hn)
        · intro i j s t hij ri rj h1 h2 n hn
          rcases set_alive h1 with ⟨e1, h1⟩ | ⟨-, h1⟩
          · cases h1
            rw [ht, List.mem_append, List.mem_singleton] at hn
            rcases set_alive h2 with ⟨e2, h2⟩ | ⟨-, h2⟩
            · exact absurd (e1.symm.trans e2) hij
            · rcases hn with hn | hn
              · exact hk.disj i j s0 t hij (hR i ri) (hR j rj) (e1 ▸ hs0) h2 n hn
              · exact hn ▸ hown j t h2 (hR j rj)
          · rcases set_alive h2 with ⟨e2, h2⟩ | ⟨-, h2⟩
            · cases h2
              rw [ht, List.mem_append, List.mem_singleton, not_or]
              exact ⟨hk.disj i j s s0 hij (hR i ri) (hR j rj) h1 (e2 ▸ hs0) n hn,
                fun h => hown i s h1 (hR i ri) (h ▸ hn)⟩
            · exact hk.disj i j s t hij (hR i ri) (hR j rj) h1 h2 n hn
      · have hk0 : ¬ R k := fun h => (hi k h _ rfl).1 rfl
        obtain ⟨o1, o2⟩ := hk.own k s1 hs0 hk0
        have hdisk : disk.filter (fun f => decide (f.name ∉ s1.tmpfiles)) = disk := by
          rw [List.filter_eq_self]
          intro f hf
          rw [decide_eq_true_eq]
          intro hm
          obtain ⟨g, hg, hgn⟩ := List.mem_map.1 (o2 _ hm)
          exact hk.apart g hg (hgn ▸ List.mem_map.2 ⟨f, hf, rfl⟩)
        have hlen := filter_length T s1.tmpfiles hk.nodup o1 o2
        rw [removeTmp_eq]
        refine ⟨T.filter (fun f => decide (f.name ∉ s1.tmpfiles)), ?_, ?_, ?_, ?_, ?_, ?_, ?_⟩
        · simp only [hk.files, List.filter_append, hdisk]
        · have := hk.num
          show _ = w.env.num - _
          omega
        · have := hk.le
          show w.env.num - _ ≤ 63
          omega
        · exact hk.nodup.sublist (List.Sublist.map _ List.filter_sublist)
        · exact fun f hf => hk.apart f (List.mem_of_mem_filter hf)
        · intro i s h hr
          rcases set_alive h with ⟨rfl, h⟩ | ⟨hne, h⟩
          · exact absurd (.inr rfl) hr
          · obtain ⟨h1, h2⟩ := hk.own i s h (hR i hr)
            refine ⟨h1, fun n hn => ?_⟩
            obtain ⟨f, hf, rfl⟩ := List.mem_map.1 (h2 n hn)
            refine List.mem_map.2 ⟨f, List.mem_filter.2 ⟨hf, ?_⟩, rfl⟩
            rw [decide_eq_true_eq]
            exact hk.disj i k s s1 (Ne.symm hne) (hR i hr) hk0 h hs0 _ hn
        · intro i j s t hij ri rj h1 h2 n hn
          rcases set_alive h1 with ⟨e1, h1⟩ | ⟨-, h1⟩
          · exact absurd (.inr (e1 ▸ rfl)) ri
          · rcases set_alive h2 with ⟨e2, h2⟩ | ⟨-, h2⟩
            · exact absurd (.inr (e2 ▸ rfl)) rj
            · exact hk.disj i j s t hij (hR i ri) (hR j rj) h1 h2 n hn

theorem idle_grow {R : Nat → Prop} {o : Op K} {p : List (Op K)} (hi : Idle R (o :: p)) (h : RemovesOnce (o :: p)) :
    Idle (grow R o) p := by
  intro i hr q hq c hc
  rcases hr with hr | rfl
  · exact hi i hr q (by simp [hq]) c hc
  · exact h.1 q hq c hc

/-- The sessions that have removed their files after a program. -/
def grown (R : Nat → Prop) (p : List (Op K)) : Nat → Prop := p.foldl grow R

theorem kept_run (str : K → Txt) (term : Txt) {disk : List (File K)} : ∀ (p : List (Op K)) {R : Nat → Prop} {w : World K}
    {T : List (File K)}, Kept disk R w T → Idle R p → RemovesOnce p → ∃ T', Kept disk (grown R p) (run str term w p) T'
  | [], _, _, T, hk, _, _ => ⟨T, hk⟩
  | o :: p, R, w, T, hk, hi, hr => by
    obtain ⟨T', h'⟩ := kept_step str term hk o (fun i h c hc => hi i h o (by simp) c hc)
    exact kept_run str term p h' (idle_grow hi hr) hr.2

theorem kept_start (disk : List (File K)) : Kept disk (fun _ => False) (start disk) [] :=
  ⟨by simp [start], by simp [start], by simp [start], by simp, by simp, by simp [start], by simp [start]⟩

theorem idle_start (p : List (Op K)) : Idle (fun _ => False) p := fun _ h => h.elim

end MLTK.Gp
