import Verif.Lemmas.Gnuplot
/-!
# Sessions with gnuplot (C177-C180)
-/
namespace MLTK.Props
open MLTK.Gp MLTK.Spec
open MLTK.Data (Res_bind_ok Res_bind_error Res_pure)
variable {K : Type}

/-! ### What is drawn, and over what -/

/-- The members `nplots` and `two_dim` agree with the picture on display. -/
private def Shows (s : Session) (p : Option Bool) : Prop :=
  (p = none → s.nplots = 0) ∧ ∀ d, p = some d → s.nplots > 0 ∧ s.twoDim = d

private theorem draw_cmd (str : K → Txt) (s : Session) (p : Option Bool) (hs : Shows s p) (title : Txt) (src : Source K) :
    drawLine str s title src = (beginning p (flat src)).toList ++ picture str s.pstyle s.smooth title src := by
  rw [drawLine_eq]
  congr 1
  unfold beginning head2 head3
  cases p with
  | none =>
    have := hs.1 rfl
    cases flat src <;> simp [this]
  | some d =>
    obtain ⟨h1, h2⟩ := hs.2 d rfl
    cases flat src <;> cases d <;> simp [h2, h1]

private theorem cmd_beginning (s : Session) (p : Option Bool) (hs : Shows s p) (hv : s.valid = true) (f : Bool) (t : Txt)
    (ht : Calm t) : Shows (cmd s ((beginning p f).toList ++ t)) (some f) ∧
      (cmd s ((beginning p f).toList ++ t)).valid = true ∧ (cmd s ((beginning p f).toList ++ t)).pstyle = s.pstyle ∧
      (cmd s ((beginning p f).toList ++ t)).smooth = s.smooth := by
  unfold beginning
  by_cases hp : p = some f
  · rw [if_pos hp, cmd_replot hv]
    refine ⟨⟨nofun, fun d hd => ?_⟩, hv, rfl, rfl⟩
    cases hd
    exact hs.2 f hp
  · rw [if_neg hp]
    cases f with
    | true =>
      rw [if_pos rfl, cmd_plot hv ht]
      exact ⟨⟨nofun, fun d hd => by cases hd; exact ⟨by simp, rfl⟩⟩, hv, rfl, rfl⟩
    | false =>
      rw [if_neg (by simp), cmd_splot hv ht]
      exact ⟨⟨nofun, fun d hd => by cases hd; exact ⟨by simp, rfl⟩⟩, hv, rfl, rfl⟩

/-- What the history says about the members. -/
private structure Agrees (style : Txt) (h : List (Call K × Bool)) (s : Session) : Prop where
  valid : s.valid = true
  pstyle : s.pstyle = styleInForce style h
  smooth : s.smooth = smoothInForce h
  shows : Shows s (shown h)
  calm1 : Calm s.pstyle
  calm2 : Calm s.smooth

private theorem setStyle_pick (t : Txt) : (if styles.all (fun k => !has k t) then "points".toList else t) =
    styleOr t := by
  unfold styleOr
  by_cases h : ∃ k ∈ ["lines", "points", "impulses", "dots", "steps", "boxes", "filledcurves", "histograms"], k.toList <:+: t
  · rw [if_pos h, if_neg]
    obtain ⟨k, hk, hi⟩ := h
    intro ha
    rw [List.all_eq_true] at ha
    have := ha k (by fin_cases hk <;> decide)
    rw [has_iff.2 hi] at this
    cases this
  · rw [if_neg h, if_pos]
    rw [List.all_eq_true]
    intro k hk
    rw [Bool.not_eq_true', Bool.eq_false_iff]
    intro hh
    apply h
    have hi := has_iff.1 hh
    unfold styles at hk
    fin_cases hk
    · exact ⟨_, by decide, hi⟩
    · exact ⟨_, by decide, hi⟩
    · exact ⟨"lines", by decide, List.IsInfix.trans (by decide) hi⟩
    · exact ⟨_, by decide, hi⟩
    · exact ⟨_, by decide, hi⟩
    · exact ⟨_, by decide, hi⟩
    · exact ⟨"steps", by decide, List.IsInfix.trans (by decide) hi⟩
    · exact ⟨"steps", by decide, List.IsInfix.trans (by decide) hi⟩
    · exact ⟨_, by decide, hi⟩
    · exact ⟨_, by decide, hi⟩
    · exact ⟨_, by decide, hi⟩

private theorem setSmooth_pick (t : Txt) :
    (if ["unique", "frequency", "csplines", "acsplines", "bezier", "sbezier"].all (fun k => !has k t) then ([] : Txt) else t) =
    smoothOr t := by
  unfold smoothOr
  by_cases h : ∃ k ∈ ["unique", "frequency", "csplines", "bezier"], k.toList <:+: t
  · rw [if_pos h, if_neg]
    obtain ⟨k, hk, hi⟩ := h
    intro ha
    rw [List.all_eq_true] at ha
    have := ha k (by fin_cases hk <;> decide)
    rw [has_iff.2 hi] at this
    cases this
  · rw [if_neg h, if_pos]
    rw [List.all_eq_true]
    intro k hk
    rw [Bool.not_eq_true', Bool.eq_false_iff]
    intro hh
    apply h
    have hi := has_iff.1 hh
    fin_cases hk
    · exact ⟨_, by decide, hi⟩
    · exact ⟨_, by decide, hi⟩
    · exact ⟨_, by decide, hi⟩
    · exact ⟨"csplines", by decide, List.IsInfix.trans (by decide) hi⟩
    · exact ⟨_, by decide, hi⟩
    · exact ⟨"bezier", by decide, List.IsInfix.trans (by decide) hi⟩

private theorem pick_calm {c : Prop} [Decidable c] {t u : Txt} (ht : Calm t) (hu : Calm u) : Calm (if c then t else u) := by
  split <;> assumption

private theorem new_agrees (str : K → Txt) (term style : Txt) (hstr : ∀ k, Plain (str k)) (hterm : Plain term) (hst : Calm style) :
    Agrees style ([] : List (Call K × Bool)) (newSession str term style) := by
  unfold newSession
  rw [cmds_plain _ _ (lines_plain str term hstr hterm .showOnScreen trivial) rfl]
  refine ⟨rfl, ?_, rfl, ⟨fun _ => rfl, nofun⟩, ?_, by unfold setStyle; simp only; decide⟩
  · exact setStyle_pick style
  · unfold setStyle
    simp only
    exact pick_calm (by decide) hst

private theorem picture_calm (str : K → Txt) (hstr : ∀ k, Plain (str k)) {style smooth title : Txt} {src : Source K}
    (h1 : Calm style) (h2 : Calm smooth) (h3 : Calm title) (h4 : CalmSource src) : Calm (picture str style smooth title src) :=
  ⟨picture_free str _ _ _ _ (.inl rfl) (fun k => (plain_calm (hstr k)).1) h1.1 h2.1 h3.1 src h4,
    picture_free str _ _ _ _ (.inr rfl) (fun k => (plain_calm (hstr k)).2) h1.2 h2.2 h3.2 src h4⟩

private theorem Shows_congr {s s' : Session} {p : Option Bool} (h : Shows s p) (h1 : s'.nplots = s.nplots)
    (h2 : s'.twoDim = s.twoDim) : Shows s' p := by
  unfold Shows
  rw [h1, h2]
  exact h

private theorem history_agrees (str : K → Txt) (term style : Txt) (hstr : ∀ k, Plain (str k)) (hterm : Plain term)
    (hst : Calm style) {h : List (Call K × Bool)} {s : Session} (H : History str term style h s) :
    (∀ c ∈ h, QuietCall c.1) → Agrees style h s := by
  induction H with
  | new => exact fun _ => new_agrees str term style hstr hterm hst
  | @threw h s e c f _ hc ih =>
    intro hq
    have A := ih (fun c hc => hq c (by simp [hc]))
    have : (c = .resetPlot → False) ∧ (c = .resetAll → False) ∧ (∀ t, c = .style t → False) ∧ (∀ t, c = .smooth t → False) ∧
        (c = .unsmooth → False) := by
      refine ⟨?_, ?_, ?_, ?_, ?_⟩ <;> intros <;> subst_vars <;> cases hc
    obtain ⟨n1, n2, n3, n4, n5⟩ := this
    refine ⟨A.valid, ?_, ?_, ?_, A.calm1, A.calm2⟩
    · rw [A.pstyle]
      unfold styleInForce
      rw [List.foldl_append]
      cases c <;> first | rfl | (exfalso; first | exact n2 rfl | exact n3 _ rfl)
    · rw [A.smooth]
      unfold smoothInForce
      rw [List.foldl_append]
      cases c <;> first | rfl | (exfalso; first | exact n2 rfl | exact n4 _ rfl | exact n5 rfl)
    · have : shown (h ++ [(c, false)]) = shown h := by
        unfold shown
        simp only [List.foldl_append, List.foldl_cons, List.foldl_nil]
        cases c <;> first | rfl | (exfalso; first | exact n1 rfl | exact n2 rfl)
      rw [this]; exact A.shows
  | @done h s e c e' s' _ hc ih =>
    intro hq
    have A := ih (fun c hc => hq c (by simp [hc]))
    have hqc : QuietCall c := hq (c, true) (by simp)
    obtain ⟨hv, hp, hsm, hsh, c1, c2⟩ := A
    cases c with
    | set c =>
      cases hc
      rw [cmds_plain _ _ (lines_plain str term hstr hterm c hqc) hv]
      exact ⟨hv, by simpa [styleInForce] using hp, by simpa [smoothInForce] using hsm,
        by have := Shows_congr (s' := { s with sent := s.sent ++ lines str term c }) hsh rfl rfl; simpa [shown] using this, c1, c2⟩
    | style t =>
      cases hc
      refine ⟨hv, ?_, by simpa [smoothInForce, setStyle] using hsm, ?_, ?_, c2⟩
      · have := setStyle_pick t
        unfold setStyle styleInForce
        simp only [List.foldl_append, List.foldl_cons, List.foldl_nil]
        exact this
      · have := Shows_congr (s' := setStyle s t) hsh rfl rfl
        simpa [shown] using this
      · exact pick_calm (by decide) hqc
    | smooth t =>
      cases hc
      refine ⟨hv, by simpa [styleInForce, setSmooth] using hp, ?_, ?_, c1, ?_⟩
      · have := setSmooth_pick t
        unfold setSmooth smoothInForce
        simp only [List.foldl_append, List.foldl_cons, List.foldl_nil]
        exact this
      · have := Shows_congr (s' := setSmooth s t) hsh rfl rfl
        simpa [shown] using this
      · exact pick_calm (by decide) hqc
    | unsmooth =>
      cases hc
      refine ⟨hv, by simpa [styleInForce] using hp, by simp [smoothInForce], ?_, c1, by simp only; decide⟩
      have := Shows_congr (s' := { s with smooth := [] }) hsh rfl rfl
      simpa [shown] using this
    | replot =>
      cases hc
      by_cases hn : s.nplots > 0
      · rw [if_pos hn]
        have hr : cmd s "replot".toList = { s with sent := s.sent ++ ["replot".toList] } := by
          unfold cmd
          simp only [hv, Bool.not_true, Bool.false_eq_true, if_false]
          rw [if_pos (has_iff.2 (by decide))]
        rw [hr]
        exact ⟨hv, by simpa [styleInForce] using hp, by simpa [smoothInForce] using hsm,
          by have := Shows_congr (s' := { s with sent := s.sent ++ ["replot".toList] }) hsh rfl rfl; simpa [shown] using this, c1, c2⟩
      · rw [if_neg hn]
        exact ⟨hv, by simpa [styleInForce] using hp, by simpa [smoothInForce] using hsm, by simpa [shown] using hsh, c1, c2⟩
    | resetPlot =>
      cases hc
      exact ⟨hv, by simpa [styleInForce] using hp, by simpa [smoothInForce] using hsm,
        by simp [shown, Shows], c1, c2⟩
    | resetAll =>
      have h1 := cmds_plain ["reset".toList, "clear".toList] { s with nplots := 0 } (by decide) hv
      unfold call at hc
      simp only [h1, Except.ok.injEq, Prod.mk.injEq] at hc
      have h2 := cmds_plain _ { s with sent := s.sent ++ ["reset".toList, "clear".toList], nplots := 0, pstyle := "points".toList, smooth := [] }
        (lines_plain str term hstr hterm .showOnScreen trivial) hv
      rw [← hc.2, h2]
      exact ⟨hv, by simp [styleInForce], by simp [smoothInForce], by simp [shown, Shows], by simp only; decide,
        by simp only; decide⟩
    | draw src title =>
      obtain ⟨s1, h1, h2⟩ := Aos.bind_inv hc
      cases h2
      rw [draw_ok h1, draw_cmd str s (shown h) hsh]
      have hpc := picture_calm str hstr c1 c2 hqc.2 hqc.1
      obtain ⟨a1, a2, a3, a4⟩ := cmd_beginning s (shown h) hsh hv (flat src) _ hpc
      exact ⟨a2, by rw [a3]; simpa [styleInForce] using hp, by rw [a4]; simpa [smoothInForce] using hsm,
        by simpa [shown] using a1, by rw [a3]; exact c1, by rw [a4]; exact c2⟩
    | vectors mk v title =>
      obtain ⟨-, -, name, rfl, -, -, rfl⟩ := vectors_ok hc
      rw [draw_cmd str s (shown h) hsh]
      have hf : flat (readBack name v) = flatVectors v := by cases v <;> rfl
      have hcs : CalmSource (readBack name v) := by cases v <;> exact hqc.1 name rfl
      have hpc := picture_calm str hstr c1 c2 hqc.2 hcs
      obtain ⟨a1, a2, a3, a4⟩ := cmd_beginning { s with tmpfiles := s.tmpfiles ++ [name] } (shown h)
        (Shows_congr hsh rfl rfl) hv (flat (readBack name v)) _ hpc
      rw [hf] at a1
      exact ⟨a2, by rw [a3]; simpa [styleInForce] using hp, by rw [a4]; simpa [smoothInForce] using hsm,
        by rw [hf]; simpa [shown] using a1, by rw [a3]; exact c1, by rw [a4]; exact c2⟩
    | removeTmp =>
      cases hc
      exact ⟨hv, by simpa [styleInForce] using hp, by simpa [smoothInForce] using hsm, by simpa [shown] using hsh, c1, c2⟩

/-- C177.  In a session whose texts never contain a word that could be taken for a drawing command, every drawing sends one line:
it begins with "replot" if a picture of its kind is on display, else with "plot" or "splot"; then comes what is drawn, with the
style and smoothing in force.  Missing from C177: sessions with such texts or with the multiplot mode (see the refutations). -/
theorem C177_joined_partial (str : K → Txt) (term style : Txt) (hstr : ∀ k, Plain (str k)) (hterm : Plain term)
    (hst : Calm style) {h : List (Call K × Bool)} {s : Session} (H : History str term style h s)
    (hq : ∀ c ∈ h, QuietCall c.1) (e e' : Env K) (s' : Session) (title : Txt) :
    (∀ src, call str term e s (.draw src title) = .ok (e', s') → e' = e ∧ s'.sent = s.sent ++
      [(beginning (shown h) (flat src)).toList ++ picture str (styleInForce style h) (smoothInForce h) title src]) ∧
    ∀ mk v, call str term e s (.vectors mk v title) = .ok (e', s') → ∃ name, mk = some name ∧ s'.sent = s.sent ++
      [(beginning (shown h) (flatVectors v)).toList ++
        picture str (styleInForce style h) (smoothInForce h) title (readBack name v)] := by
  have A := history_agrees str term style hstr hterm hst H hq
  constructor
  · intro src hc
    obtain ⟨s1, h1, h2⟩ := Aos.bind_inv hc
    cases h2
    refine ⟨rfl, ?_⟩
    rw [draw_ok h1, draw_cmd str s (shown h) A.shows, cmd_sent s A.valid, A.pstyle, A.smooth]
  · intro mk v hc
    obtain ⟨-, -, name, rfl, -, -, rfl⟩ := vectors_ok hc
    have hf : flat (readBack name v) = flatVectors v := by cases v <;> rfl
    refine ⟨name, rfl, ?_⟩
    rw [draw_cmd str s (shown h) A.shows, hf, cmd_sent { s with tmpfiles := s.tmpfiles ++ [name] } A.valid, A.pstyle, A.smooth]

/-- C177 (`replot`).  It repeats the picture on display and sends nothing if there is none. -/
theorem C177_replot_partial (str : K → Txt) (term style : Txt) (hstr : ∀ k, Plain (str k)) (hterm : Plain term)
    (hst : Calm style) {h : List (Call K × Bool)} {s : Session} (H : History str term style h s)
    (hq : ∀ c ∈ h, QuietCall c.1) (e e' : Env K) (s' : Session) (hc : call str term e s .replot = .ok (e', s')) :
    s'.sent = s.sent ++ (if (shown h).isSome then ["replot".toList] else []) := by
  have A := history_agrees str term style hstr hterm hst H hq
  cases hc
  cases hp : shown h with
  | none => rw [if_neg (by rw [A.shows.1 hp]; simp)]; simp
  | some d =>
    rw [if_pos (A.shows.2 d hp).1, cmd_sent s A.valid]
    simp

/-- C177 (which drawings succeed).  The names on disk being different, a drawing from a file succeeds just if the file is on disk and
can be read, every drawing of a function or an image succeeds, and a drawing that fails throws. -/
theorem C177_file (str : K → Txt) (term : Txt) (e : Env K) (s : Session) (src : Source K) (title : Txt)
    (hnd : (e.files.map (·.name)).Nodup) :
    ((∃ r, call str term e s (.draw src title) = .ok r) ↔
      ∀ f, userFile src = some f → ∃ g ∈ e.files, g.name = f ∧ g.readable = true) ∧
    ∀ fault, call str term e s (.draw src title) = .error fault → fault = .exception := by
  have key : ∀ f, available e f = true ↔ ∃ g ∈ e.files, g.name = f ∧ g.readable = true := by
    intro f
    unfold available
    cases hfd : e.files.find? (fun g => decide (g.name = f)) with
    | none =>
      rw [List.find?_eq_none] at hfd
      constructor
      · intro h; cases h
      · rintro ⟨g, hg, hn, -⟩
        exact absurd (by simpa using hn) (hfd g hg)
    | some g =>
      have hm := List.mem_of_find?_eq_some hfd
      have hn : g.name = f := by simpa using List.find?_some hfd
      constructor
      · exact fun h => ⟨g, hm, hn, h⟩
      · rintro ⟨g', hg', hn', hr⟩
        have : g = g' := List.inj_on_of_nodup_map hnd hm hg' (by rw [hn, hn'])
        rw [this]; exact hr
  have hcall : call str term e s (.draw src title) = (draw str e s src title).map (fun s => (e, s)) := by
    cases h : draw str e s src title <;> simp only [call, h] <;> rfl
  have hfile : src.file = userFile src := by cases src <;> rfl
  rw [hcall]
  unfold draw
  rw [hfile]
  cases hu : userFile src with
  | none => exact ⟨⟨fun _ => nofun, fun _ => ⟨_, rfl⟩⟩, nofun⟩
  | some f =>
    dsimp only
    by_cases ha : available e f = true
    · rw [if_pos ha]
      refine ⟨⟨fun _ f' hf' => ?_, fun _ => ⟨_, rfl⟩⟩, nofun⟩
      cases hf'
      exact (key f).1 ha
    · rw [if_neg ha]
      refine ⟨⟨nofun, fun h => absurd ((key f).2 (h f rfl)) ha⟩, fun fault h => ?_⟩
      cases h
      rfl

/-- One file that can be read and one that cannot. -/
example : (([⟨['a'], true, []⟩, ⟨['b'], false, []⟩] : List (File Nat)).map (·.name)).Nodup := by decide

private def noNum : Nat → Txt := fun n => Nat.toDigits 10 n

/-- A history that meets the conditions: a flat curve, then a file with three columns and again a curve. -/
example : ∃ h s, History noNum "x11".toList "lines".toList h s ∧ (∀ c ∈ h, QuietCall c.1) ∧ shown h = some true ∧ s.sent.length = 4 :=
  ⟨_, _, .done (c := .draw (.slope 2 3) []) (e := ⟨[], 0, 0⟩) (.done (c := .set (.title "two lines".toList)) (e := ⟨[], 0, 0⟩)
    .new rfl) rfl, by
      intro c hc
      simp only [List.nil_append, List.cons_append, List.mem_cons, List.not_mem_nil, or_false] at hc
      rcases hc with rfl | rfl
      · exact (by decide : Plain "two lines".toList)
      · exact ⟨trivial, by decide⟩, by decide, by decide +kernel⟩

/-- C177 in full is refuted by a title with the word "plot": the first curve of the session is sent with "replot", although nothing
has been drawn. -/
theorem C177_title_refuted : ∃ h s s', History noNum "x11".toList "lines".toList h s ∧ shown h = none ∧
    call noNum "x11".toList ⟨[], 0, 0⟩ s (.draw (.equation "x".toList) []) = .ok (⟨[], 0, 0⟩, s') ∧
    s'.sent = s.sent ++ ["replot x title \"f(x) = x\" with lines".toList] := by
  refine ⟨_, _, _, .done (c := .set (.title "my plot".toList)) (e := ⟨[], 0, 0⟩) .new rfl, rfl, rfl, ?_⟩
  decide +kernel

/-- C177 in full is refuted by the title of a drawing that contains the word "splot": the next curve does not join it. -/
theorem C177_lost_refuted : ∃ h s s', History noNum "x11".toList "lines".toList h s ∧ shown h = some true ∧
    call noNum "x11".toList ⟨[], 0, 0⟩ s (.draw (.equation "x".toList) []) = .ok (⟨[], 0, 0⟩, s') ∧
    s'.sent = s.sent ++ ["plot x title \"f(x) = x\" with lines".toList] := by
  refine ⟨_, _, _, .done (c := .draw (.slope 1 0) "splot".toList) (e := ⟨[], 0, 0⟩) .new rfl, rfl, rfl, ?_⟩
  decide +kernel

private theorem multi_sent (str : K → Txt) (term : Txt) (e : Env K) (s0 s : Session)
    (h1 : call str term e s0 (.set .multiplot) = .ok (e, s)) : s = cmd s0 "set multiplot".toList := by
  have h2 : call str term e s0 (.set .multiplot) = .ok (e, cmd s0 "set multiplot".toList) := by
    rw [call]
    simp only [lines, cmds, List.foldl]
  rw [h1] at h2
  exact congrArg Prod.snd (Except.ok.inj h2)

private theorem new_fields (str : K → Txt) (term style : Txt) (hterm : Plain term) (hstr : ∀ k, Plain (str k)) :
    (newSession str term style).valid = true ∧ (newSession str term style).nplots = 0 := by
  unfold newSession
  rw [cmds_plain _ _ (lines_plain str term hstr hterm .showOnScreen trivial) rfl]
  unfold setStyle
  split <;> exact ⟨rfl, rfl⟩

private theorem multi_state (s0 : Session) (hv : s0.valid = true ∧ s0.nplots = 0) :
    (cmd s0 "set multiplot".toList).nplots = 1 ∧ (cmd s0 "set multiplot".toList).twoDim = true ∧
      (cmd s0 "set multiplot".toList).valid = true := by
  unfold cmd
  simp only [hv.1, Bool.not_true, Bool.false_eq_true, if_false]
  rw [if_neg (has_not (by decide)), if_neg (has_not (by decide)), if_pos (has_iff.2 (by decide))]
  simp [hv]

/-- C177 in full is refuted by the multiplot mode: in every new session that has entered it, the first flat drawing, whatever is
drawn, begins with "replot". -/
theorem C177_multiplot_refuted (str : K → Txt) (term style : Txt) (hterm : Plain term) (hstr : ∀ k, Plain (str k)) (e e' : Env K)
    (src : Source K) (title : Txt) (hf : flat src = true) (s s' : Session)
    (h1 : call str term e (newSession str term style) (.set .multiplot) = .ok (e, s))
    (h2 : call str term e s (.draw src title) = .ok (e', s')) :
    ∃ rest, s'.sent = s.sent ++ ["replot ".toList ++ rest] := by
  obtain ⟨s1, h3, h4⟩ := Aos.bind_inv h2
  have he : s' = s1 := (congrArg Prod.snd (Except.ok.inj h4)).symm
  have hs := multi_sent str term e _ s h1
  have hm : s.nplots = 1 ∧ s.twoDim = true ∧ s.valid = true := hs ▸ multi_state _ (new_fields str term style hterm hstr)
  clear hs h1 h2 h4
  rw [he, draw_ok h3, cmd_sent s hm.2.2, drawLine_eq, hf, if_pos rfl, head2, if_pos ⟨by omega, hm.2.1⟩]
  exact ⟨picture str s.pstyle s.smooth title src, Eq.refl _⟩

end MLTK.Props
