import Verif.Props.VisualPlots
import Verif.Lemmas.Point
import Verif.Lemmas.AosRun
/-!
# C136-C139: ranges, earlier calls, returned scripts and settings
-/
namespace MLTK.Props
open MLTK.Spec MLTK.Vis
open MLTK.Data (Res_bind_ok Res_bind_error Res_pure)

section
variable {K : Type} [Field K] [LinearOrder K] [IsStrictOrderedRing K] [FloorRing K]

theorem round_near (v : K) : NearWhole v (Vis.round v) := by
  unfold Vis.round
  by_cases h : 0 ≤ v
  · rw [if_pos h]
    have h1 := Int.floor_le (v + 1 / 2)
    have h2 := Int.lt_floor_add_one (v + 1 / 2)
    exact ⟨⟨_, rfl⟩, by linarith, by linarith⟩
  · rw [if_neg h]
    have h1 := Int.le_ceil (v - 1 / 2)
    have h2 := Int.ceil_lt_add_one (v - 1 / 2)
    exact ⟨⟨_, rfl⟩, by linarith, by linarith⟩

theorem round_mono {u v : K} (h : u ≤ v) : Vis.round u ≤ Vis.round v := by
  unfold Vis.round
  by_cases hu : 0 ≤ u
  · have hv : 0 ≤ v := le_trans hu h
    rw [if_pos hu, if_pos hv]
    exact Int.cast_le.2 (Int.floor_le_floor (by linarith))
  · rw [if_neg hu]
    by_cases hv : 0 ≤ v
    · rw [if_pos hv]
      have h1 : ⌈u - 1 / 2⌉ ≤ 0 := Int.ceil_le.2 (by push_cast; linarith)
      have h2 : (0 : ℤ) ≤ ⌊v + 1 / 2⌋ := Int.le_floor.2 (by push_cast; linarith)
      exact Int.cast_le.2 (le_trans h1 h2)
    · rw [if_neg hv]
      exact Int.cast_le.2 (Int.ceil_le_ceil (by linarith))

theorem round_whole (n : ℤ) : Vis.round (n : K) = n := by
  unfold Vis.round
  by_cases h : (0 : K) ≤ (n : K)
  · rw [if_pos h, Int.cast_inj, Int.floor_eq_iff]
    constructor <;> linarith
  · rw [if_neg h, Int.cast_inj, Int.ceil_eq_iff]
    constructor <;> linarith

/-- **C136 (partial)** With a scale of at least 1 the limits shown are whole numbers and cut off less than one half: every
value is at least the lower limit minus 1/2 and at most the upper limit plus 1/2, and whole values lie within the limits. -/
theorem C136_covers_partial (tiny big scale : K) (col : List K) (ht : 0 < tiny) (hs : 1 ≤ scale) :
    Whole (axisRange tiny big scale col).1 ∧ Whole (axisRange tiny big scale col).2 ∧
      ∀ v ∈ col, (axisRange tiny big scale col).1 - 1 / 2 ≤ v ∧ v ≤ (axisRange tiny big scale col).2 + 1 / 2 ∧
        (Whole v → (axisRange tiny big scale col).1 ≤ v ∧ v ≤ (axisRange tiny big scale col).2) := by
  have hlo : ∀ v ∈ col, PointM.pmin big col + (if PointM.pmin big col > 0 then (1 - scale) * PointM.pmin big col
      else -(1 - scale) * PointM.pmin big col) ≤ v := by
    intro v hv
    have h1 := PointM.pmin_lb big col v hv
    split
    · rename_i h
      have : (1 - scale) * PointM.pmin big col ≤ 0 := mul_nonpos_of_nonpos_of_nonneg (by linarith) h.le
      linarith
    · rename_i h
      have : -(1 - scale) * PointM.pmin big col ≤ 0 := mul_nonpos_of_nonneg_of_nonpos (by linarith) (not_lt.1 h)
      linarith
  have hhi : ∀ v ∈ col, v ≤ scale * PointM.pmax tiny col := by
    intro v hv
    have h1 := PointM.pmax_ub tiny col v hv
    have h2 := PointM.pmax_ge tiny col
    have : PointM.pmax tiny col ≤ scale * PointM.pmax tiny col := le_mul_of_one_le_left (by linarith) hs
    linarith
  refine ⟨(round_near _).1, (round_near _).1, ?_⟩
  intro v hv
  refine ⟨?_, ?_, ?_⟩
  · have := (round_near (PointM.pmin big col + (if PointM.pmin big col > 0 then (1 - scale) * PointM.pmin big col
      else -(1 - scale) * PointM.pmin big col))).2.1
    exact le_trans this (hlo v hv)
  · have := (round_near (scale * PointM.pmax tiny col)).2.2
    exact le_trans (hhi v hv) this
  · rintro ⟨n, rfl⟩
    have h1 := round_mono (hlo _ hv)
    have h2 := round_mono (hhi _ hv)
    rw [round_whole] at h1 h2
    exact ⟨h1, h2⟩

/-- **C136 (partial)** With scale 1 the limits are tight: they are the whole numbers nearest to the smallest and the largest
value, when the column has values, none is above `big` and one is positive. -/
theorem C136_tight_partial (tiny big : K) (col : List K) (ht : 0 < tiny) (hne : col ≠ []) (hb : ∀ v ∈ col, v ≤ big)
    (hp : ∃ v ∈ col, tiny ≤ v) :
    (∃ lo ∈ col, (∀ v ∈ col, lo ≤ v) ∧ NearWhole lo (axisRange tiny big 1 col).1) ∧
    (∃ hi ∈ col, (∀ v ∈ col, v ≤ hi) ∧ NearWhole hi (axisRange tiny big 1 col).2) := by
  constructor
  · have hm : PointM.pmin big col ∈ col := by
      rcases PointM.pmin_mem big col with h | h
      · obtain ⟨v, hv⟩ := List.exists_mem_of_ne_nil _ hne
        have h1 := PointM.pmin_lb big col v hv
        have h2 := hb v hv
        have : v = PointM.pmin big col := le_antisymm (by rw [h]; exact h2) h1
        rw [← this]; exact hv
      · exact h
    refine ⟨_, hm, PointM.pmin_lb big col, ?_⟩
    have := round_near (PointM.pmin big col)
    simpa [axisRange] using this
  · have hm : PointM.pmax tiny col ∈ col := by
      rcases PointM.pmax_mem tiny col with h | h
      · obtain ⟨v, hv, h2⟩ := hp
        have h1 := PointM.pmax_ub tiny col v hv
        have : v = PointM.pmax tiny col := le_antisymm h1 (by rw [h]; exact h2)
        rw [← this]; exact hv
      · exact h
    refine ⟨_, hm, PointM.pmax_ub tiny col, ?_⟩
    have := round_near (PointM.pmax tiny col)
    simpa [axisRange] using this

/-- **C136 (refuted)** A sample is left out of the plot: the values 0.6 and 2.4 are shown on the interval from 1 to 2. -/
theorem C136_cut_refuted : axisRange (1 / 1000 : ℚ) 1000 1 [3 / 5, 12 / 5] = (1, 2) := by decide +kernel

/-- **C136 (refuted)** Without a positive value the upper limit is 0, far from the values. -/
theorem C136_negative_refuted : axisRange (1 / 1000 : ℚ) 1000 1 [-50, -40] = (-50, 0) := by decide +kernel

example : axisRange (1 / 1000 : ℚ) 1000 (11 / 10) [-20, 5, 30] = (-22, 33) := by decide +kernel

end

section
variable {K : Type} [Field K] [LinearOrder K] [FloorRing K]

/-- The arguments of a drawing call. -/
def callArgs : Call K → Args K
  | .reg1 a _ | .reg1h a _ _ | .two a _ _ | .twoPoints a _ _ | .twoH a _ _ _ | .reg2 a _ _ | .reg2h a _ _ _ | .three a _ _ _
  | .threePoints a _ _ _ | .threeH a _ _ _ _ => a

/-- The settings have no range left. -/
def Cleared (c : Cfg) : Prop := c.xr = [] ∧ c.yr = [] ∧ c.zr = []

/-- `P` holds of the result, if there is one. -/
def Holds {α : Type} (P : α → Prop) (r : Res α) : Prop := ∀ a, r = .ok a → P a

theorem Holds_bind {α β : Type} {P : β → Prop} {r : Res α} {f : α → Res β} (h : ∀ a, Holds P (f a)) : Holds P (r >>= f) := by
  intro b hb
  cases r with
  | error e => rw [Res_bind_error] at hb; cases hb
  | ok a => rw [Res_bind_ok] at hb; exact h a b hb

theorem Holds_ok {α : Type} {P : α → Prop} {a : α} (h : P a) : Holds P (.ok a : Res α) := by
  intro b hb; cases hb; exact h

theorem Holds_error {α : Type} {P : α → Prop} {e : Fault} : Holds P (.error e : Res α) := by
  intro b hb; cases hb

/-- What every drawing call does with the settings. -/
def Shape (a : Args K) (c : Cfg) (o : Out) : Prop :=
  (∃ out xr yr zr zl cmd, o.sent = Preamble.text ⟨a.save, a.fmt, out, c.terminal, a.title, xr, yr, zr, a.xl, a.yl, zl⟩ ++ cmd) ∧
  Cleared o.cfg ∧ o.cfg.terminal = c.terminal

theorem shape_finish (a : Args K) (c : Cfg) (cmd out zl xr yr zr : Str) :
    Shape a c (finish cmd (configurePlot out a.fmt a.title a.save a.xl a.yl zl { c with xr := xr, yr := yr, zr := zr })) := by
  refine ⟨⟨out, xr, yr, zr, zl, cmd, ?_⟩, ⟨rfl, rfl, rfl⟩, rfl⟩
  simp only [finish, fetch_text, configurePlot]

theorem draw_shape (e : Env K) (c : Cfg) (p : Call K) : Holds (Shape (callArgs p) c) (draw e c p) := by
  cases p with
  | reg1 a x =>
    simp only [draw, plot1DRegresion, configureRange, bind_assoc, Res_pure, Res_bind_ok]
    repeat (refine Holds_bind (fun _ => ?_))
    exact Holds_ok (shape_finish a c _ _ _ _ _ _)
  | reg1h a x s =>
    simp only [draw, plot1DRegresionHyperplane, configureRange, bind_assoc, Res_pure, Res_bind_ok]
    repeat (refine Holds_bind (fun _ => ?_))
    exact Holds_ok (shape_finish a c _ _ _ _ _ _)
  | two a x y =>
    simp only [draw, plot2D, configureRange, bind_assoc, Res_pure, Res_bind_ok]
    repeat (refine Holds_bind (fun _ => ?_))
    exact Holds_ok (shape_finish a c _ _ _ _ _ _)
  | twoPoints a x y =>
    simp only [draw, plot2DPoints]
    split
    · exact Holds_error
    · exact Holds_ok (shape_finish a c _ _ _ _ _ _)
  | twoH a x y s =>
    simp only [draw, plot2DwithHyperplane, configureRange, bind_assoc, Res_pure, Res_bind_ok]
    split
    · exact Holds_error
    · repeat (refine Holds_bind (fun _ => ?_))
      exact Holds_ok (shape_finish a c _ _ _ _ _ _)
  | reg2 a x y =>
    simp only [draw, plot2DRegresion, configureRange, bind_assoc, Res_pure, Res_bind_ok]
    repeat (refine Holds_bind (fun _ => ?_))
    exact Holds_ok (shape_finish a c _ _ _ _ _ _)
  | reg2h a x y s =>
    simp only [draw, plot2DRegresionHyperplane, configureRange, bind_assoc, Res_pure, Res_bind_ok]
    repeat (refine Holds_bind (fun _ => ?_))
    exact Holds_ok (shape_finish a c _ _ _ _ _ _)
  | three a x y z =>
    simp only [draw, plot3D, configureRange, bind_assoc, Res_pure, Res_bind_ok]
    repeat (refine Holds_bind (fun _ => ?_))
    exact Holds_ok (shape_finish a c _ _ _ _ _ _)
  | threePoints a x y z =>
    simp only [draw, plot3DPoints]
    split
    · exact Holds_error
    · exact Holds_ok (shape_finish a c _ _ _ _ _ _)
  | threeH a x y z s =>
    simp only [draw, plot3DwithHyperplane, configureRange, bind_assoc, Res_pure, Res_bind_ok]
    split
    · exact Holds_error
    · repeat (refine Holds_bind (fun _ => ?_))
      exact Holds_ok (shape_finish a c _ _ _ _ _ _)

theorem map_bind_res {α β γ : Type} (r : Res α) (f : α → Res β) (g : β → γ) :
    Except.map g (r >>= f) = r >>= fun a => Except.map g (f a) := by
  cases r <;> rfl

/-- A drawing call reads the terminal and the ranges left over, nothing else. -/
theorem draw_same (e : Env K) (c c' : Cfg) (p : Call K) (hx : c.xr = c'.xr) (hy : c.yr = c'.yr) (hz : c.zr = c'.zr)
    (ht : c.terminal = c'.terminal) :
    (draw e c p).map (fun o => (o.sent, o.script)) = (draw e c' p).map (fun o => (o.sent, o.script)) := by
  cases c; cases c'
  simp only at hx hy hz ht
  subst hx hy hz ht
  cases p with
  | reg1 a x =>
    simp only [draw, plot1DRegresion, configureRange, bind_assoc, Res_pure, Res_bind_ok, map_bind_res]
    simp only [Except.map, finish, fetchConfigs, configurePlot]
    try rfl
  | reg1h a x s =>
    simp only [draw, plot1DRegresionHyperplane, configureRange, bind_assoc, Res_pure, Res_bind_ok, map_bind_res]
    simp only [Except.map, finish, fetchConfigs, configurePlot]
    try rfl
  | two a x y =>
    simp only [draw, plot2D, configureRange, bind_assoc, Res_pure, Res_bind_ok, map_bind_res]
    simp only [Except.map, finish, fetchConfigs, configurePlot]
    try rfl
  | twoPoints a x y =>
    simp only [draw, plot2DPoints]
    split
    · rfl
    · simp only [Except.map, finish, fetchConfigs, configurePlot]
      try rfl
  | twoH a x y s =>
    by_cases hcl : e.d.classification = true
    · simp only [draw, plot2DwithHyperplane, hcl, Bool.not_true, Bool.false_eq_true, if_false, configureRange, bind_assoc, Res_pure, Res_bind_ok,
        map_bind_res]
      simp only [Except.map, finish, fetchConfigs, configurePlot]
      try rfl
    · simp only [draw, plot2DwithHyperplane, hcl, Bool.not_false, if_true]
  | reg2 a x y =>
    simp only [draw, plot2DRegresion, configureRange, bind_assoc, Res_pure, Res_bind_ok, map_bind_res]
    simp only [Except.map, finish, fetchConfigs, configurePlot]
    try rfl
  | reg2h a x y s =>
    simp only [draw, plot2DRegresionHyperplane, configureRange, bind_assoc, Res_pure, Res_bind_ok, map_bind_res]
    simp only [Except.map, finish, fetchConfigs, configurePlot]
    try rfl
  | three a x y z =>
    simp only [draw, plot3D, configureRange, bind_assoc, Res_pure, Res_bind_ok, map_bind_res]
    simp only [Except.map, finish, fetchConfigs, configurePlot]
    try rfl
  | threePoints a x y z =>
    simp only [draw, plot3DPoints]
    split
    · rfl
    · simp only [Except.map, finish, fetchConfigs, configurePlot]
      try rfl
  | threeH a x y z s =>
    by_cases hcl : e.d.classification = true
    · simp only [draw, plot3DwithHyperplane, hcl, Bool.not_true, Bool.false_eq_true, if_false, configureRange, bind_assoc, Res_pure, Res_bind_ok,
        map_bind_res]
      simp only [Except.map, finish, fetchConfigs, configurePlot]
      try rfl
    · simp only [draw, plot3DwithHyperplane, hcl, Bool.not_false, if_true]

/-- The terminal set last, or the first one. -/
def lastTerminal (t : Str) : List (Env K × Use K) → Str
  | [] => t
  | (_, .term t') :: us => lastTerminal t' us
  | (_, _) :: us => lastTerminal t us

/-- A decision surface whose files cannot be written. -/
def failsToWrite : Use K → Bool
  | .surface _ _ _ _ opens => !opens
  | _ => false

theorem history_cleared : ∀ (us : List (Env K × Use K)) (c c' : Cfg), (∀ u ∈ us, failsToWrite u.2 = false) → Cleared c →
    history c us = .ok c' → Cleared c' ∧ c'.terminal = lastTerminal c.terminal us
  | [], c, c', _, hc, h => by
    simp only [history] at h; cases h; exact ⟨hc, rfl⟩
  | (e, .call p) :: us, c, c', hf, hc, h => by
    simp only [history] at h
    obtain ⟨o, ho, h⟩ := Aos.bind_inv h
    obtain ⟨-, h1, h2⟩ := draw_shape e c p o ho
    have := history_cleared us o.cfg c' (fun u hu => hf u (List.mem_cons_of_mem _ hu)) h1 h
    rw [h2] at this
    exact this
  | (_, .title t) :: us, c, c', hf, hc, h => by
    simp only [history] at h
    exact history_cleared us (setTitle t c) c' (fun u hu => hf u (List.mem_cons_of_mem _ hu)) hc h
  | (_, .style t) :: us, c, c', hf, hc, h => by
    simp only [history] at h
    exact history_cleared us (setStyle t c) c' (fun u hu => hf u (List.mem_cons_of_mem _ hu)) hc h
  | (_, .term t) :: us, c, c', hf, hc, h => by
    simp only [history] at h
    exact history_cleared us (setTerminal t c) c' (fun u hu => hf u (List.mem_cons_of_mem _ hu)) hc h
  | (e, .surface a x y stamp opens) :: us, c, c', hf, hc, h => by
    simp only [history] at h
    obtain ⟨c1, h1, h2⟩ := Aos.bind_inv h
    have ho : opens = true := by simpa [failsToWrite] using hf _ List.mem_cons_self
    subst ho
    have hs : Cleared c1 ∧ c1.terminal = c.terminal := by
      revert h1
      have : Holds (fun c1 : Cfg => Cleared c1 ∧ c1.terminal = c.terminal) (surfaceCfg e a x y stamp true c) := by
        simp only [surfaceCfg, configureRange, bind_assoc, Res_pure, Res_bind_ok, if_true]
        repeat (refine Holds_bind (fun _ => ?_))
        exact Holds_ok ⟨⟨rfl, rfl, rfl⟩, rfl⟩
      exact this c1
    have := history_cleared us c1 c' (fun u hu => hf u (List.mem_cons_of_mem _ hu)) hs.1 h2
    rw [hs.2] at this
    exact this

/-- **C137 (partial)** What a drawing call sends and returns does not depend on the earlier calls: after any sequence of plots
and settings, none of them a decision surface whose files could not be written, it is what a new object with the terminal
set last sends and returns. -/
theorem C137_history_partial (us : List (Env K × Use K)) (c : Cfg) (e : Env K) (p : Call K)
    (hf : ∀ u ∈ us, failsToWrite u.2 = false) (h : history Cfg.fresh us = .ok c) :
    (draw e c p).map (fun o => (o.sent, o.script)) =
      (draw e (setTerminal (lastTerminal "wxt".toList us) Cfg.fresh) p).map (fun o => (o.sent, o.script)) := by
  obtain ⟨⟨h1, h2, h3⟩, h4⟩ := history_cleared us _ c hf ⟨rfl, rfl, rfl⟩ h
  exact draw_same e c _ p h1 h2 h3 h4

/-- **C137 (refuted)** A decision surface whose file cannot be written leaves its ranges to the next plot that sets
no range of its own for an axis. -/
theorem C137_surface_refuted : ∃ (us : List (Env ℚ × Use ℚ)) (c : Cfg) (p : Call ℚ), history Cfg.fresh us = .ok c ∧
    (draw demoEnv c p).map Out.sent ≠ (draw demoEnv Cfg.fresh p).map Out.sent :=
  ⟨[(demoEnv, .surface demoArgs 0 1 "now".toList false)],
    { save := false, outName := "contour_d_now".toList, fmt := "svg".toList, title := "t".toList, xl := "x".toList, yl := "y".toList,
      xr := "[1:5]".toList, yr := "[2:6]".toList, terminal := "wxt".toList },
    .reg1 demoArgs 0, by decide +kernel, by decide +kernel⟩

example : (match history Cfg.fresh [(demoEnv, Use.call (.two demoArgs 0 1)), (demoEnv, .term "qt".toList),
      (demoEnv, .surface demoArgs 0 1 "now".toList true)] with
    | .ok c => decide ((draw demoEnv c (.two demoArgs 1 0)).map Out.sent =
        (draw demoEnv { terminal := "qt".toList } (.two demoArgs 1 0)).map Out.sent)
    | .error _ => false) = true := by decide +kernel

/-- **C138 (partial)** The script that a drawing call returns is the text that it sent, on lines, for every call but
`plot3DwithHyperplane`. -/
theorem C138_script_partial (e : Env K) (c : Cfg) (p : Call K) (hp : ∀ a x y z s, p ≠ .threeH a x y z s) (o : Out)
    (h : draw e c p = .ok o) : o.script = onLines o.sent := by
  have hf : ∀ cmd c, (finish cmd c).script = onLines (finish cmd c).sent := fun _ _ => rfl
  revert o
  show Holds (fun o : Out => o.script = onLines o.sent) (draw e c p)
  cases p with
  | reg1 a x => simp only [draw, plot1DRegresion, Res_pure]; repeat (refine Holds_bind (fun _ => ?_))
                exact Holds_ok (hf _ _)
  | reg1h a x s => simp only [draw, plot1DRegresionHyperplane, Res_pure]; repeat (refine Holds_bind (fun _ => ?_))
                   exact Holds_ok (hf _ _)
  | two a x y => simp only [draw, plot2D, Res_pure]; repeat (refine Holds_bind (fun _ => ?_))
                 exact Holds_ok (hf _ _)
  | twoPoints a x y =>
    simp only [draw, plot2DPoints]
    split
    · exact Holds_error
    · exact Holds_ok (hf _ _)
  | twoH a x y s =>
    simp only [draw, plot2DwithHyperplane, Res_pure]
    split
    · exact Holds_error
    · repeat (refine Holds_bind (fun _ => ?_))
      exact Holds_ok (hf _ _)
  | reg2 a x y => simp only [draw, plot2DRegresion, Res_pure]; repeat (refine Holds_bind (fun _ => ?_))
                  exact Holds_ok (hf _ _)
  | reg2h a x y s => simp only [draw, plot2DRegresionHyperplane, Res_pure]; repeat (refine Holds_bind (fun _ => ?_))
                     exact Holds_ok (hf _ _)
  | three a x y z => simp only [draw, plot3D, Res_pure]; repeat (refine Holds_bind (fun _ => ?_))
                     exact Holds_ok (hf _ _)
  | threePoints a x y z =>
    simp only [draw, plot3DPoints]
    split
    · exact Holds_error
    · exact Holds_ok (hf _ _)
  | threeH a x y z s => exact absurd rfl (hp a x y z s)

/-- **C138 (refuted)** The script of `plot3DwithHyperplane` lacks the settings: every script it returns is shorter than what
it sent. -/
theorem C138_hyperplane_refuted (e : Env K) (c : Cfg) (a : Args K) (x y z : Nat) (s : Sol K) (o : Out)
    (h : draw e c (.threeH a x y z s) = .ok o) : o.script.length < o.sent.length := by
  have hpos : ∀ c : Cfg, 0 < (fetchConfigs c).1.length := by
    intro c
    simp only [fetchConfigs]
    by_cases h1 : c.save = true
    · simp [h1]
    · by_cases h2 : c.terminal = [] <;> simp [h1, h2]
  revert o
  show Holds (fun o : Out => o.script.length < o.sent.length) _
  simp only [draw, plot3DwithHyperplane, Res_pure]
  split
  · exact Holds_error
  · repeat (refine Holds_bind (fun _ => ?_))
    refine Holds_ok ?_
    generalize planeText e.tx "g".toList _ ++ _ ++ _ ++ _ ++ _ ++ _ ++ _ ++ _ ++ _ ++ _ = cmd
    simp only [finish, prepareScript, List.length_map]
    rw [List.length_append]
    exact Nat.lt_add_of_pos_left (hpos _)

/-- **C139 (partial)** The terminal set last is used: a call that does not save begins by setting it; and a call that saves
begins by setting the format and the output file. -/
theorem C139_terminal_partial (e : Env K) (c : Cfg) (p : Call K) (t : Str) (o : Out)
    (h : draw e (setTerminal t c) p = .ok o) :
    ((callArgs p).save = false → t ≠ [] → Begins ("set terminal ".toList ++ t ++ ";".toList) o.sent) ∧
    ((callArgs p).save = true →
      ∃ out, Begins ("set terminal ".toList ++ (callArgs p).fmt ++ "; set output '".toList ++ out ++ ".".toList ++
        (callArgs p).fmt ++ "'; ".toList) o.sent) := by
  obtain ⟨⟨out, xr, yr, zr, zl, cmd, hs⟩, -, -⟩ := draw_shape e _ p o h
  constructor
  · intro h1 h2
    rw [hs]
    simp only [Preamble.text, h1, Bool.false_eq_true, if_false, setTerminal, if_neg h2, List.append_assoc]
    exact ⟨_, by simp only [List.append_assoc]; rfl⟩
  · intro h1
    refine ⟨out, ?_⟩
    rw [hs]
    simp only [Preamble.text, h1, if_true, List.append_assoc]
    exact ⟨_, by simp only [List.append_assoc]; rfl⟩

/-- **C139 (partial)** The title given to a drawing call is shown. -/
theorem C139_title_partial (e : Env K) (c : Cfg) (p : Call K) (o : Out) (h : draw e c p = .ok o)
    (ht : (callArgs p).title ≠ []) : Occurs ("set title '".toList ++ (callArgs p).title ++ "';".toList) o.sent := by
  obtain ⟨⟨out, xr, yr, zr, zl, cmd, hs⟩, -, -⟩ := draw_shape e _ p o h
  rw [hs]
  simp only [Preamble.text, optStmt, if_neg ht]
  generalize (if (callArgs p).save = true then _ else _ : List Char) = pre
  exact ⟨pre, _, by simp only [List.append_assoc]; rfl⟩

/-- **C139 (refuted)** `setTitle` and `setStyle` have no effect on any drawing call. -/
theorem C139_setters_refuted (e : Env K) (c : Cfg) (p : Call K) (t : Str) :
    (draw e (setTitle t c) p).map (fun o => (o.sent, o.script)) = (draw e c p).map (fun o => (o.sent, o.script)) ∧
    (draw e (setStyle t c) p).map (fun o => (o.sent, o.script)) = (draw e c p).map (fun o => (o.sent, o.script)) :=
  ⟨draw_same e _ _ p rfl rfl rfl rfl, draw_same e _ _ p rfl rfl rfl rfl⟩

example : (match draw demoEnv (setTitle "mine".toList (setTerminal "qt".toList Cfg.fresh)) (.reg2h demoArgs 0 1 ⟨[1, 2], 3, 0, 0⟩) with
    | .ok o => decide (o.sent.take 33 = "set terminal qt;set title 't';set".toList)
    | .error _ => false) = true := by decide +kernel

end
end MLTK.Props
