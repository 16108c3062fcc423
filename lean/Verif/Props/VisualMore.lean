import Verif.Props.VisualState
import Verif.Props.Features
import Verif.Props.Point
/-!
# C140-C143: regression plots, the decision surface and the folders
-/
namespace MLTK.Props
open MLTK.Spec MLTK.Vis
open MLTK.Data (Res_bind_ok Res_bind_error Res_pure)

section
variable {K : Type} [Field K] [LinearOrder K] [FloorRing K]

/-- A regression dataset with its file written: every sample has `dim ≥ 1` features, there is a sample, and the folder holds
the one file. -/
structure Regressive (e : Env K) (dim : Nat) : Prop where
  wide : ∀ r ∈ e.d.rows, r.1.length = dim
  some : e.d.rows ≠ []
  files : e.listing.Perm [".".toList, "..".toList, "samples.plt".toList]

theorem regressive_file {e : Env K} {dim : Nat} (h : Regressive e dim) :
    tempFiles e.folder e.listing = [plotFile e.folder "samples".toList] :=
  List.perm_singleton.1 (tempFiles_perm e.folder ["samples".toList] e.listing h.files)

theorem regressive_dim {e : Env K} {dim : Nat} (h : Regressive e dim) : e.d.dim = dim := by
  have h1 := h.wide
  have h2 := h.some
  unfold VData.dim
  cases hr : e.d.rows with
  | nil => exact absurd hr h2
  | cons r rs => exact h1 r (by rw [hr]; exact List.mem_cons_self)

theorem clauses_one (f : Str) (dims tail tail' : Str) :
    clauses 1 (plainClause [f] dims tail) (plainClause [f] dims tail') = .ok ("'".toList ++ f ++ "' using ".toList ++ dims ++ tail') := by
  simp [clauses, plainClause, vget, Res_bind_ok, Res_pure]

/-- **C140 (partial)** `plot2DRegresion(x, y)` draws, of every sample, the two features and the target (the column after the
features). -/
theorem C140_plot2D_partial (e : Env K) (a : Args K) (x y dim : Nat) (c : Cfg) (h : Regressive e dim) (hx : x < dim) (hy : y < dim)
    (hd : dim + 1 < 2 ^ 31) (hc : c.yr = [] ∧ c.zr = []) :
    ∃ o tx sx sy st, plot2DRegresion e a x y c = .ok o ∧ IsNumeral (x : Int) tx ∧
      IsNumeral ((x : Int) + 1) sx ∧ IsNumeral ((y : Int) + 1) sy ∧ IsNumeral ((dim : Int) + 1) st ∧
      o.sent = Preamble.text ⟨a.save, a.fmt,
          (if e.d.name = [] then "2dplot_".toList else e.d.name ++ "_2d_".toList) ++ (tx ++ "_regression".toList),
          c.terminal, a.title, shown e a.scale x, [], [], a.xl, a.yl, a.zl⟩ ++
        ("splot ".toList ++ drawSamples e.folder (sx ++ ":".toList ++ sy ++ ":".toList ++ st) " notitle with points".toList) := by
  obtain ⟨sx, h1, n1⟩ := colNo_ok x (by omega)
  obtain ⟨sy, h2, n2⟩ := colNo_ok y (by omega)
  obtain ⟨st, h3, n3⟩ := colNo_ok dim hd
  obtain ⟨tx, h4, n4⟩ := itos_nat x (by omega)
  refine ⟨finish ("splot ".toList ++ drawSamples e.folder (sx ++ ":".toList ++ sy ++ ":".toList ++ st) " notitle with points".toList)
      (configurePlot (outName e.d.name "2dplot_".toList "_2d_".toList (tx ++ "_regression".toList)) a.fmt a.title a.save a.xl a.yl a.zl
        { c with xr := shown e a.scale x }), tx, sx, sy, st, ?_, n4, n1, n2, n3, ?_⟩
  · simp only [plot2DRegresion, h1, h2, h3, h4, regressive_dim h, Res_bind_ok, configureRange, column_ok e.d x dim h.wide hx, Except.map,
      Res_pure, regressive_file h, List.length_singleton, clauses_one, rangeText_eq, shown, drawSamples]
  · simp only [finish, fetch_text, configurePlot, hc, outName_eq]

/-- **C140 (partial)** `plot1DRegresionHyperplane(x)` draws the feature against the target and the line with the weight of the
feature and the bias. -/
theorem C140_line_partial (e : Env K) (a : Args K) (x dim : Nat) (s : Sol K) (c : Cfg) (h : Regressive e dim) (hx : x < dim)
    (hw : s.w.length = dim) (hd : dim + 1 < 2 ^ 31) :
    ∃ o sx st before, plot1DRegresionHyperplane e a x s c = .ok o ∧
      IsNumeral ((x : Int) + 1) sx ∧ IsNumeral ((dim : Int) + 1) st ∧
      o.sent = before ++ (lineFn e.tx.num "f".toList (s.w.getD x 0) s.bias ++ ";".toList ++ "plot ".toList ++
        drawSamples e.folder (sx ++ ":".toList ++ st) " notitle with points, f(x) notitle with lines ls 1 lt rgb \"red\"".toList) := by
  obtain ⟨sx, h1, n1⟩ := colNo_ok x (by omega)
  obtain ⟨st, h3, n3⟩ := colNo_ok dim hd
  obtain ⟨tx, h4, n4⟩ := itos_nat x (by omega)
  obtain ⟨cf, hcf⟩ : ∃ cf, cf = configurePlot (outName e.d.name "2dplot_".toList "_2d_".toList (tx ++ "_regression".toList)) a.fmt
    a.title a.save a.xl a.yl [] { c with xr := shown e a.scale x } := ⟨_, rfl⟩
  refine ⟨finish ((fetchConfigs cf).1 ++ (lineFn e.tx.num "f".toList (s.w.getD x 0) s.bias ++ ";".toList ++ "plot ".toList ++
        drawSamples e.folder (sx ++ ":".toList ++ st) " notitle with points, f(x) notitle with lines ls 1 lt rgb \"red\"".toList))
      (fetchConfigs cf).2, sx, st, (fetchConfigs (fetchConfigs cf).2).1 ++ (fetchConfigs cf).1, ?_, n1, n3, ?_⟩
  · rw [hcf]
    simp only [plot1DRegresionHyperplane, h1, h3, h4, regressive_dim h, Res_bind_ok, configureRange, column_ok e.d x dim h.wide hx,
      Except.map, Res_pure, regressive_file h, List.length_singleton, clauses_one, rangeText_eq, shown, drawSamples, lineFn,
      sol_at s x (hw ▸ hx)]
    rfl
  · simp only [finish, List.append_assoc]

/-- **C140 (partial)** With one feature `plot1DRegresion(0)` draws the feature against the target. -/
theorem C140_plot1D_partial (e : Env K) (a : Args K) (c : Cfg) (h : Regressive e 1) (hc : c.yr = [] ∧ c.zr = []) :
    ∃ o, plot1DRegresion e a 0 c = .ok o ∧
      o.sent = Preamble.text ⟨a.save, a.fmt,
          (if e.d.name = [] then "2dplot_".toList else e.d.name ++ "_2d_".toList) ++ ("0".toList ++ "_regression".toList),
          c.terminal, a.title, shown e a.scale 0, [], [], a.xl, a.yl, []⟩ ++
        ("plot ".toList ++ drawSamples e.folder "1:2".toList " with points".toList) := by
  have h1 : colNo 0 = .ok "1".toList := by decide +kernel
  have h2 : Text.itos 2 = .ok "2".toList := by decide +kernel
  have h3 : Text.itos ((0 : Nat) : Int) = .ok "0".toList := by decide +kernel
  have h4 : "1".toList ++ ":".toList ++ "2".toList = "1:2".toList := by decide +kernel
  refine ⟨finish ("plot ".toList ++ drawSamples e.folder "1:2".toList " with points".toList)
      (configurePlot (outName e.d.name "2dplot_".toList "_2d_".toList ("0".toList ++ "_regression".toList)) a.fmt a.title a.save a.xl a.yl []
        { c with xr := shown e a.scale 0 }), ?_, ?_⟩
  · simp only [plot1DRegresion, h1, h2, h3, Res_bind_ok, configureRange, column_ok e.d 0 1 h.wide (by decide), Except.map, h4,
      Res_pure, regressive_file h, List.length_singleton, clauses_one, rangeText_eq, shown, drawSamples]
  · simp only [finish, fetch_text, configurePlot, hc, outName_eq]

/-- **C140 (refuted)** With more features `plot1DRegresion(x)` draws the second feature in place of the target: always column
2, although the target is in column `dim + 1`. -/
theorem C140_plot1D_refuted (e : Env K) (a : Args K) (x dim : Nat) (c : Cfg) (h : Regressive e dim) (hx : x < dim)
    (hd : dim + 1 < 2 ^ 31) :
    ∃ o sx before, plot1DRegresion e a x c = .ok o ∧ IsNumeral ((x : Int) + 1) sx ∧
      o.sent = before ++ drawSamples e.folder (sx ++ ":2".toList) " with points".toList := by
  obtain ⟨sx, h1, n1⟩ := colNo_ok x (by omega)
  obtain ⟨tx, h4, n4⟩ := itos_nat x (by omega)
  have h2 : Text.itos 2 = .ok "2".toList := by decide +kernel
  have h5 : ":2".toList = ":".toList ++ "2".toList := by decide +kernel
  obtain ⟨cf, hcf⟩ : ∃ cf, cf = configurePlot (outName e.d.name "2dplot_".toList "_2d_".toList (tx ++ "_regression".toList)) a.fmt
    a.title a.save a.xl a.yl [] { c with xr := shown e a.scale x } := ⟨_, rfl⟩
  refine ⟨finish ("plot ".toList ++ drawSamples e.folder (sx ++ ":2".toList) " with points".toList) cf, sx,
    (fetchConfigs cf).1 ++ "plot ".toList, ?_, n1, ?_⟩
  · rw [hcf, h5, ← List.append_assoc sx]
    simp only [plot1DRegresion, h1, h2, h4, Res_bind_ok, configureRange, column_ok e.d x dim h.wide hx, Except.map,
      Res_pure, regressive_file h, List.length_singleton, clauses_one, rangeText_eq, shown, drawSamples]
  · simp only [finish, List.append_assoc]

/-- The regression dataset of the examples. -/
def demoReg : Env ℚ := ⟨demoTxt, 1 / 1000, 1000, ⟨"r".toList, false, [([1, 20], 7), ([3, 40], 8)], [], [], [1, 2]⟩, folderName 0,
  ["samples.plt".toList, "..".toList, ".".toList]⟩

theorem demoReg_regressive : Regressive demoReg 2 := ⟨by decide, by simp [demoReg], by decide⟩

example : (match plot2DRegresion demoReg demoArgs 1 0 Cfg.fresh with
    | .ok o => decide (o.script = ("set terminal wxt\nset title 't'\nset xrange [20:40]\nset xlabel 'x'\nset ylabel 'y'\n" ++
        "splot 'plottemp0/samples.plt' using 2:1:3 notitle with points").toList)
    | .error _ => false) = true := by decide +kernel

end

/-! ### decision surface -/

section
variable {K : Type}

theorem pick_none (row : List K) (s x y : Nat) (hx : x ≤ s) (hy : y ≤ s) :
    ((row.zip ((List.range' s row.length).map (fun i => ((i + 1 : Nat) : Int)))).filter
      (fun p => decide (∃ f ∈ [x, y], p.2 = (f : Int)))) = [] := by
  apply List.filter_eq_nil_iff.2
  rintro ⟨v, n⟩ hp
  obtain ⟨i, hi, rfl⟩ := List.mem_map.1 (List.of_mem_zip hp).2
  have := (List.mem_range'_1.1 hi).1
  simp only [List.mem_cons, List.not_mem_nil, or_false, exists_eq_or_imp, exists_eq_left, decide_eq_true_eq, not_or]
  constructor <;> omega

theorem pick_one [Zero K] : ∀ (row : List K) (s x y : Nat), x ≤ s → s < y → y < s + row.length + 1 →
    ((row.zip ((List.range' s row.length).map (fun i => ((i + 1 : Nat) : Int)))).filter
      (fun p => decide (∃ f ∈ [x, y], p.2 = (f : Int)))).map Prod.fst = [row.getD (y - 1 - s) 0]
  | [], s, x, y, _, h1, h2 => by simp at h2; omega
  | v :: row, s, x, y, hx, h1, h2 => by
    simp only [List.length_cons, List.range'_succ, List.map_cons, List.zip_cons_cons, List.filter_cons]
    by_cases hy : y = s + 1
    · have hm : (decide (∃ f ∈ [x, y], ((s + 1 : Nat) : Int) = (f : Int))) = true := by
        simp only [decide_eq_true_eq]; exact ⟨y, by simp, by omega⟩
      rw [if_pos hm, pick_none row (s + 1) x y (by omega) (by omega)]
      have : y - 1 - s = 0 := by omega
      simp [this]
    · have hm : ¬ (decide (∃ f ∈ [x, y], ((s + 1 : Nat) : Int) = (f : Int))) = true := by
        simp only [List.mem_cons, List.not_mem_nil, or_false, exists_eq_or_imp, exists_eq_left, decide_eq_true_eq, not_or]
        constructor <;> omega
      rw [if_neg hm, pick_one row (s + 1) x y (by omega) (by omega) (by simp only [List.length_cons] at h2; omega)]
      have : y - 1 - s = (y - 1 - (s + 1)) + 1 := by omega
      rw [this, List.getD_cons_succ]

theorem pick_two [Zero K] : ∀ (row : List K) (s x y : Nat), s < x → x < y → y < s + row.length + 1 →
    ((row.zip ((List.range' s row.length).map (fun i => ((i + 1 : Nat) : Int)))).filter
      (fun p => decide (∃ f ∈ [x, y], p.2 = (f : Int)))).map Prod.fst = [row.getD (x - 1 - s) 0, row.getD (y - 1 - s) 0]
  | [], s, x, y, _, h1, h2 => by simp at h2; omega
  | v :: row, s, x, y, hx, h1, h2 => by
    simp only [List.length_cons] at h2
    simp only [List.length_cons, List.range'_succ, List.map_cons, List.zip_cons_cons, List.filter_cons]
    have ey : y - 1 - s = (y - 1 - (s + 1)) + 1 := by omega
    by_cases hs : x = s + 1
    · have hm : (decide (∃ f ∈ [x, y], ((s + 1 : Nat) : Int) = (f : Int))) = true := by
        simp only [decide_eq_true_eq]; exact ⟨x, by simp, by omega⟩
      rw [if_pos hm, List.map_cons, pick_one row (s + 1) x y (by omega) (by omega) (by omega)]
      have : x - 1 - s = 0 := by omega
      rw [this, ey, List.getD_cons_succ, List.getD_cons_zero]
    · have hm : ¬ (decide (∃ f ∈ [x, y], ((s + 1 : Nat) : Int) = (f : Int))) = true := by
        simp only [List.mem_cons, List.not_mem_nil, or_false, exists_eq_or_imp, exists_eq_left, decide_eq_true_eq, not_or]
        constructor <;> omega
      rw [if_neg hm, pick_two row (s + 1) x y (by omega) h1 (by omega)]
      have ex : x - 1 - s = (x - 1 - (s + 1)) + 1 := by omega
      rw [ex, ey, List.getD_cons_succ, List.getD_cons_succ]

theorem spread_ok (classes : List Int) (hn : classes.Nodup) : ∀ (rows : List (List K × Int)) (acc : List (List (List K × Int))),
    (∀ r ∈ rows, r.2 ∈ classes) → acc.length = classes.length →
    spread classes rows acc = .ok (List.zipWith (fun a c => a ++ rows.filter (fun r => r.2 = c)) acc classes)
  | [], acc, _, hl => by
    simp only [spread, List.filter_nil, List.append_nil]
    congr 1
    have : ∀ (acc : List (List (List K × Int))) (cs : List Int), acc.length = cs.length → acc = List.zipWith (fun a _ => a) acc cs := by
      intro acc
      induction acc with
      | nil => intro cs _; simp
      | cons a acc ih =>
        intro cs h
        cases cs with
        | nil => simp at h
        | cons c cs => simp only [List.zipWith_cons_cons]; rw [← ih cs (by simpa using h)]
    exact this acc classes hl
  | r :: rows, acc, hk, hl => by
    obtain ⟨h1, h2⟩ := findIdx_get classes r.2 (hk r List.mem_cons_self)
    have h1' : classes.findIdx (fun c => decide (c = r.2)) < acc.length := by rw [hl]; exact h1
    obtain ⟨l, hl2⟩ : ∃ l, acc[classes.findIdx (fun c => decide (c = r.2))]? = some l := ⟨_, List.getElem?_eq_getElem h1'⟩
    simp only [spread, vget_eq_ok.2 hl2, Res_bind_ok, vset, if_pos h1']
    rw [spread_ok classes hn rows _ (fun q hq => hk q (List.mem_cons_of_mem _ hq)) (by simp [hl])]
    congr 1
    apply List.ext_getElem?
    intro i
    simp only [List.getElem?_zipWith]
    by_cases hi : classes.findIdx (fun c => decide (c = r.2)) = i
    · subst hi
      rw [List.getElem?_set_self h1', h2, hl2]
      simp [List.filter_cons]
    · rw [List.getElem?_set_ne hi]
      cases ha : acc[i]? with
      | none => rfl
      | some a =>
        cases hc : classes[i]? with
        | none => rfl
        | some c =>
          have hne : r.2 ≠ c := by
            rintro rfl
            exact hi (nodup_idx hn h2 hc)
          simp [List.filter_cons, hne]
end

section
variable {K : Type} [Field K] [LinearOrder K] [IsStrictOrderedRing K] [FloorRing K]

/-- **C141 (partial)** The decision surface of the features `x < y` of a classification dataset with feature names 1, 2, …: the
grid has the decision of the learner at all pairs of `n` evenly spaced values of the first and of the second feature, over
the limits of the two features; the samples shown of each class are exactly the samples of that class with these two
features; an untrained learner is trained on these two features of all samples. -/
theorem C141_surface_partial (tiny big scale : K) (d : VData K) (x y n dim : Nat) (isTrained : Bool) (trained : List K → K)
    (train : List (List K × Int) → List K → K) (hcl : d.classification = true)
    (hw : WellLabelled d.rows d.classes d.names dim) (hne : d.rows ≠ [])
    (hf : d.fnames = (List.range dim).map (fun i => ((i + 1 : Nat) : Int))) (hxy : x < y) (hy : y < dim) (hn : 2 ≤ n) :
    ∃ s xs ys, surface tiny big scale d x y n isTrained trained train = .ok s ∧
      EvenlySpaced (axisRange tiny big scale (d.rows.map (fun r => r.1.getD x 0))).1
        (axisRange tiny big scale (d.rows.map (fun r => r.1.getD x 0))).2 n xs ∧
      EvenlySpaced (axisRange tiny big scale (d.rows.map (fun r => r.1.getD y 0))).1
        (axisRange tiny big scale (d.rows.map (fun r => r.1.getD y 0))).2 n ys ∧
      s.grid = gridOf xs ys (if isTrained then trained
        else train (d.rows.map (fun r => ([r.1.getD x 0, r.1.getD y 0], r.2)))) ∧
      s.points = d.classes.map (fun c =>
        (d.rows.filter (fun r => r.2 = c)).map (fun r => ([r.1.getD x 0, r.1.getD y 0], r.2))) := by
  have hdim : d.dim = dim := by
    unfold VData.dim
    cases hr : d.rows with
    | nil => exact absurd hr hne
    | cons r rs => exact hw.wide r (by rw [hr]; exact List.mem_cons_self)
  have hal : Aligned (⟨d.rows.map Prod.fst, d.fnames, d.dim⟩ : Feat.Tbl K) := by
    refine ⟨by simp [hf, hdim], ?_, ?_, ?_⟩
    · intro r hr
      obtain ⟨q, hq, rfl⟩ := List.mem_map.1 hr
      show q.1.length = d.dim
      rw [hdim]; exact hw.wide q hq
    · show d.fnames.Pairwise (· < ·)
      rw [hf, List.pairwise_map]
      exact List.pairwise_lt_range.imp (fun h => by omega)
    · intro m hm
      rw [show (⟨d.rows.map Prod.fst, d.fnames, d.dim⟩ : Feat.Tbl K).fnames = d.fnames from rfl, hf] at hm
      obtain ⟨i, -, rfl⟩ := List.mem_map.1 hm
      omega
  obtain ⟨t, ht, hrows, -⟩ := C17_select_partial (⟨d.rows.map Prod.fst, d.fnames, d.dim⟩ : Feat.Tbl K) [x + 1, y + 1] hal
    (by simp; omega) (by simp) (by
      intro f hfm
      show (f : Int) ∈ d.fnames
      rw [hf]
      simp only [List.mem_cons, List.not_mem_nil, or_false] at hfm
      rcases hfm with rfl | rfl
      · exact List.mem_map.2 ⟨x, List.mem_range.2 (by omega), rfl⟩
      · exact List.mem_map.2 ⟨y, List.mem_range.2 hy, rfl⟩)
  have hcopy : t.rows.zip (d.rows.map Prod.snd) = d.rows.map (fun r => ([r.1.getD x 0, r.1.getD y 0], r.2)) := by
    have : t.rows = d.rows.map (fun r => [r.1.getD x 0, r.1.getD y 0]) := by
      rw [hrows, List.map_map]
      apply List.map_congr_left
      intro r hr
      have hl := hw.wide r hr
      have := pick_two r.1 0 (x + 1) (y + 1) (by omega) (by omega) (by omega)
      rw [hl, ← List.range_eq_range'] at this
      simpa [Function.comp, hf] using this
    rw [this, List.zip_map']
  have hsp := spread_ok d.classes hw.classesNodup (d.rows.map (fun r => ([r.1.getD x 0, r.1.getD y 0], r.2)))
    (List.replicate d.classes.length []) (by
      intro q hq
      obtain ⟨r, hr, rfl⟩ := List.mem_map.1 hq
      exact hw.known r hr) (by simp)
  refine ⟨⟨_, List.zipWith (fun a c => a ++ (d.rows.map (fun r => ([r.1.getD x 0, r.1.getD y 0], r.2))).filter (fun r => r.2 = c))
      (List.replicate d.classes.length []) d.classes⟩, _, _, ?_, C26_linspace _ _ n hn, C26_linspace _ _ n hn, rfl, ?_⟩
  · simp only [surface, hcl, Bool.not_true, Bool.false_eq_true, if_false, column_ok d x dim hw.wide (by omega),
      column_ok d y dim hw.wide hy, Res_bind_ok, ht, hcopy, hsp, Res_pure]
    rfl
  · apply List.ext_getElem?
    intro i
    rw [List.getElem?_zipWith, List.getElem?_map, List.getElem?_replicate]
    cases hc : d.classes[i]? with
    | none =>
      have hi : ¬ i < d.classes.length := by simpa using hc
      simp only [hi, if_false, Option.map_none]
    | some c =>
      have hi := (List.getElem?_eq_some_iff.1 hc).1
      simp only [hi, if_true, Option.map_some, List.nil_append, List.filter_map]
      rfl

/-- The dataset of the examples. -/
def demoSurf : VData ℚ := ⟨[], true, [([1, 20], 7), ([3, 40], 8)], [7, 8], ["a".toList, "b".toList], [1, 2]⟩

/-- **C141 (refuted)** With the features given in decreasing order the samples are shown with their features exchanged, and
so the learner is trained: the grid is over the second and the first feature, the samples are the first and the second. -/
theorem C141_order_refuted : ∃ s, surface (1 / 1000) 1000 1 demoSurf 1 0 2 true (fun v => v.getD 0 0) (fun _ _ => 0) = .ok s ∧
    s.grid = gridOf [20, 40] [1, 3] (fun v => v.getD 0 0) ∧ s.points = [[([1, 20], 7)], [([3, 40], 8)]] :=
  ⟨⟨gridOf [20, 40] [1, 3] (fun v => v.getD 0 0), [[([1, 20], 7)], [([3, 40], 8)]]⟩, by decide +kernel, rfl, rfl⟩

/-- **C141 (refuted)** The same feature twice stops the program. -/
theorem C141_same_refuted : surface (1 / 1000) 1000 1 demoSurf 1 1 2 true (fun _ => 0) (fun _ _ => 0) = .error .assertFail := by
  decide +kernel

example : surface (1 / 1000) 1000 1 demoSurf 0 1 2 true (fun v => v.getD 1 0) (fun _ _ => 0) =
    .ok ⟨[(1, 20, 20), (1, 40, 40), (3, 20, 20), (3, 40, 40)], [[([1, 20], 7)], [([3, 40], 8)]]⟩ := by decide +kernel
end

/-! ### folders -/

theorem folderName_inj {m n : Nat} (h : folderName m = folderName n) : m = n := by
  have h1 : Text.natChars m = Text.natChars n := by
    have h2 := List.append_cancel_right h
    exact List.append_cancel_left h2
  have := congrArg (fun l => Nat.ofDigitChars 10 l 0) h1
  simpa [Text.natChars, Nat.ofDigitChars_ten_toDigits] using this

theorem folderLoop_none : ∀ (n : Nat) (s : Dirs), folderLoop n s = none → ∀ i < n, folderName (s.nPlots + i) ∈ s.disk
  | 0, _, _, _, hi => absurd hi (Nat.not_lt_zero _)
  | n+1, s, h, i, hi => by
    simp only [folderLoop] at h
    by_cases hc : (tryFolder s).cur ∈ (tryFolder s).disk
    · rw [if_pos hc] at h
      cases i with
      | zero => exact hc
      | succ i =>
        have := folderLoop_none n _ h i (by omega)
        simp only [tryFolder] at this
        rw [show s.nPlots + (i + 1) = s.nPlots + 1 + i by omega]
        exact this
    · rw [if_neg hc] at h; cases h

theorem folderLoop_some : ∀ (n : Nat) (s s' : Dirs), folderLoop n s = some s' → ∃ k, s'.cur = folderName (s.nPlots + k) ∧
    s'.nPlots = s.nPlots + k + 1 ∧ s'.disk = s.disk ∧ s'.cur ∉ s.disk ∧
    (∀ i < k, folderName (s.nPlots + i) ∈ s.disk) ∧
    (∀ p, p ∈ s'.mine ↔ p ∈ s.mine ∨ ∃ i ≤ k, p = folderName (s.nPlots + i))
  | 0, _, _, h => by simp [folderLoop] at h
  | n+1, s, s', h => by
    simp only [folderLoop] at h
    have hm : ∀ p, p ∈ (tryFolder s).mine ↔ p ∈ s.mine ∨ p = folderName s.nPlots := by
      intro p
      simp only [tryFolder]
      by_cases hp : folderName s.nPlots ∈ s.mine
      · rw [if_pos hp]
        constructor
        · exact Or.inl
        · rintro (h | rfl)
          · exact h
          · exact hp
      · rw [if_neg hp]; simp
    by_cases hc : (tryFolder s).cur ∈ (tryFolder s).disk
    · rw [if_pos hc] at h
      obtain ⟨k, h1, h2, h3, h4, h5, h6⟩ := folderLoop_some n _ _ h
      have hn : (tryFolder s).nPlots = s.nPlots + 1 := rfl
      have hd : (tryFolder s).disk = s.disk := rfl
      rw [hn] at h1 h2 h5 h6
      rw [hd] at h3 h4 h5
      refine ⟨k + 1, by rw [h1]; congr 1; omega, by rw [h2]; omega, h3, h4, ?_, ?_⟩
      · intro i hi
        cases i with
        | zero => exact hc
        | succ i => rw [show s.nPlots + (i + 1) = s.nPlots + 1 + i by omega]; exact h5 i (by omega)
      · intro p
        rw [h6, hm]
        constructor
        · rintro ((h | rfl) | ⟨i, hi, rfl⟩)
          · exact Or.inl h
          · exact Or.inr ⟨0, by omega, rfl⟩
          · exact Or.inr ⟨i + 1, by omega, by congr 1; omega⟩
        · rintro (h | ⟨i, hi, rfl⟩)
          · exact Or.inl (Or.inl h)
          · cases i with
            | zero => exact Or.inl (Or.inr rfl)
            | succ i => exact Or.inr ⟨i, by omega, by congr 1; omega⟩
    · rw [if_neg hc] at h
      cases h
      refine ⟨0, rfl, rfl, rfl, hc, by simp, ?_⟩
      intro p
      rw [hm]
      constructor
      · rintro (h | rfl)
        · exact Or.inl h
        · exact Or.inr ⟨0, le_refl _, rfl⟩
      · rintro (h | ⟨i, hi, rfl⟩)
        · exact Or.inl h
        · exact Or.inr (by rw [Nat.le_zero.1 hi]; rfl)

/-- **C142** Whatever folders exist, a new object ends with a folder of its own: one that did not exist, namely the
`plottempN` with the smallest free `N` from the counter on, and no other folder changes. -/
theorem C142_own_folder (s : Dirs) : ∃ s' k, createFolder s = some s' ∧ s'.cur = folderName (s.nPlots + k) ∧
    s'.cur ∉ s.disk ∧ (∀ i < k, folderName (s.nPlots + i) ∈ s.disk) ∧ s'.disk = s'.cur :: s.disk := by
  unfold createFolder
  cases h : folderLoop (s.disk.length + 1) s with
  | none =>
    exfalso
    have h1 := folderLoop_none _ s h
    have hnd : ((List.range (s.disk.length + 1)).map (fun i => folderName (s.nPlots + i))).Nodup := by
      apply List.Nodup.map _ List.nodup_range
      intro i j hij
      have := folderName_inj hij
      omega
    have hsub : ((List.range (s.disk.length + 1)).map (fun i => folderName (s.nPlots + i))) ⊆ s.disk := by
      intro p hp
      obtain ⟨i, hi, rfl⟩ := List.mem_map.1 hp
      exact h1 i (List.mem_range.1 hi)
    have := (hnd.subperm hsub).length_le
    simp at this
  | some s' =>
    obtain ⟨k, h1, h2, h3, h4, h5, -⟩ := folderLoop_some _ s s' h
    exact ⟨{ s' with disk := s'.cur :: s'.disk }, k, rfl, h1, h4, h5, by simp [h3]⟩

example : createFolder ⟨[folderName 1, "data/".toList, folderName 0], 0, [], []⟩ =
    some ⟨[folderName 2, folderName 1, "data/".toList, folderName 0], 3, folderName 2, [folderName 0, folderName 1, folderName 2]⟩ := by
  decide +kernel

/-- A new object, `n` calls of `setSample`, and the destruction: the state at the end. -/
def lifeTime (s : Dirs) : Nat → Option Dirs
  | 0 => createFolder s
  | n+1 => do setSample (← lifeTime s n)

/-- No folder `plottempN` with `N` at least `n` exists. -/
def FreeFrom (n : Nat) (disk : List Str) : Prop := ∀ m, n ≤ m → folderName m ∉ disk

theorem create_free (s : Dirs) (h : FreeFrom s.nPlots s.disk) : ∃ s', createFolder s = some s' ∧
    s'.cur = folderName s.nPlots ∧ s'.nPlots = s.nPlots + 1 ∧ s'.disk = s'.cur :: s.disk ∧
    (∀ p, p ∈ s'.mine ↔ p ∈ s.mine ∨ p = folderName s.nPlots) := by
  have hn : ¬ (tryFolder s).cur ∈ (tryFolder s).disk := h _ (le_refl _)
  have hl : folderLoop (s.disk.length + 1) s = some (tryFolder s) := by
    simp only [folderLoop]; rw [if_neg hn]
  obtain ⟨k, h1, h2, h3, h4, h5, h6⟩ := folderLoop_some _ s _ hl
  have hk : k = 0 := by
    by_contra hk
    exact h s.nPlots (le_refl _) (by have := h5 0 (by omega); simpa using this)
  subst hk
  refine ⟨{ tryFolder s with disk := (tryFolder s).cur :: (tryFolder s).disk }, by rw [createFolder, hl]; rfl, rfl, rfl, rfl, ?_⟩
  intro p
  rw [show ({ tryFolder s with disk := (tryFolder s).cur :: (tryFolder s).disk } : Dirs).mine = (tryFolder s).mine from rfl, h6]
  constructor
  · rintro (h | ⟨i, hi, rfl⟩)
    · exact Or.inl h
    · exact Or.inr (by rw [Nat.le_zero.1 hi]; rfl)
  · rintro (h | rfl)
    · exact Or.inl h
    · exact Or.inr ⟨0, le_refl _, rfl⟩

theorem filter_other (disk : List Str) (p : Str) (h : p ∉ disk) : (p :: disk).filter (fun q => q ≠ p) = disk := by
  rw [List.filter_cons]
  simp only [ne_eq, not_true_eq_false, decide_false, Bool.false_eq_true, if_false]
  apply List.filter_eq_self.2
  intro q hq
  simp only [decide_eq_true_eq]
  rintro rfl
  exact h hq

/-- **C143 (partial)** When no folder `plottempN` with `N` from the counter on exists, an object leaves nothing behind and removes
nothing that it did not make: after its construction, any number of `setSample` and its destruction the folders are those
that were there before. -/
theorem C143_clean_partial (s : Dirs) (n : Nat) (hm : s.mine = []) (h : FreeFrom s.nPlots s.disk) :
    ∃ s', lifeTime s n = some s' ∧ (destroy s').disk = s.disk ∧ s'.cur = folderName (s.nPlots + n) ∧ s'.cur ∈ s'.disk := by
  suffices hs : ∃ s', lifeTime s n = some s' ∧ s'.cur = folderName (s.nPlots + n) ∧ s'.nPlots = s.nPlots + n + 1 ∧
      s'.disk = s'.cur :: s.disk ∧ (∀ p, p ∈ s'.mine ↔ ∃ i ≤ n, p = folderName (s.nPlots + i)) by
    obtain ⟨s', h1, h2, h3, h4, h5⟩ := hs
    refine ⟨s', h1, ?_, h2, by rw [h4]; exact List.mem_cons_self⟩
    simp only [destroy, removeTemp]
    rw [h4, filter_other _ _ (by rw [h2]; exact h _ (by omega))]
    apply List.filter_eq_self.2
    intro p hp
    simp only [decide_eq_true_eq, h5, not_exists, not_and]
    rintro i - rfl
    exact h _ (by omega) hp
  induction n with
  | zero =>
    obtain ⟨s', h1, h2, h3, h4, h5⟩ := create_free s h
    refine ⟨s', h1, h2, h3, h4, ?_⟩
    intro p
    rw [h5, hm]
    constructor
    · rintro (h | rfl)
      · cases h
      · exact ⟨0, le_refl _, rfl⟩
    · rintro ⟨i, hi, rfl⟩
      exact Or.inr (by rw [Nat.le_zero.1 hi]; rfl)
  | succ n ih =>
    obtain ⟨s1, h1, h2, h3, h4, h5⟩ := ih
    have hd : (removeTemp s1).disk = s.disk := by
      simp only [removeTemp]
      rw [h4, filter_other _ _ (by rw [h2]; exact h _ (by omega))]
    have hn : (removeTemp s1).nPlots = s.nPlots + (n + 1) := h3
    obtain ⟨s', g1, g2, g3, g4, g5⟩ := create_free (removeTemp s1) (by
      intro m hm'
      rw [hd]
      exact h m (by rw [hn] at hm'; omega))
    rw [hn] at g2 g3 g5
    rw [hd] at g4
    refine ⟨s', ?_, g2, g3, g4, ?_⟩
    · simp only [lifeTime, h1]
      show setSample s1 = _
      rw [setSample, if_pos (by rw [h4]; exact List.mem_cons_self), g1]
    · intro p
      rw [g5, show (removeTemp s1).mine = s1.mine from rfl, h5]
      constructor
      · rintro (⟨i, hi, rfl⟩ | rfl)
        · exact ⟨i, by omega, rfl⟩
        · exact ⟨n + 1, le_refl _, rfl⟩
      · rintro ⟨i, hi, rfl⟩
        by_cases he : i = n + 1
        · subst he; exact Or.inr rfl
        · exact Or.inl ⟨i, by omega, rfl⟩

/-- **C143 (refuted)** A folder that another program made is removed: every `plottempN` that was passed over while looking for a
free name is taken for one of the object's own. -/
theorem C143_other_refuted : ∃ (s s' : Dirs), s.mine = [] ∧ folderName 0 ∈ s.disk ∧ createFolder s = some s' ∧
    folderName 0 ∉ (destroy s').disk :=
  ⟨⟨[folderName 0], 0, [], []⟩, ⟨[folderName 1, folderName 0], 2, folderName 1, [folderName 0, folderName 1]⟩, rfl,
    List.mem_cons_self, by decide +kernel, by decide +kernel⟩

example : FreeFrom 0 ["data/".toList] := by
  intro m _ h
  have h1 := congrArg List.head? (List.mem_singleton.1 h)
  have h2 : (folderName m).head? = some 'p' := rfl
  rw [h2] at h1
  exact absurd h1 (by decide)

end MLTK.Props
