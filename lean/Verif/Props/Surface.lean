import Verif.Model.SurfaceCmd
import Verif.Spec.Surface
import Verif.Props.VisualMore
import Verif.Props.Readers
/-!
# C188, C189: the decision surface as it is drawn, and folders that are kept
-/
namespace MLTK.Props
open MLTK.Spec MLTK.Vis
open MLTK.Data (Res_bind_ok Res_bind_error Res_pure)

section
variable {K : Type} [Field K] [LinearOrder K] [FloorRing K]

omit [Field K] [LinearOrder K] [FloorRing K] in
theorem gridOf_drop (f : List K → K) (ys : List K) : ∀ (xs : List K) (i : Nat),
    (gridOf xs ys f).drop (i * ys.length) = gridOf (xs.drop i) ys f
  | xs, 0 => by simp
  | [], i+1 => by simp [gridOf]
  | a :: xs, i+1 => by
    rw [List.drop_succ_cons, ← gridOf_drop f ys xs i]
    simp only [gridOf, List.flatMap_cons]
    rw [show (i + 1) * ys.length = (ys.map (fun b => (a, b, f [a, b]))).length + i * ys.length by simp; ring,
      List.drop_append, List.drop_of_length_le (by omega), List.nil_append]
    congr 1
    omega

omit [Field K] [FloorRing K] [LinearOrder K] in
theorem gridText_eq (tx : Txt K) (f : List K → K) (xs ys : List K) (h : ys.length = xs.length) :
    gridText tx xs.length (gridOf xs ys f) = surfaceBlocks tx.shw tx.fix xs ys f := by
  unfold gridText surfaceBlocks
  congr 1
  apply List.ext_getElem?
  intro i
  rw [List.getElem?_map, List.getElem?_map]
  by_cases hi : i < xs.length
  · rw [List.getElem?_range hi, List.getElem?_eq_getElem hi, Option.map_some, Option.map_some]
    congr 1
    rw [← h, gridOf_drop, List.drop_eq_getElem_cons hi]
    simp only [gridOf, List.flatMap_cons]
    rw [List.take_append_of_le_length (by simp), List.take_of_length_le (by simp), List.map_map]
    congr 2
    apply List.map_congr_left
    intro b _
    simp [Function.comp, gridLine, fileLine, List.intercalate]
  · rw [List.getElem?_eq_none (by simpa using hi), List.getElem?_eq_none (by simpa using hi)]; rfl

theorem surface_clause_ok (order : List (Int × Str)) (path : Str → Str) (n i : Nat) (p : Int × Str) (h : order[i]? = some p) :
    surfaceClause n (order.map (fun p => path p.2)) (order.map Prod.snd) i =
      .ok ("'".toList ++ path p.2 ++ "' title '".toList ++ p.2 ++ "' with points".toList ++
        (if i + 1 < n then ",".toList else ";".toList)) := by
  rw [surfaceClause, vget_map _ _ _ _ h, Res_bind_ok, vget_map _ _ _ _ h, Res_bind_ok, Res_pure]

theorem surface_clauses (order : List (Int × Str)) (path : Str → Str) (hne : order ≠ []) :
    ∃ cl, (List.range order.length).mapM (surfaceClause order.length (order.map (fun p => path p.2)) (order.map Prod.snd)) = .ok cl ∧
      cl.flatten = List.intercalate ",".toList
        (order.map (fun p => "'".toList ++ path p.2 ++ "' title '".toList ++ p.2 ++ "' with points".toList)) ++ ";".toList := by
  obtain ⟨init, last, rfl⟩ : ∃ init last, order = init ++ [last] := by
    rcases List.eq_nil_or_concat order with h | ⟨l, b, h⟩
    · exact absurd h hne
    · exact ⟨l, b, by simpa using h⟩
  generalize hs : (fun p : Int × Str => "'".toList ++ path p.2 ++ "' title '".toList ++ p.2 ++ "' with points".toList) = part
  have hpart : ∀ p : Int × Str, "'".toList ++ path p.2 ++ "' title '".toList ++ p.2 ++ "' with points".toList = part p :=
    fun p => congrFun hs p
  refine ⟨init.map (fun p => part p ++ ",".toList) ++ [part last ++ ";".toList], ?_, ?_⟩
  · have h1 := Feat.mapM_ok (f := surfaceClause (init ++ [last]).length ((init ++ [last]).map (fun p => path p.2))
        ((init ++ [last]).map Prod.snd))
      (g := fun i => (init.map (fun p => part p ++ ",".toList) ++ [part last ++ ";".toList]).getD i [])
      (l := List.range (init ++ [last]).length) ?_
    · rw [h1]
      congr 1
      apply List.ext_getElem?
      intro i
      rw [List.getElem?_map]
      by_cases hi : i < (init ++ [last]).length
      · rw [List.getElem?_range hi, Option.map_some, List.getD_eq_getElem?_getD, List.getElem?_eq_getElem (by simpa using hi)]
        rfl
      · rw [List.getElem?_eq_none (by simpa using hi), List.getElem?_eq_none (by simpa using hi)]; rfl
    · intro i hi
      have hi' : i < init.length + 1 := by simpa using hi
      by_cases h : i < init.length
      · have hget : (init ++ [last])[i]? = some init[i] := by
          rw [List.getElem?_append_left h]; exact List.getElem?_eq_getElem h
        rw [surface_clause_ok _ _ _ _ _ hget, hpart, if_pos (by simp; omega), List.getD_eq_getElem?_getD,
          List.getElem?_append_left (by simpa using h), List.getElem?_map, List.getElem?_eq_getElem h]
        rfl
      · have he : i = init.length := by omega
        subst he
        have hget : (init ++ [last])[init.length]? = some last := by simp
        rw [surface_clause_ok _ _ _ _ _ hget, hpart, if_neg (by simp), List.getD_eq_getElem?_getD]
        simp
  · rw [List.map_append, List.map_singleton, intercalate_snoc, List.flatten_append, List.map_map]
    simp [Function.comp_def]

theorem surfaceText_eq (conf grid scatter parts : Str) (classes : List Int) (h : scatter = parts ++ ";".toList) :
    surfaceText conf grid classes scatter = conf ++ ("set pm3d map;set pm3d interpolate 0,0;set cbrange [".toList ++
      Text.showInt (PointM.pmin (2 ^ 31 - 1) classes) ++ ":".toList ++ Text.showInt (PointM.pmax (-2 ^ 31) classes) ++
      "];set cbtics 1;set palette rgbformulae 22,13,10;splot '".toList ++ grid ++ "', ".toList ++ parts ++ ";".toList) := by
  subst h
  rw [surfaceText]
  generalize Text.showInt (PointM.pmin (2 ^ 31 - 1) classes) = lo
  generalize Text.showInt (PointM.pmax (-2 ^ 31) classes) = hi
  simp

theorem classSpan_ok (classes : List Int) (hne : classes ≠ []) (hint : ∀ c ∈ classes, -2 ^ 31 ≤ c ∧ c ≤ 2 ^ 31 - 1) :
    ClassSpan classes (PointM.pmin (2 ^ 31 - 1) classes) (PointM.pmax (-2 ^ 31) classes) := by
  obtain ⟨c0, h0⟩ := List.exists_mem_of_ne_nil _ hne
  have hlb := PointM.pmin_lb (2 ^ 31 - 1) classes
  have hub := PointM.pmax_ub (-2 ^ 31) classes
  refine ⟨?_, ?_, fun c hc => ⟨hlb c hc, hub c hc⟩⟩
  · rcases PointM.pmin_mem (2 ^ 31 - 1) classes with h | h
    · have h1 := hlb c0 h0
      have h2 := (hint c0 h0).2
      rw [h] at h1
      rw [h, le_antisymm h1 h2]; exact h0
    · exact h
  · rcases PointM.pmax_mem (-2 ^ 31) classes with h | h
    · have h1 := hub c0 h0
      have h2 := (hint c0 h0).1
      rw [h] at h1
      rw [h, le_antisymm h2 h1]; exact h0
    · exact h

/-- **C188 (partial)** `plotDecisionSurface2D` for features `x < y` of a classification dataset whose class names have neither `_` nor
`/`: what is sent to gnuplot sets the title, labels and ranges, colours from the least to the greatest class, and draws the
grid file and over it every class once, in increasing order, under its own name from its own file; the script returned is the same
text on lines; the grid file holds the value of the decision function on the grid of `n` times `n` evenly spaced points in blocks,
and the file of each class exactly the samples of the class with the two features and the label. -/
theorem C188_surface_partial [IsStrictOrderedRing K] (e : Env K) (a : Args K) (x y n dim k : Nat) (isTrained : Bool) (trained : List K → K)
    (train : List (List K × Int) → List K → K) (shwI : Int → Str) (outStamp stamp : Str) (opens : Str → Bool) (c : Cfg)
    (hcl : e.d.classification = true) (hw : WellLabelled e.d.rows e.d.classes e.d.names dim) (hne : e.d.rows ≠ [])
    (hint : ∀ c ∈ e.d.classes, -2 ^ 31 ≤ c ∧ c ≤ 2 ^ 31 - 1)
    (hf : e.d.fnames = (List.range dim).map (fun i => ((i + 1 : Nat) : Int))) (hxy : x < y) (hy : y < dim) (hn : 2 ≤ n)
    (hk : e.folder = folderName k) (hok : ∀ m ∈ e.d.names, m ≠ [] ∧ '/' ∉ m ∧ '_' ∉ m) (hop : ∀ p, opens p = true) (hz : c.zr = []) :
    ∃ r order lo hi slo shi xs ys,
      plotSurface e a x y n isTrained trained train shwI outStamp stamp opens c = .ok r ∧
      ByClass e.d.classes e.d.names order ∧ ClassSpan e.d.classes lo hi ∧ IsNumeral lo slo ∧ IsNumeral hi shi ∧
      EvenlySpaced (axisRange e.tiny e.big a.scale (e.d.rows.map (fun r => r.1.getD x 0))).1
        (axisRange e.tiny e.big a.scale (e.d.rows.map (fun r => r.1.getD x 0))).2 n xs ∧
      EvenlySpaced (axisRange e.tiny e.big a.scale (e.d.rows.map (fun r => r.1.getD y 0))).1
        (axisRange e.tiny e.big a.scale (e.d.rows.map (fun r => r.1.getD y 0))).2 n ys ∧
      r.sent = some (Preamble.text ⟨a.save, a.fmt, "contour_".toList ++ e.d.name ++ "_".toList ++ outStamp, c.terminal, a.title,
          shown e a.scale x, shown e a.scale y, [], a.xl, a.yl, []⟩ ++
        surfaceStatements (surfaceGridFile e.folder e.d.name stamp) slo shi (surfaceClassFile e.folder stamp) order) ∧
      some r.script = r.sent.map onLines ∧
      r.files = (surfaceGridFile e.folder e.d.name stamp, surfaceBlocks e.tx.shw e.tx.fix xs ys (if isTrained then trained
          else train (e.d.rows.map (fun r => ([r.1.getD x 0, r.1.getD y 0], r.2))))) ::
        (e.d.classes.zip e.d.names).map (fun p => (surfaceClassFile e.folder stamp p.2,
          surfaceClassText e.tx.shw shwI e.d.rows x y p.1)) := by
  obtain ⟨s, xs, ys, hs, hxs, hys, hg, hp⟩ := C141_surface_partial e.tiny e.big a.scale e.d x y n dim isTrained trained train hcl hw
    hne hf hxy hy hn
  obtain ⟨order, ho, hso⟩ := C133_surface_partial k stamp e.d.classes e.d.names hw.same hw.classesNodup hw.namesNodup hok
  have hcne : e.d.classes ≠ [] := by
    obtain ⟨r, hr⟩ := List.exists_mem_of_ne_nil _ hne
    exact List.ne_nil_of_mem (hw.known r hr)
  have hlen : order.length = e.d.classes.length := by
    rw [ho.1.length_eq, List.length_zip, hw.same]; simp
  have hone : order ≠ [] := by
    intro h0; rw [h0] at hlen; exact hcne (List.eq_nil_of_length_eq_zero hlen.symm)
  obtain ⟨cl, h1, h2⟩ := surface_clauses order (surfaceClassFile e.folder stamp) hone
  have hnames : (List.range e.d.classes.length).mapM (vget e.d.names) = .ok e.d.names := by
    rw [← hw.same]
    have := Feat.mapM_ok (f := vget e.d.names) (g := fun i => e.d.names.getD i []) (l := List.range e.d.names.length) (by
      intro i hi
      rw [vget_eq_ok, List.getD_eq_getElem?_getD, List.getElem?_eq_getElem (List.mem_range.1 hi)]; rfl)
    rw [this]
    congr 1
    apply List.ext_getElem?
    intro i
    rw [List.getElem?_map]
    by_cases hi : i < e.d.names.length
    · rw [List.getElem?_range hi, Option.map_some, List.getD_eq_getElem?_getD, List.getElem?_eq_getElem hi]; rfl
    · rw [List.getElem?_eq_none (by simpa using hi), List.getElem?_eq_none (by simpa using hi)]; rfl
  have hpath : ∀ m, pointsPath e.folder stamp m = surfaceClassFile e.folder stamp m := fun _ => rfl
  have hso' : sortLabels e.d.classes e.d.names true (e.d.names.map (pointsPath e.folder stamp)) =
      .ok (order.map Prod.snd, order.map (fun p => surfaceClassFile e.folder stamp p.2)) := by
    rw [hk]; exact hso
  have hall : (e.d.names.map (pointsPath e.folder stamp)).all opens = true := by simp [hop]
  have hpts : s.points.map (fun rs => (rs.map (pointLine e.tx shwI)).flatten) =
      e.d.classes.map (fun c => surfaceClassText e.tx.shw shwI e.d.rows x y c) := by
    rw [hp, List.map_map]
    apply List.map_congr_left
    intro c _
    simp only [Function.comp, surfaceClassText, List.map_map]
    congr 1
    apply List.map_congr_left
    intro r _
    simp [Function.comp, pointLine, fileLine, List.intercalate]
  have hfiles : (e.d.names.map (pointsPath e.folder stamp)).zip (s.points.map (fun rs => (rs.map (pointLine e.tx shwI)).flatten)) =
      (e.d.classes.zip e.d.names).map (fun p => (surfaceClassFile e.folder stamp p.2,
          surfaceClassText e.tx.shw shwI e.d.rows x y p.1)) := by
    rw [hpts, List.zip_map, ← List.zip_swap e.d.classes e.d.names, List.map_map]
    rfl
  obtain ⟨cf, hcf⟩ : ∃ cf : Cfg, cf = configurePlot ("contour_".toList ++ e.d.name ++ "_".toList ++ outStamp) a.fmt a.title a.save a.xl a.yl []
    { c with xr := shown e a.scale x, yr := shown e a.scale y } := ⟨_, rfl⟩
  have hrun : plotSurface e a x y n isTrained trained train shwI outStamp stamp opens c =
      .ok ⟨some (surfaceText (fetchConfigs cf).1 (gridPath e.folder e.d.name stamp) e.d.classes cl.flatten),
        prepareScript (surfaceText (fetchConfigs cf).1 (gridPath e.folder e.d.name stamp) e.d.classes cl.flatten), (fetchConfigs cf).2,
        (gridPath e.folder e.d.name stamp, gridText e.tx n s.grid) ::
          (e.d.names.map (pointsPath e.folder stamp)).zip (s.points.map (fun rs => (rs.map (pointLine e.tx shwI)).flatten))⟩ := by
    simp only [plotSurface, hs, Res_bind_ok, configureRange, column_ok e.d x dim hw.wide (by omega), configurePlot,
      column_ok e.d y dim hw.wide hy, Except.map, Res_pure, hop, Bool.not_true, Bool.false_eq_true, if_false, hnames, hall, hso',
      List.length_map]
    rw [← hlen, h1, Res_bind_ok, hcf]
    rfl
  have hcmd := surfaceText_eq (fetchConfigs cf).1 (gridPath e.folder e.d.name stamp) cl.flatten _ e.d.classes h2
  have hfet := fetch_text cf
  generalize hgt : surfaceText (fetchConfigs cf).1 (gridPath e.folder e.d.name stamp) e.d.classes cl.flatten = cmd at hrun hcmd
  have hcmd' : cmd = Preamble.text ⟨a.save, a.fmt, "contour_".toList ++ e.d.name ++ "_".toList ++ outStamp, c.terminal, a.title,
          shown e a.scale x, shown e a.scale y, [], a.xl, a.yl, []⟩ ++
        surfaceStatements (surfaceGridFile e.folder e.d.name stamp) (Text.showInt (PointM.pmin (2 ^ 31 - 1) e.d.classes))
          (Text.showInt (PointM.pmax (-2 ^ 31) e.d.classes)) (surfaceClassFile e.folder stamp) order := by
    refine hcmd.trans (congrArg (· ++ _) ?_)
    refine hfet.trans ?_
    rewrite [hcf]
    simp only [configurePlot, hz]
  refine ⟨_, order, PointM.pmin (2 ^ 31 - 1) e.d.classes, PointM.pmax (-2 ^ 31) e.d.classes,
    Text.showInt (PointM.pmin (2 ^ 31 - 1) e.d.classes), Text.showInt (PointM.pmax (-2 ^ 31) e.d.classes), xs, ys, hrun, ho,
    classSpan_ok _ hcne hint, showInt_numeral _, showInt_numeral _, hxs, hys, ?_, rfl, ?_⟩
  · exact congrArg some hcmd'
  · rw [hfiles, hg, ← hxs.1, gridText_eq e.tx _ xs ys (by rw [hxs.1, hys.1])]
    rfl

/-- A dataset named `d` with the classes 8 and 7. -/
def demoSurfEnv (names : List Str) : Env ℚ :=
  ⟨demoTxt, 1 / 1000, 1000, ⟨"d".toList, true, [([1, 20], 8), ([3, 40], 7)], [8, 7], names, [1, 2]⟩, folderName 3, []⟩

theorem demoSurf_run : plotSurface (demoSurfEnv ["p".toList, "q".toList]) demoArgs 0 1 2 true (fun v => v.getD 1 0) (fun _ _ => 0)
    Text.showInt "now".toList "t".toList (fun _ => true) Cfg.fresh = .ok ⟨some (("set terminal wxt;set title 't';set xrange [1:3];" ++
      "set yrange [20:40];set xlabel 'x';set ylabel 'y';set pm3d map;set pm3d interpolate 0,0;set cbrange [7:8];set cbtics 1;" ++
      "set palette rgbformulae 22,13,10;splot 'plottemp3/d_t.dat', 'plottemp3/q_datat.dat' title 'q' with points," ++
      "'plottemp3/p_datat.dat' title 'p' with points;").toList),
      ("set terminal wxt\nset title 't'\nset xrange [1:3]\n" ++
      "set yrange [20:40]\nset xlabel 'x'\nset ylabel 'y'\nset pm3d map\nset pm3d interpolate 0,0\nset cbrange [7:8]\nset cbtics 1\n" ++
      "set palette rgbformulae 22,13,10\nsplot 'plottemp3/d_t.dat', 'plottemp3/q_datat.dat' title 'q' with points," ++
      "'plottemp3/p_datat.dat' title 'p' with points\n").toList,
      { (configurePlot "contour_d_now".toList "svg".toList "t".toList false "x".toList "y".toList [] Cfg.fresh) with terminal := "wxt".toList },
      [("plottemp3/d_t.dat".toList, "1 20 20\n1 40 40\n\n3 20 20\n3 40 40\n\n".toList),
       ("plottemp3/p_datat.dat".toList, "1 20 8\n".toList), ("plottemp3/q_datat.dat".toList, "3 40 7\n".toList)]⟩ := by
  decide +kernel

example : WellLabelled (demoSurfEnv ["p".toList, "q".toList]).d.rows (demoSurfEnv ["p".toList, "q".toList]).d.classes
    (demoSurfEnv ["p".toList, "q".toList]).d.names 2 :=
  ⟨rfl, by decide, by decide, by decide, by decide, by decide⟩

/-- **C188 (refuted)** A class name with an underscore: for two classes the call stops the program, a single class is shown under
a part of its name. -/
theorem C188_underscore_refuted :
    plotSurface (demoSurfEnv ["p_1".toList, "p_2".toList]) demoArgs 0 1 2 true (fun v => v.getD 1 0) (fun _ _ => 0)
      Text.showInt "now".toList "t".toList (fun _ => true) Cfg.fresh = .error .assertFail := by
  decide +kernel

/-- **C188 (refuted)** When a file cannot be opened nothing is drawn and the answer is the empty text, but the grid file is left behind. -/
theorem C188_unopened_refuted : ∃ r,
    plotSurface (demoSurfEnv ["p".toList, "q/r".toList]) demoArgs 0 1 2 true (fun v => v.getD 1 0) (fun _ _ => 0)
      Text.showInt "now".toList "t".toList (fun p => p.count '/' == 1) Cfg.fresh = .ok r ∧ r.sent = none ∧ r.script = [] ∧
    r.files = [("plottemp3/d_t.dat".toList, "1 20 20\n1 40 40\n\n3 20 20\n3 40 40\n\n".toList), ("plottemp3/p_datat.dat".toList, [])] :=
  ⟨⟨none, [], { (configurePlot "contour_d_now".toList "svg".toList "t".toList false "x".toList "y".toList [] Cfg.fresh) with
      xr := "[1:3]".toList, yr := "[20:40]".toList }, _⟩, by decide +kernel, rfl, rfl, rfl⟩
end

/-! ### folders that are kept -/

theorem savedStamp_clock {t plain : Str} (h : ClockStamp t plain) : savedStamp t = .ok plain := by
  obtain ⟨date, h1, h2, m1, m2, s1, s2, hc, rfl, rfl⟩ := h
  have hd : ∀ c ∈ date, c ≠ ':' := fun c hm => hc c (List.mem_append_left _ hm)
  have hx : ∀ c ∈ [h1, h2, m1, m2, s1, s2], c ≠ ':' := fun c hm => hc c (List.mem_append_right _ hm)
  simp only [List.mem_cons, List.not_mem_nil, or_false, forall_eq_or_imp, forall_eq] at hx
  obtain ⟨a1, a2, a3, a4, a5, a6⟩ := hx
  have hk : (date ++ [h1, h2, ':', m1, m2, ':', s1, s2]).filter (fun ch => ch ≠ ':') = date ++ [h1, h2, m1, m2, s1, s2] := by
    rw [List.filter_append, List.filter_eq_self.2 (by intro c hm; simpa using hd c hm)]
    simp [a1, a2, a3, a4, a5, a6]
  simp only [savedStamp, hk]
  rw [if_pos (by simp)]
  congr 1
  rw [List.drop_append, List.drop_of_length_le (by simp; omega), List.length_append,
    show date.length + [h1, h2, m1, m2, s1, s2].length + 1 - date.length = 7 by simp; omega]
  simp

theorem savedName_folder (k : Nat) (plain : Str) : savedName (folderName k) plain = keptFolder k plain := by
  obtain ⟨base, hb, -, hb1, -⟩ := folder_chars k
  have hb' : base = "plottemp".toList ++ Text.natChars k := by
    have : base ++ ['/'] = ("plottemp".toList ++ Text.natChars k) ++ ['/'] := by rw [← hb]; rfl
    exact List.append_cancel_right this
  have hf : (folderName k).filter (fun ch => ch ≠ '/') = base := by
    rw [hb, List.filter_append, List.filter_eq_self.2 (by
      intro c hm
      simp only [decide_eq_true_eq]
      rintro rfl
      exact hb1 hm)]
    simp
  rw [savedName, hf, hb']
  rfl

theorem folder_no_underscore (k : Nat) : '_' ∉ folderName k := by
  obtain ⟨base, hb, -, -, -, hb2⟩ := folder_chars k
  rw [hb]
  simp [hb2]

theorem kept_ne_folder (k m : Nat) (plain : Str) : keptFolder k plain ≠ folderName m := by
  intro h
  have hl : '_' ∈ "_saved_".toList := by decide +kernel
  have h1 : '_' ∈ keptFolder k plain := List.mem_append_left _ (List.mem_append_left _ (List.mem_append_right _ hl))
  rw [h] at h1
  exact folder_no_underscore m h1

theorem regroup (w s p e : Str) (c : Char) : w ++ (c :: s) ++ p ++ e = w ++ (c :: (s ++ p ++ e)) := by simp

theorem kept_inj {k m : Nat} {p q : Str} (h : keptFolder k p = keptFolder m q) : k = m := by
  have key : ∀ (k : Nat) (p : Str), (keptFolder k p).takeWhile (fun c => c ≠ '_') = "plottemp".toList ++ Text.natChars k := by
    intro k p
    have hn : ∀ c ∈ "plottemp".toList ++ Text.natChars k, (decide (c ≠ '_')) = true := by
      intro c hc
      refine decide_eq_true (fun he => folder_no_underscore k ?_)
      exact List.mem_append_left _ (he ▸ hc)
    have hl : "_saved_".toList = '_' :: "saved_".toList := by decide +kernel
    have this : keptFolder k p = ("plottemp".toList ++ Text.natChars k) ++ ('_' :: ("saved_".toList ++ p ++ "/".toList)) :=
      (congrArg (fun z => "plottemp".toList ++ Nat.toDigits 10 k ++ z ++ p ++ "/".toList) hl).trans (regroup _ _ _ _ _)
    rw [this, List.takeWhile_append_of_pos hn, List.takeWhile_cons_of_neg (by simp), List.append_nil]
  have h1 : "plottemp".toList ++ Text.natChars k = "plottemp".toList ++ Text.natChars m := by
    exact (key k p).symm.trans ((congrArg _ h).trans (key m q))
  apply folderName_inj
  exact congrArg (· ++ "/".toList) h1

/-- The calls of `setSample` of an object that keeps its files: for each the time and the files of the new dataset. -/
def keepSets {α : Type} (s : Kept α) : List (Str × α) → Res (Option (Kept α))
  | [] => .ok (some s)
  | (t, a) :: rest => do
    match ← keepSet t a s with
    | none => pure none
    | some s' => keepSets s' rest

/-- A new object for the files `a`, calls of `setSample`, and the destruction at the time `t`. -/
def keepLife {α : Type} (s : Kept α) (a : α) (sets : List (Str × α)) (t : Str) : Res (Option (Kept α)) :=
  match keepCreate a s with
  | none => pure none
  | some s1 => do
    match ← keepSets s1 sets with
    | none => pure none
    | some s2 => do pure (some (← keepDestroy t s2))

/-- What C189 supposes of the disk: no folder of the names that the object will use. -/
def KeepFree {α : Type} (n : Nat) (disk : List (Str × α)) : Prop :=
  ∀ m, n ≤ m → folderName m ∉ disk.map Prod.fst ∧ ∀ plain, keptFolder m plain ∉ disk.map Prod.fst

/-- The state of an object that keeps its files: its folder is the plot number `k`, the folders kept before are `saved`. -/
structure KeepInv {α : Type} (disk : List (Str × α)) (n k : Nat) (a : α) (saved : List (Str × α)) (s : Kept α) : Prop where
  cur : s.cur = folderName k
  disk : s.disk = (folderName k, a) :: (saved ++ disk)
  next : s.nPlots = k + 1
  mine : ∀ p ∈ s.mine, ∃ m, n ≤ m ∧ p = folderName m
  cur_mine : ∀ m, n ≤ m → m ≤ k → folderName m ∈ s.mine
  saved : ∀ p ∈ saved, ∃ m plain, m < k ∧ p.1 = keptFolder m plain
  le : n ≤ k

theorem keepCreate_inv {α : Type} {disk : List (Str × α)} {n k : Nat} {a : α} {saved : List (Str × α)} (s : Kept α)
    (hfree : KeepFree n disk) (hk : s.nPlots = k) (hd : s.disk = saved ++ disk) (hle : n ≤ k)
    (hm : ∀ p ∈ s.mine, ∃ m, n ≤ m ∧ p = folderName m) (hm' : ∀ m, n ≤ m → m < k → folderName m ∈ s.mine)
    (hs : ∀ p ∈ saved, ∃ m plain, m < k ∧ p.1 = keptFolder m plain) :
    ∃ s', keepCreate a s = some s' ∧ KeepInv disk n k a saved s' := by
  have hf : FreeFrom s.nPlots (s.disk.map Prod.fst) := by
    intro m hkm hmem
    rw [hd, List.map_append] at hmem
    rcases List.mem_append.1 hmem with h | h
    · obtain ⟨p, hp, he⟩ := List.mem_map.1 h
      obtain ⟨i, plain, -, h2⟩ := hs p hp
      exact kept_ne_folder i m plain (h2.symm.trans he)
    · exact (hfree m (by omega)).1 h
  obtain ⟨d, h1, h2, h3, -, h5⟩ := create_free ⟨s.disk.map Prod.fst, s.nPlots, s.cur, s.mine⟩ hf
  simp only [hk] at h2 h3 h5
  refine ⟨⟨(d.cur, a) :: s.disk, d.nPlots, d.cur, d.mine⟩, by rw [keepCreate, h1]; rfl, ?_⟩
  refine ⟨h2, by simp only [h2, hd], h3, ?_, ?_, hs, hle⟩
  · intro p hp
    rcases (h5 p).1 hp with h | h
    · exact hm p h
    · exact ⟨k, hle, h⟩
  · intro m hnm hmk
    apply (h5 _).2
    by_cases he : m = k
    · exact Or.inr (by rw [he])
    · exact Or.inl (hm' m hnm (by omega))

theorem saveTemp_inv {α : Type} {disk : List (Str × α)} {n k : Nat} {a : α} {saved : List (Str × α)} {s : Kept α} {t plain : Str}
    (hfree : KeepFree n disk) (h : KeepInv disk n k a saved s) (ht : ClockStamp t plain) :
    saveTemp t s = .ok { s with disk := ((keptFolder k plain, a) :: saved) ++ disk } := by
  have hnew : keptFolder k plain ∉ s.disk.map Prod.fst := by
    rw [h.disk, List.map_cons, List.map_append]
    intro hm
    rcases List.mem_cons.1 hm with hm | hm
    · exact kept_ne_folder _ _ _ hm
    · rcases List.mem_append.1 hm with hm | hm
      · obtain ⟨p, hp, he⟩ := List.mem_map.1 hm
        obtain ⟨i, q, hi, h2⟩ := h.saved p hp
        have := kept_inj (h2.symm.trans he)
        omega
      · exact (hfree k h.le).2 plain hm
  simp only [saveTemp, savedStamp_clock ht, Res_bind_ok, h.cur, savedName_folder]
  rw [if_neg hnew, Res_pure]
  congr 2
  rw [h.disk, List.map_cons, if_pos rfl, List.cons_append]
  congr 1
  conv_rhs => rw [← List.map_id (saved ++ disk)]
  apply List.map_congr_left
  intro p hp
  rw [if_neg, id]
  intro he
  rcases List.mem_append.1 hp with hp | hp
  · obtain ⟨i, q, -, h2⟩ := h.saved p hp
    exact kept_ne_folder i k q (h2.symm.trans he)
  · exact (hfree k h.le).1 (he ▸ List.mem_map_of_mem hp)

theorem keepSets_ok {α : Type} {disk : List (Str × α)} {n : Nat} (hfree : KeepFree n disk) (t plain : Str) (ht : ClockStamp t plain) :
    ∀ (sets : List (Str × α)) (plains : List Str) (k : Nat) (a : α) (saved : List (Str × α)) (s : Kept α),
    List.Forall₂ ClockStamp (sets.map Prod.fst) plains → KeepInv disk n k a saved s →
    ∃ s1 s2, keepSets s sets = .ok (some s1) ∧ keepDestroy t s1 = .ok s2 ∧
      s2.disk.Perm (keptFolders k ((a :: sets.map Prod.snd).zip (plains ++ [plain])) ++ (saved ++ disk))
  | [], plains, k, a, saved, s, hp, h => by
    cases hp
    refine ⟨s, _, rfl, by rw [keepDestroy, saveTemp_inv hfree h ht, Res_bind_ok, Res_pure], ?_⟩
    show List.Perm (List.filter (fun p => decide (p.1 ∉ s.mine)) (((keptFolder k plain, a) :: saved) ++ disk)) _
    rw [List.filter_eq_self.2]
    · simp [keptFolders]
    · intro p hp
      simp only [decide_eq_true_eq]
      intro hm
      obtain ⟨m, hnm, he⟩ := h.mine _ hm
      rcases List.mem_append.1 hp with hp | hp
      · rcases List.mem_cons.1 hp with rfl | hp
        · exact kept_ne_folder _ _ _ he
        · obtain ⟨i, q, -, h2⟩ := h.saved p hp
          exact kept_ne_folder i m q (h2.symm.trans he)
      · exact (hfree m hnm).1 (he ▸ List.mem_map_of_mem hp)
  | (t1, a1) :: sets, plains, k, a, saved, s, hp, h => by
    cases hp with
    | @cons _ p1 _ plains' h1 hp =>
    obtain ⟨s', hc, hi⟩ := keepCreate_inv (a := a1) (saved := (keptFolder k p1, a) :: saved) (k := k + 1)
      { s with disk := ((keptFolder k p1, a) :: saved) ++ disk } hfree h.next rfl (by have := h.le; omega) h.mine
      (fun m hnm hmk => h.cur_mine m hnm (by omega)) (by
        intro p hp
        rcases List.mem_cons.1 hp with rfl | hp
        · exact ⟨k, p1, by omega, rfl⟩
        · obtain ⟨i, q, hi, h2⟩ := h.saved p hp
          exact ⟨i, q, by omega, h2⟩)
    have hset : keepSet t1 a1 s = .ok (some s') := by
      have hin : s.cur ∈ s.disk.map Prod.fst := by rw [h.cur, h.disk]; simp
      rw [keepSet, if_pos hin, saveTemp_inv hfree h h1, Res_bind_ok]
      exact congrArg Except.ok hc
    obtain ⟨s1, s2, g1, g2, g3⟩ := keepSets_ok hfree t plain ht sets plains' (k + 1) a1 _ s' hp hi
    refine ⟨s1, s2, ?_, g2, g3.trans ?_⟩
    · simp only [keepSets, hset, Res_bind_ok]
      exact g1
    · simp only [List.map_cons, List.cons_append, List.zip_cons_cons, keptFolders]
      exact List.perm_middle

/-- **C189 (partial)** An object that keeps its files, on a disk without folders of the names that it uses: after its construction, any
number of `setSample` and its destruction, every folder that was there is there with its files, and for every dataset that the
object was given there is one more folder, with the files of that dataset, whose name has the number of the plot and the time
at which the folder was left (without colons, and the last digit of the seconds twice). -/
theorem C189_kept_partial {α : Type} (s : Kept α) (a : α) (sets : List (Str × α)) (t plain : Str) (plains : List Str)
    (hm : s.mine = []) (hfree : KeepFree s.nPlots s.disk) (hp : List.Forall₂ ClockStamp (sets.map Prod.fst) plains)
    (ht : ClockStamp t plain) :
    ∃ s', keepLife s a sets t = .ok (some s') ∧
      s'.disk.Perm (keptFolders s.nPlots ((a :: sets.map Prod.snd).zip (plains ++ [plain])) ++ s.disk) := by
  obtain ⟨s0, h0, hi⟩ := keepCreate_inv (a := a) (saved := []) (k := s.nPlots) s hfree rfl (by simp) (le_refl _)
    (by rw [hm]; simp) (fun m h1 h2 => absurd h2 (by omega)) (by simp)
  obtain ⟨s1, s2, h1, h2, h3⟩ := keepSets_ok hfree t plain ht sets plains s.nPlots a [] s0 hp hi
  refine ⟨s2, ?_, h3⟩
  simp only [keepLife, h0, h1, Res_bind_ok, h2, Res_pure]

example : ClockStamp "2024-05-06-07:08:09".toList "2024-05-06-0708099".toList :=
  ⟨"2024-05-06-".toList, '0', '7', '0', '8', '0', '9', by decide +kernel, by decide +kernel, by decide +kernel⟩

example : keepLife ⟨[("data/".toList, 0)], 4, [], []⟩ 1 [("a-07:08:09".toList, 2)] "a-07:08:10".toList =
    .ok (some ⟨[("plottemp5_saved_a-0708100/".toList, 2), ("plottemp4_saved_a-0708099/".toList, 1), ("data/".toList, 0)], 6,
      folderName 5, []⟩) := by decide +kernel

/-- **C189 (refuted)** When the new name is taken the files are lost: the folder keeps its old name and the destructor removes it. -/
theorem C189_taken_refuted : ∃ s : Kept Nat, s.mine = [] ∧ ClockStamp "07:08:09".toList "0708099".toList ∧
    ∃ s', keepLife s 1 [] "07:08:09".toList = .ok (some s') ∧ ∀ p ∈ s'.disk, p.2 ≠ 1 :=
  ⟨⟨[(keptFolder 4 "0708099".toList, 0)], 4, [], []⟩, rfl,
    ⟨[], '0', '7', '0', '8', '0', '9', by decide +kernel, by decide +kernel, by decide +kernel⟩,
    ⟨[(keptFolder 4 "0708099".toList, 0)], 5, folderName 4, []⟩, by decide +kernel, by decide +kernel⟩

/-- **C189 (refuted)** A folder `plottempN` that was there is removed, with its files, also by an object that keeps its files. -/
theorem C189_other_refuted : ∃ s : Kept Nat, s.mine = [] ∧ (folderName 4, 7) ∈ s.disk ∧
    ∃ s', keepLife s 1 [] "07:08:09".toList = .ok (some s') ∧ ∀ p ∈ s'.disk, p.2 ≠ 7 :=
  ⟨⟨[(folderName 4, 7)], 4, [], []⟩, rfl, by simp,
    ⟨[(keptFolder 5 "0708099".toList, 1)], 6, folderName 5, []⟩, by decide +kernel, by decide +kernel⟩

end MLTK.Props
