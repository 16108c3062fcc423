import Verif.Lemmas.Visual
import Mathlib.Data.Rat.Floor
/-!
# C132-C134: the files, the legend and the commands of a plot
-/
namespace MLTK.Props
open MLTK.Spec MLTK.Vis
open MLTK.Data (Res_bind_ok Res_bind_error Res_pure)

/-- **C132 (partial)** For a dataset built by inserting samples, with class names that differ and have no `/`, creating the
temporary files leaves in the file of every class exactly the lines of the samples of that class, in order, touches no
other file, and answers the paths of these files. -/
theorem C132_files_partial {K : Type} (tx : Txt K) (shwI : Int → Str) (folder : Str) (d : VData K) (fs : Files) (dim : Nat)
    (hc : d.classification = true) (hw : WellLabelled d.rows d.classes d.names dim) (hs : ∀ n ∈ d.names, '/' ∉ n) :
    ∃ fs', createTempFiles tx shwI folder d fs = .ok (fs', d.names.map (plotFile folder)) ∧
      (∀ (i : Nat) n c, d.names[i]? = some n → d.classes[i]? = some c →
        fs' (plotFile folder n) = some (linesOfClass tx.shw d.rows c)) ∧
      ∀ p, p ∉ d.names.map (plotFile folder) → fs' p = fs p := by
  obtain ⟨h1, h2, h3, h4⟩ := openAll_ok folder d.names fs hw.namesNodup hs
  have hz : (openAll folder d.names fs).2.1 =
      List.zipWith (fun n (c : Str) => some (plotFile folder n, c.length)) d.names (d.names.map (fun _ => ([] : Str))) := by
    rw [h1, List.zipWith_map_right]
    simp
  obtain ⟨fs', he, hm, hf⟩ := writeRows_ok tx.shw folder d.classes d.names hw.same hw.classesNodup hw.namesNodup d.rows
    (openAll folder d.names fs).1 (d.names.map (fun _ => ([] : Str)))
    (fun r hr => ⟨hw.known r hr, by
      intro h0; have := hw.wide r hr; rw [h0] at this; exact absurd this (by have := hw.pos; simp; omega)⟩)
    (by simp) (by
      intro i n c hn hc
      rw [List.getElem?_map, hn, Option.map_some] at hc
      obtain rfl := Option.some.inj hc
      exact h3 n (List.mem_of_getElem? hn))
  refine ⟨fs', ?_, ?_, ?_⟩
  · simp only [createTempFiles, hc, if_true, hz, he, Res_bind_ok, h2, Res_pure]
  · intro i n c hn hcl
    have := hm i n c [] hn hcl (by rw [List.getElem?_map, hn]; rfl)
    simpa using this
  · intro p hp
    rw [hf p hp, h4 p hp]

/-- Numbers for the examples: an integer is shown as its numeral. -/
def demoTxt : Txt ℚ :=
  ⟨fun v => Text.natChars v.floor.toNat, fun v => Text.natChars v.floor.toNat, fun v => Text.natChars v.floor.toNat⟩

/-- A dataset for the examples: classes 1 and -1, two features. -/
def demoVis (names : List Str) : VData ℚ :=
  ⟨"d".toList, true, [([1, 2], 1), ([3, 4], -1), ([5, 6], 1)], [1, -1], names, [1, 2]⟩

theorem demoVis_wellLabelled (a b : Str) (h : a ≠ b) :
    WellLabelled (demoVis [a, b]).rows (demoVis [a, b]).classes (demoVis [a, b]).names 2 :=
  ⟨rfl, by simp [demoVis], by simp [demoVis, h], by simp [demoVis], by simp [demoVis], by decide⟩

example : WellLabelled (demoVis ["yes".toList, "no".toList]).rows [1, -1] ["yes".toList, "no".toList] 2 ∧
    linesOfClass demoTxt.shw (demoVis []).rows 1 = "1 2\n5 6\n".toList := ⟨demoVis_wellLabelled _ _ (by decide), by decide +kernel⟩

/-- **C132 (refuted)** With two classes of the same name samples are lost: the file holds only the lines of one class. -/
theorem C132_same_name_refuted : ∃ fs',
    createTempFiles demoTxt (fun _ => []) "p/".toList (demoVis ["c".toList, "c".toList]) (fun _ => none) =
      .ok (fs', [plotFile "p/".toList "c".toList, plotFile "p/".toList "c".toList]) ∧
    fs' (plotFile "p/".toList "c".toList) = some "3 4\n5 6\n".toList := by
  refine ⟨_, rfl, ?_⟩
  decide +kernel

/-- **C132 (refuted)** The samples of a class whose name has a `/` are in no file. -/
theorem C132_slash_refuted : ∃ fs',
    createTempFiles demoTxt (fun _ => []) "p/".toList (demoVis ["n/a".toList, "b".toList]) (fun _ => none) =
      .ok (fs', [plotFile "p/".toList "b".toList]) ∧
    fs' (plotFile "p/".toList "b".toList) = some "3 4\n".toList ∧
    ∀ p, p ≠ plotFile "p/".toList "b".toList → fs' p = none := by
  refine ⟨_, rfl, by decide +kernel, ?_⟩
  intro p hp
  have hp' : p ≠ plotFile ['p', '/'] ['b'] := hp
  simp [openAll, emit, Function.update, classPath_eq, hp', demoVis]

/-- **C132 (partial)** For a regression dataset the file `samples.plt` gets one line for each sample, in order: the features
and the target; without a dataset name the answer is its path. -/
theorem C132_regression_partial {K : Type} (tx : Txt K) (shwI : Int → Str) (folder : Str) (d : VData K) (fs : Files)
    (hc : d.classification = false) :
    ∃ fs' ps, createTempFiles tx shwI folder d fs = .ok (fs', ps) ∧
      fs' (plotFile folder "samples".toList) = some ((d.rows.map (fun r => fileLine (r.1.map tx.shw ++ [shwI r.2]))).flatten) ∧
      (∀ p, p ≠ plotFile folder "samples".toList → fs' p = fs p) ∧
      (d.name = [] → ps = [plotFile folder "samples".toList]) := by
  have hp : folder ++ "samples.plt".toList = plotFile folder "samples".toList := by simp [plotFile]
  have hl : ∀ r : List K × Int, regrText tx.shw shwI r = fileLine (r.1.map tx.shw ++ [shwI r.2]) := by
    intro r
    rw [fileLine, intercalate_snoc, regrText, List.map_map]
    rfl
  refine ⟨_, _, by simp only [createTempFiles, hc, Bool.false_eq_true, if_false]; rfl, ?_, ?_, ?_⟩
  · rw [hp, Function.update_self, List.map_congr_left (fun r _ => hl r)]
  · intro p hne
    rw [hp, Function.update_of_ne hne]
  · intro hn
    rw [if_pos hn, hp]

/-- **C132 (refuted)** For a regression dataset with a name the answer is the path of a file that was not created. -/
theorem C132_regression_refuted {K : Type} (tx : Txt K) (shwI : Int → Str) (folder : Str) (d : VData K)
    (hc : d.classification = false) (hn : d.name ≠ []) (hs : d.name ≠ "samples".toList) :
    ∃ fs', createTempFiles tx shwI folder d (fun _ => none) = .ok (fs', [plotFile folder d.name]) ∧
      fs' (plotFile folder d.name) = none := by
  refine ⟨_, by
    simp only [createTempFiles, hc, Bool.false_eq_true, if_false, if_neg hn]
    have : folder ++ (d.name ++ ".plt".toList) = plotFile folder d.name := by simp [plotFile]
    rw [this], ?_⟩
  have hp : folder ++ "samples.plt".toList = plotFile folder "samples".toList := by simp [plotFile]
  rw [hp, Function.update_of_ne (fun h => hs (plotFile_inj h))]

/-- **C133 (partial)** When the class names differ, are not empty and have neither `.` nor `/`, the legend is right: whatever
the order in which the folder is listed, the labels and the files come out in the order of the classes, and each label is
the class name of its file. -/
theorem C133_legend_partial (k : Nat) (classes : List Int) (names listing : List Str) (hlen : names.length = classes.length)
    (hcn : classes.Nodup) (hnn : names.Nodup) (hok : ∀ n ∈ names, n ≠ [] ∧ '/' ∉ n ∧ '.' ∉ n)
    (hl : listing.Perm ([".".toList, "..".toList] ++ names.map (· ++ ".plt".toList))) :
    ∃ order, ByClass classes names order ∧
      sortLabels classes names false (tempFiles (folderName k) listing) =
        .ok (order.map Prod.snd, order.map (fun p => plotFile (folderName k) p.2)) := by
  obtain ⟨order, hord⟩ := byClass_exists classes names hlen hcn
  obtain ⟨base, hb, hb0, hb1, hb2, -⟩ := folder_chars k
  refine ⟨order, hord, sortLabels_ok classes names false (plotFile (folderName k)) _ order hlen hnn ?_
    (tempFiles_perm _ names listing hl) hord⟩
  intro n hn
  obtain ⟨h0, h1, h2⟩ := hok n hn
  have := labelOf_ok (decision := false) (sep := '.') (rest := ['.', 'p', 'l', 't']) rfl hb0 hb1 hb2 h0 h1 h2 rfl (by decide)
  rw [plotFile, hb]
  simpa using this

/-- **C133 (partial)** The same for the files of the decision surface, when the class names have neither `_` nor `/`. -/
theorem C133_surface_partial (k : Nat) (stamp : Str) (classes : List Int) (names : List Str) (hlen : names.length = classes.length)
    (hcn : classes.Nodup) (hnn : names.Nodup) (hok : ∀ n ∈ names, n ≠ [] ∧ '/' ∉ n ∧ '_' ∉ n) :
    ∃ order, ByClass classes names order ∧
      sortLabels classes names true (names.map (fun n => folderName k ++ n ++ "_data".toList ++ stamp ++ ".dat".toList)) =
        .ok (order.map Prod.snd, order.map (fun p => folderName k ++ p.2 ++ "_data".toList ++ stamp ++ ".dat".toList)) := by
  obtain ⟨order, hord⟩ := byClass_exists classes names hlen hcn
  obtain ⟨base, hb, hb0, hb1, -, hb2⟩ := folder_chars k
  refine ⟨order, hord, sortLabels_ok classes names true
    (fun n => folderName k ++ n ++ "_data".toList ++ stamp ++ ".dat".toList) _ order hlen hnn ?_ (List.Perm.refl _) hord⟩
  intro n hn
  obtain ⟨h0, h1, h2⟩ := hok n hn
  have := labelOf_ok (decision := true) (sep := '_') (rest := "_data".toList ++ stamp ++ ".dat".toList) rfl hb0 hb1 hb2 h0 h1 h2
    rfl (by decide)
  rw [hb]
  simpa using this

example : sortLabels [1, -1] ["yes".toList, "no".toList] false
      (tempFiles (folderName 12) ["yes.plt".toList, "..".toList, ".".toList, "no.plt".toList]) =
    .ok (["no".toList, "yes".toList], ["plottemp12/no.plt".toList, "plottemp12/yes.plt".toList]) := by decide +kernel

/-- **C133 (refuted)** With two classes whose names have a dot the legend cannot be made: an assertion fails. -/
theorem C133_dot_refuted : sortLabels [1, -1] ["v1.0".toList, "v2.0".toList] false
    (tempFiles (folderName 0) ["v1.0.plt".toList, "v2.0.plt".toList]) = .error .assertFail := by decide +kernel

/-- **C133 (refuted)** A single class whose name has a dot is shown under a part of its name. -/
theorem C133_cut_refuted : sortLabels [1] ["v1.0".toList] false (tempFiles (folderName 0) ["v1.0.plt".toList]) =
    .ok (["v1".toList], ["plottemp0/v1.0.plt".toList]) := by decide +kernel

/-- **C133 (refuted)** Two classes are shown under the same name when the name of one is that of the other up to a dot. -/
theorem C133_same_title_refuted : sortLabels [1, 2, 3] ["a".toList, "a.1".toList, "b".toList] false
      (tempFiles (folderName 0) ["a.plt".toList, "a.1.plt".toList, "b.plt".toList]) =
    .ok (["a".toList, "a".toList, "b".toList],
      ["plottemp0/a.plt".toList, "plottemp0/a.1.plt".toList, "plottemp0/b.plt".toList]) := by decide +kernel

/-- **C133 (refuted)** A class without a name is read outside a list, one with an underscore stops the decision surface. -/
theorem C133_empty_refuted :
    sortLabels [1] [[]] false (tempFiles (folderName 0) [".plt".toList]) = .error .outOfBounds ∧
    sortLabels [1, 2] ["a_1".toList, "a_2".toList] true
      ["plottemp0/a_1_data7.dat".toList, "plottemp0/a_2_data7.dat".toList] = .error .assertFail := by decide +kernel

section
variable {K : Type} [Field K] [LinearOrder K] [FloorRing K]

/-- What C134 supposes of the object: a dataset built by inserting samples, class names that the file names can carry, and a
folder with exactly the files of the classes. -/
structure Plottable (e : Env K) (dim : Nat) : Prop where
  labelled : WellLabelled e.d.rows e.d.classes e.d.names dim
  some : e.d.classes ≠ []
  plain : ∀ n ∈ e.d.names, n ≠ [] ∧ '/' ∉ n ∧ '.' ∉ n
  folder : ∃ k, e.folder = folderName k
  files : e.listing.Perm ([".".toList, "..".toList] ++ e.d.names.map (· ++ ".plt".toList))

/-- The interval shown for a feature. -/
def shown (e : Env K) (scale : K) (x : Nat) : Str :=
  interval e.tx.fix (axisRange e.tiny e.big scale (e.d.rows.map (fun r => r.1.getD x 0)))

theorem plottable_sort {e : Env K} {dim : Nat} (h : Plottable e dim) : ∃ order, ByClass e.d.classes e.d.names order ∧
    order ≠ [] ∧ order.length = e.d.names.length ∧
    sortLabels e.d.classes e.d.names false (tempFiles e.folder e.listing) =
      .ok (order.map Prod.snd, order.map (fun p => plotFile e.folder p.2)) := by
  obtain ⟨k, hk⟩ := h.folder
  obtain ⟨order, ho, hs⟩ := C133_legend_partial k e.d.classes e.d.names e.listing h.labelled.same h.labelled.classesNodup
    h.labelled.namesNodup h.plain h.files
  have hl : order.length = e.d.names.length := by
    rw [ho.1.length_eq, List.length_zip, h.labelled.same]; simp
  refine ⟨order, ho, ?_, hl, by rw [hk]; exact hs⟩
  intro h0
  rw [h0] at hl
  have := h.labelled.same
  exact h.some (List.eq_nil_of_length_eq_zero (by simp at hl; omega))

theorem outName_eq (name pre infx rest : Str) :
    outName name pre infx rest = (if name = [] then pre else name ++ infx) ++ rest := by
  unfold outName; split <;> rfl

/-- **C134 (partial)** `plot2D(x, y)`: the command sent draws, for every class in increasing order and once, the columns
`x + 1` and `y + 1` of the file of the class under the name of the class, after the statements for the terminal, the title,
the ranges of both features and the labels; the script returned is the same text on lines. -/
theorem C134_plot2D_partial (e : Env K) (a : Args K) (x y dim : Nat) (c : Cfg) (h : Plottable e dim)
    (hx : x < dim) (hy : y < dim) (hd : dim < 2 ^ 31) (hz : c.zr = []) :
    ∃ o order tx ty sx sy, plot2D e a x y c = .ok o ∧ ByClass e.d.classes e.d.names order ∧
      IsNumeral (x : Int) tx ∧ IsNumeral (y : Int) ty ∧ IsNumeral ((x : Int) + 1) sx ∧ IsNumeral ((y : Int) + 1) sy ∧
      o.sent = Preamble.text ⟨a.save, a.fmt,
          (if e.d.name = [] then "2dplot_".toList else e.d.name ++ "_2d_".toList) ++ (tx ++ "_".toList ++ ty),
          c.terminal, a.title, shown e a.scale x, shown e a.scale y, [], a.xl, a.yl, []⟩ ++
        ("plot ".toList ++ drawClasses e.folder (sx ++ ":".toList ++ sy) order) ∧
      o.script = onLines o.sent := by
  obtain ⟨order, ho, hne, hlen, hs⟩ := plottable_sort h
  obtain ⟨sx, h1, n1⟩ := colNo_ok x (by omega)
  obtain ⟨sy, h2, n2⟩ := colNo_ok y (by omega)
  obtain ⟨tx, h3, n3⟩ := itos_nat x (by omega)
  obtain ⟨ty, h4, n4⟩ := itos_nat y (by omega)
  have hcl := clauses_titled order e.folder (sx ++ ":".toList ++ sy) [] hne
  rw [List.append_nil, List.append_nil] at hcl
  refine ⟨finish ("plot ".toList ++ drawClasses e.folder (sx ++ ":".toList ++ sy) order)
      (configurePlot (outName e.d.name "2dplot_".toList "_2d_".toList (tx ++ "_".toList ++ ty)) a.fmt a.title a.save a.xl a.yl []
        { c with xr := shown e a.scale x, yr := shown e a.scale y }), order, tx, ty, sx, sy, ?_, ho, n3, n4, n1, n2, ?_, rfl⟩
  · simp only [plot2D, h1, h2, h3, h4, Res_bind_ok, configureRange, column_ok e.d x dim h.labelled.wide hx,
      column_ok e.d y dim h.labelled.wide hy, Except.map, hs, List.length_map, hcl, Res_pure, rangeText_eq, shown]
  · simp only [finish, fetch_text, configurePlot, hz, outName_eq]

/-- **C134 (partial)** `plot3D(x, y, z)`: likewise with three columns and three ranges. -/
theorem C134_plot3D_partial (e : Env K) (a : Args K) (x y z dim : Nat) (c : Cfg) (h : Plottable e dim)
    (hx : x < dim) (hy : y < dim) (hz : z < dim) (hd : dim < 2 ^ 31) :
    ∃ o order tx ty tz sx sy sz, plot3D e a x y z c = .ok o ∧ ByClass e.d.classes e.d.names order ∧
      IsNumeral (x : Int) tx ∧ IsNumeral (y : Int) ty ∧ IsNumeral (z : Int) tz ∧
      IsNumeral ((x : Int) + 1) sx ∧ IsNumeral ((y : Int) + 1) sy ∧ IsNumeral ((z : Int) + 1) sz ∧
      o.sent = Preamble.text ⟨a.save, a.fmt,
          (if e.d.name = [] then "3dplot_".toList else e.d.name ++ "_3d_".toList) ++ (tx ++ "_".toList ++ ty ++ "_".toList ++ tz),
          c.terminal, a.title, shown e a.scale x, shown e a.scale y, shown e a.scale z, a.xl, a.yl, a.zl⟩ ++
        ("splot ".toList ++ drawClasses e.folder (sx ++ ":".toList ++ sy ++ ":".toList ++ sz) order) ∧
      o.script = onLines o.sent := by
  obtain ⟨order, ho, hne, hlen, hs⟩ := plottable_sort h
  obtain ⟨sx, h1, n1⟩ := colNo_ok x (by omega)
  obtain ⟨sy, h2, n2⟩ := colNo_ok y (by omega)
  obtain ⟨sz, h5, n5⟩ := colNo_ok z (by omega)
  obtain ⟨tx, h3, n3⟩ := itos_nat x (by omega)
  obtain ⟨ty, h4, n4⟩ := itos_nat y (by omega)
  obtain ⟨tz, h6, n6⟩ := itos_nat z (by omega)
  have hcl := clauses_titled order e.folder (sx ++ ":".toList ++ sy ++ ":".toList ++ sz) [] hne
  rw [List.append_nil, List.append_nil] at hcl
  refine ⟨finish ("splot ".toList ++ drawClasses e.folder (sx ++ ":".toList ++ sy ++ ":".toList ++ sz) order)
      (configurePlot (outName e.d.name "3dplot_".toList "_3d_".toList (tx ++ "_".toList ++ ty ++ "_".toList ++ tz)) a.fmt a.title
        a.save a.xl a.yl a.zl { c with xr := shown e a.scale x, yr := shown e a.scale y, zr := shown e a.scale z }),
      order, tx, ty, tz, sx, sy, sz, ?_, ho, n3, n4, n6, n1, n2, n5, ?_, rfl⟩
  · simp only [plot3D, h1, h2, h3, h4, h5, h6, Res_bind_ok, configureRange, column_ok e.d x dim h.labelled.wide hx,
      column_ok e.d y dim h.labelled.wide hy, column_ok e.d z dim h.labelled.wide hz, Except.map, hs, ← hlen, hcl, Res_pure,
      rangeText_eq, shown]
  · simp only [finish, fetch_text, configurePlot, outName_eq]

/-- The object of the examples. -/
def demoEnv : Env ℚ := ⟨demoTxt, 0, 100, demoVis ["yes".toList, "no".toList], folderName 3,
  ["yes.plt".toList, ".".toList, "no.plt".toList, "..".toList]⟩

/-- The arguments of the examples. -/
def demoArgs : Args ℚ := ⟨false, 1, "t".toList, "svg".toList, "x".toList, "y".toList, []⟩

theorem demoEnv_plottable : Plottable demoEnv 2 :=
  ⟨demoVis_wellLabelled _ _ (by decide), by simp [demoEnv, demoVis], by simp [demoEnv, demoVis], ⟨3, rfl⟩,
    by decide⟩

example : (match plot2D demoEnv demoArgs 0 1 Cfg.fresh with
    | .ok o => decide (o.script = ("set terminal wxt\nset title 't'\nset xrange [1:5]\nset yrange [2:6]\n" ++
        "set xlabel 'x'\nset ylabel 'y'\nplot 'plottemp3/no.plt' using 1:2 title 'no' with points, " ++
        "'plottemp3/yes.plt' using 1:2 title 'yes' with points").toList)
    | .error _ => false) = true := by decide +kernel

/-- **C134 (refuted)** Two classes of the same name: `plot3D` and the plots with a hyperplane read beyond the files. -/
theorem C134_same_name_refuted : plot3D { demoEnv with d := demoVis ["c".toList, "c".toList], listing := ["c.plt".toList] }
      demoArgs 0 1 0 Cfg.fresh = .error .outOfBounds ∧
    plot2DwithHyperplane { demoEnv with d := demoVis ["c".toList, "c".toList], listing := ["c.plt".toList] }
      demoArgs 0 1 ⟨[1, 1], 0, 0, 0⟩ Cfg.fresh = .error .outOfBounds := by decide +kernel

/-- **C134 (refuted)** Without any file a plot of features reads outside a list. -/
theorem C134_no_file_refuted (c : Cfg) : plot2D { demoEnv with d := ⟨[], true, [], [], [], []⟩, listing := [] } demoArgs 0 1 c =
    .error .outOfBounds := by
  have h1 : colNo 0 = .ok ['1'] := by decide +kernel
  have h2 : colNo 1 = .ok ['2'] := by decide +kernel
  have h3 : Text.itos 0 = .ok ['0'] := by decide +kernel
  have h4 : Text.itos 1 = .ok ['1'] := by decide +kernel
  simp [plot2D, h1, h2, h3, h4, Res_bind_ok, configureRange, VData.column, tempFiles, sortLabels, sortBy, clauses, Except.map, pure,
    Except.pure, Res_bind_error]

end
end MLTK.Props
