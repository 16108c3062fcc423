import Verif.Props.VisualFiles
import Mathlib.Tactic.FieldSimp
import Mathlib.Tactic.Ring
import Mathlib.Tactic.Linarith
import Mathlib.Tactic.IntervalCases
/-!
# C135: hyperplanes
-/
namespace MLTK.Props
open MLTK.Spec MLTK.Vis
open MLTK.Data (Res_bind_ok Res_bind_error Res_pure)

section
variable {K : Type} [Field K] [LinearOrder K] [FloorRing K]

omit [LinearOrder K] [FloorRing K] in
theorem line_eq (w : List K) (bias v : K) (x y : Nat) (h2 : w.length = 2) (hx : x < 2) (hy : y < 2) (hxy : x ≠ y)
    (hw : w.getD y 0 ≠ 0) : IsLine w bias v x y (-(w.getD x 0) / w.getD y 0) ((bias - v) / -(w.getD y 0)) := by
  intro p hp
  match w, h2, p, hp with
  | [w0, w1], _, [p0, p1], _ =>
    interval_cases x <;> interval_cases y <;> first | exact absurd rfl hxy | skip
    · simp only [hyperplaneValue, List.getD_cons_zero, List.getD_cons_succ, List.zipWith_cons_cons, List.zipWith_nil_left,
        List.sum_cons, List.sum_nil] at hw ⊢
      constructor
      · intro h; rw [h]; field_simp; ring
      · intro h
        have : w1 * p1 = v - bias - w0 * p0 := by rw [← h]; ring
        field_simp
        rw [mul_comm, this]; ring
    · simp only [hyperplaneValue, List.getD_cons_zero, List.getD_cons_succ, List.zipWith_cons_cons, List.zipWith_nil_left,
        List.sum_cons, List.sum_nil] at hw ⊢
      constructor
      · intro h; rw [h]; field_simp; ring
      · intro h
        have : w0 * p0 = v - bias - w1 * p1 := by rw [← h]; ring
        field_simp
        rw [mul_comm, this]; ring

omit [LinearOrder K] [FloorRing K] in
theorem plane_eq (w : List K) (bias v : K) (x y z : Nat) (h3 : w.length = 3) (hx : x < 3) (hy : y < 3) (hz : z < 3)
    (hxy : x ≠ y) (hxz : x ≠ z) (hyz : y ≠ z) (hw : w.getD z 0 ≠ 0) :
    IsPlane w bias v x y z (-(w.getD x 0) / w.getD z 0) (-(w.getD y 0) / w.getD z 0) ((bias - v) / -(w.getD z 0)) := by
  intro p hp
  have key : ∀ a b c s t u : K, c ≠ 0 → (u = -a / c * s + -b / c * t + (bias - v) / -c ↔ a * s + b * t + c * u + bias = v) := by
    intro a b c s t u hc
    constructor
    · intro h; rw [h]; field_simp; ring
    · intro h
      have : c * u = v - bias - a * s - b * t := by rw [← h]; ring
      field_simp
      rw [mul_comm, this]; ring
  match w, h3, p, hp with
  | [w0, w1, w2], _, [p0, p1, p2], _ =>
    interval_cases x <;> interval_cases y <;> interval_cases z <;>
      first
      | exact absurd rfl hxy
      | exact absurd rfl hxz
      | exact absurd rfl hyz
      | (simp only [hyperplaneValue, List.getD_cons_zero, List.getD_cons_succ, List.zipWith_cons_cons, List.zipWith_nil_left,
          List.sum_cons, List.sum_nil] at hw ⊢
         rw [key _ _ _ _ _ _ hw]
         constructor <;> intro h <;> rw [← h] <;> ring)

omit [LinearOrder K] [FloorRing K] in
theorem sol_at (s : Sol K) (i : Nat) (h : i < s.w.length) : s.at i = .ok (s.w.getD i 0) := by
  simp [Sol.at, h]

/-- **C135 (partial)** `plot2DwithHyperplane` on a dataset with two features, for a solution whose weight of the vertical
feature is not zero: the line `f` drawn is exactly the set of the points with decision value 0, and with a margin the lines
`g` and `h` are the points with decision values `-margin * norm` and `margin * norm`; every class is drawn as in `plot2D`. -/
theorem C135_line_partial (e : Env K) (a : Args K) (x y : Nat) (s : Sol K) (c : Cfg) (h : Plottable e 2)
    (hcl : e.d.classification = true) (hx : x < 2) (hy : y < 2) (hxy : x ≠ y) (hw : s.w.length = 2)
    (hwy : s.w.getD y 0 ≠ 0) (hz : c.zr = []) :
    ∃ o order tx ty sx sy slope f g k, plot2DwithHyperplane e a x y s c = .ok o ∧ ByClass e.d.classes e.d.names order ∧
      IsNumeral (x : Int) tx ∧ IsNumeral (y : Int) ty ∧ IsNumeral ((x : Int) + 1) sx ∧ IsNumeral ((y : Int) + 1) sy ∧
      IsLine s.w s.bias 0 x y slope f ∧ IsLine s.w s.bias (-(s.margin * s.norm)) x y slope g ∧
      IsLine s.w s.bias (s.margin * s.norm) x y slope k ∧
      o.sent = Preamble.text ⟨a.save, a.fmt,
          (if e.d.name = [] then "2dplotsol_".toList else e.d.name ++ "_2dsol_".toList) ++ (tx ++ "_".toList ++ ty),
          c.terminal, a.title, shown e a.scale x, shown e a.scale y, [], a.xl, a.yl, []⟩ ++
        lineCommand e.tx.num s.margin slope f g k (drawClasses e.folder (sx ++ ":".toList ++ sy) order) ∧
      o.script = onLines o.sent := by
  obtain ⟨order, ho, hne, hlen, hs⟩ := plottable_sort h
  obtain ⟨sx, h1, n1⟩ := colNo_ok x (by omega)
  obtain ⟨sy, h2, n2⟩ := colNo_ok y (by omega)
  obtain ⟨tx, h3, n3⟩ := itos_nat x (by omega)
  obtain ⟨ty, h4, n4⟩ := itos_nat y (by omega)
  have hat1 := sol_at s x (by omega)
  have hat2 := sol_at s y (by omega)
  have hq1 : ∀ b : K, lineOf s x y b = .ok (.fin (-(s.w.getD x 0) / s.w.getD y 0), .fin (b / -(s.w.getD y 0))) := by
    intro b
    simp only [lineOf, hat1, hat2, Res_bind_ok, Res_pure, quot, ne_eq, hwy, not_false_eq_true, if_true, neg_eq_zero]
  have hclx := fun extra => clauses_titled order e.folder (sx ++ ":".toList ++ sy) extra hne
  have e1 : (s.bias - 0) = s.bias := sub_zero _
  have e2 : s.bias - -(s.margin * s.norm) = s.bias + s.margin * s.norm := sub_neg_eq_add _ _
  refine ⟨finish (lineCommand e.tx.num s.margin (-(s.w.getD x 0) / s.w.getD y 0) ((s.bias - 0) / -(s.w.getD y 0))
        ((s.bias - -(s.margin * s.norm)) / -(s.w.getD y 0)) ((s.bias - s.margin * s.norm) / -(s.w.getD y 0))
        (drawClasses e.folder (sx ++ ":".toList ++ sy) order))
      (configurePlot (outName e.d.name "2dplotsol_".toList "_2dsol_".toList (tx ++ "_".toList ++ ty)) a.fmt a.title a.save a.xl a.yl []
        { c with xr := shown e a.scale x, yr := shown e a.scale y }), order, tx, ty, sx, sy, _, (s.bias - 0) / -(s.w.getD y 0),
      (s.bias - -(s.margin * s.norm)) / -(s.w.getD y 0), (s.bias - s.margin * s.norm) / -(s.w.getD y 0), ?_, ho, n3, n4, n1, n2,
      line_eq s.w s.bias 0 x y hw hx hy hxy hwy, line_eq s.w s.bias _ x y hw hx hy hxy hwy,
      line_eq s.w s.bias _ x y hw hx hy hxy hwy, ?_, rfl⟩
  · rw [e1, e2]
    by_cases hm : s.margin = 0
    · have hc2 := hclx ", f(x) title 'h(x)' with lines ls 2".toList
      have hcat : " with points".toList ++ ", f(x) title 'h(x)' with lines ls 2".toList =
        " with points, f(x) title 'h(x)' with lines ls 2".toList := by decide +kernel
      rw [hcat] at hc2
      simp only [plot2DwithHyperplane, hcl, Bool.not_true, Bool.false_eq_true, if_false, h1, h2, h3, h4, Res_bind_ok, configureRange,
        column_ok e.d x 2 h.labelled.wide hx, column_ok e.d y 2 h.labelled.wide hy, Except.map, hs, ← hlen, hq1, Res_pure,
        rangeText_eq, shown, hm, ne_eq, not_true_eq_false]
      rw [hc2]
      simp only [Res_bind_ok, Res_pure, lineCommand, if_true, lineText, dtoaC, lineFn]
    · have hc2 := hclx ", f(x) notitle with lines ls 1, g(x) notitle with lines ls 2, h(x) notitle with lines ls 2".toList
      have hcat : " with points".toList ++
          ", f(x) notitle with lines ls 1, g(x) notitle with lines ls 2, h(x) notitle with lines ls 2".toList =
        " with points, f(x) notitle with lines ls 1, g(x) notitle with lines ls 2, h(x) notitle with lines ls 2".toList := by decide +kernel
      rw [hcat] at hc2
      simp only [plot2DwithHyperplane, hcl, Bool.not_true, Bool.false_eq_true, if_false, h1, h2, h3, h4, Res_bind_ok, configureRange,
        column_ok e.d x 2 h.labelled.wide hx, column_ok e.d y 2 h.labelled.wide hy, Except.map, hs, ← hlen, hq1, Res_pure,
        rangeText_eq, shown, hm, ne_eq, not_false_eq_true, if_true]
      rw [hc2]
      simp only [Res_bind_ok, Res_pure, lineCommand, hm, if_false, lineText, dtoaC, lineFn]
  · simp only [finish, fetch_text, configurePlot, hz, outName_eq]

/-- **C135 (partial)** `plot3DwithHyperplane` on a dataset with three features, likewise with planes. -/
theorem C135_plane_partial (e : Env K) (a : Args K) (x y z : Nat) (s : Sol K) (c : Cfg) (h : Plottable e 3)
    (hcl : e.d.classification = true) (hx : x < 3) (hy : y < 3) (hz : z < 3) (hxy : x ≠ y) (hxz : x ≠ z) (hyz : y ≠ z)
    (hw : s.w.length = 3) (hwz : s.w.getD z 0 ≠ 0) :
    ∃ o order tx ty tz sx sy sz u v f g k, plot3DwithHyperplane e a x y z s c = .ok o ∧ ByClass e.d.classes e.d.names order ∧
      IsNumeral (x : Int) tx ∧ IsNumeral (y : Int) ty ∧ IsNumeral (z : Int) tz ∧
      IsNumeral ((x : Int) + 1) sx ∧ IsNumeral ((y : Int) + 1) sy ∧ IsNumeral ((z : Int) + 1) sz ∧
      IsPlane s.w s.bias 0 x y z u v f ∧ IsPlane s.w s.bias (-(s.margin * s.norm)) x y z u v g ∧
      IsPlane s.w s.bias (s.margin * s.norm) x y z u v k ∧
      o.sent = Preamble.text ⟨a.save, a.fmt,
          (if e.d.name = [] then "3dplotsol_".toList else e.d.name ++ "_3dsol_".toList) ++
            (tx ++ "_".toList ++ ty ++ "_".toList ++ tz),
          c.terminal, a.title, shown e a.scale x, shown e a.scale y, shown e a.scale z, a.xl, a.yl, a.zl⟩ ++
        planeCommand e.tx.num u v f g k (drawClasses e.folder (sx ++ ":".toList ++ sy ++ ":".toList ++ sz) order) := by
  obtain ⟨order, ho, hne, hlen, hs⟩ := plottable_sort h
  obtain ⟨sx, h1, n1⟩ := colNo_ok x (by omega)
  obtain ⟨sy, h2, n2⟩ := colNo_ok y (by omega)
  obtain ⟨sz, h5, n5⟩ := colNo_ok z (by omega)
  obtain ⟨tx, h3, n3⟩ := itos_nat x (by omega)
  obtain ⟨ty, h4, n4⟩ := itos_nat y (by omega)
  obtain ⟨tz, h6, n6⟩ := itos_nat z (by omega)
  have hat1 := sol_at s x (by omega)
  have hat2 := sol_at s y (by omega)
  have hat3 := sol_at s z (by omega)
  have hq1 : ∀ b : K, planeOf s x y z b = .ok (.fin (-(s.w.getD x 0) / s.w.getD z 0), .fin (-(s.w.getD y 0) / s.w.getD z 0),
      .fin (b / -(s.w.getD z 0))) := by
    intro b
    simp only [planeOf, hat1, hat2, hat3, Res_bind_ok, Res_pure, quot, ne_eq, hwz, not_false_eq_true, if_true, neg_eq_zero]
  have hclx := clauses_titled order e.folder (sx ++ ":".toList ++ sy ++ ":".toList ++ sz) ", ".toList hne
  have hcat : " with points".toList ++ ", ".toList = " with points, ".toList := by decide +kernel
  rw [hcat] at hclx
  have e1 : (s.bias - 0) = s.bias := sub_zero _
  have e2 : s.bias - -(s.margin * s.norm) = s.bias + s.margin * s.norm := sub_neg_eq_add _ _
  obtain ⟨cmd, hcmd⟩ : ∃ cmd, cmd = (planeCommand e.tx.num (-(s.w.getD x 0) / s.w.getD z 0) (-(s.w.getD y 0) / s.w.getD z 0)
        ((s.bias - 0) / -(s.w.getD z 0)) ((s.bias - -(s.margin * s.norm)) / -(s.w.getD z 0))
        ((s.bias - s.margin * s.norm) / -(s.w.getD z 0))
        (drawClasses e.folder (sx ++ ":".toList ++ sy ++ ":".toList ++ sz) order)) := ⟨_, rfl⟩
  obtain ⟨cf, hcf⟩ : ∃ cf, cf = configurePlot
      (outName e.d.name "3dplotsol_".toList "_3dsol_".toList (tx ++ "_".toList ++ ty ++ "_".toList ++ tz)) a.fmt
      a.title a.save a.xl a.yl a.zl { c with xr := shown e a.scale x, yr := shown e a.scale y, zr := shown e a.scale z } := ⟨_, rfl⟩
  refine ⟨⟨(finish cmd cf).sent, prepareScript cmd, (finish cmd cf).cfg⟩,
      order, tx, ty, tz, sx, sy, sz, _, _, (s.bias - 0) / -(s.w.getD z 0),
      (s.bias - -(s.margin * s.norm)) / -(s.w.getD z 0), (s.bias - s.margin * s.norm) / -(s.w.getD z 0), ?_, ho, n3, n4, n6, n1, n2, n5,
      plane_eq s.w s.bias 0 x y z hw hx hy hz hxy hxz hyz hwz, plane_eq s.w s.bias _ x y z hw hx hy hz hxy hxz hyz hwz,
      plane_eq s.w s.bias _ x y z hw hx hy hz hxy hxz hyz hwz, ?_⟩
  · rw [hcmd, hcf, e1, e2]
    simp only [plot3DwithHyperplane, hcl, Bool.not_true, Bool.false_eq_true, if_false, h1, h2, h3, h4, h5, h6, Res_bind_ok,
      configureRange, column_ok e.d x 3 h.labelled.wide hx, column_ok e.d y 3 h.labelled.wide hy,
      column_ok e.d z 3 h.labelled.wide hz, Except.map, hs, ← hlen, hq1, Res_pure, rangeText_eq, shown, hclx, planeCommand,
      planeText, dtoaC, planeFn]
  · rw [hcmd, hcf]
    simp only [finish, fetch_text, configurePlot, outName_eq]

omit [FloorRing K] in
/-- **C135 (refuted)** A vertical separating line is not drawn: the formula sent has no number for the slope. -/
theorem C135_vertical_refuted (tx : Txt K) (s : Sol K) (x y : Nat) (b : K) (hx : x < s.w.length) (hy : y < s.w.length)
    (hwx : s.w.getD x 0 ≠ 0) (hwy : s.w.getD y 0 = 0) (hb : b ≠ 0) :
    ∃ l, lineOf s x y b = .ok l ∧ lineText tx "f".toList l = "f(x) = inf*x + inf".toList := by
  refine ⟨(.inf, .inf), ?_, rfl⟩
  simp only [lineOf, sol_at s x hx, sol_at s y hy, Res_bind_ok, Res_pure, quot, ne_eq, hwy, not_true_eq_false, if_false,
    neg_zero, neg_eq_zero, hwx, hb]

example : IsLine [(2 : ℚ), -4] 3 0 0 1 (1 / 2) (3 / 4) := by
  have := line_eq [(2 : ℚ), -4] 3 0 0 1 rfl (by decide) (by decide) (by decide) (by norm_num)
  norm_num at this ⊢; exact this

example : (match plot2DwithHyperplane demoEnv demoArgs 0 1 ⟨[-1, 1], 0, 1, 1⟩ Cfg.fresh with
    | .ok o => decide (o.script = ("set terminal wxt\nset title 't'\nset xrange [1:5]\nset yrange [2:6]\n" ++
        "set xlabel 'x'\nset ylabel 'y'\nf(x) = 1*x + 0\ng(x) = 1*x + 0\nh(x) = 1*x + 1\n" ++
        "plot 'plottemp3/no.plt' using 1:2 title 'no' with points, " ++
        "'plottemp3/yes.plt' using 1:2 title 'yes' with points, f(x) notitle with lines ls 1, " ++
        "g(x) notitle with lines ls 2, h(x) notitle with lines ls 2").toList)
    | .error _ => false) = true := by decide +kernel

end
end MLTK.Props
