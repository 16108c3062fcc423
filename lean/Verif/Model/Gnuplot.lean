import Verif.Model.Basic
/-!
# Sessions with gnuplot

Models `Gnuplot` (/repo/subprojects/ufjfmltk-visual/include/ufjfmltk/visual/gnuplot_i.hpp and src/gnuplot_i.cpp, the Unix
branches).  A text is a list of characters; printed `double`s are a parameter; a file holds rows of numbers; what `mkstemp`
answers is part of the call.  Gnuplot itself is the list of lines sent to it.
-/
namespace MLTK.Gp

abbrev Txt := List Char

/-- `text.find(pat) != std::string::npos`.  Models gnuplot_i.cpp 247-257, 914-923 (C++ standard). -/
def has (pat : String) (t : Txt) : Bool := decide (pat.toList <:+: t)

/-- A file on disk. -/
structure File (K : Type) where
  name : Txt
  readable : Bool
  rows : List (List K)
  deriving DecidableEq, Repr

/-- What all sessions of a process share: the disk, the static `tmpfile_num` and the open descriptors.
Models gnuplot_i.hpp 91-93, gnuplot_i.cpp 12. -/
structure Env (K : Type) where
  files : List (File K)
  num : Int
  fds : Nat
  deriving DecidableEq, Repr

/-- The members of a `Gnuplot` object; `sent` are the lines written to the pipe.  Simplification: `nplots` does not overflow.
Models gnuplot_i.hpp 73-88. -/
structure Session where
  valid : Bool
  twoDim : Bool
  nplots : Nat
  pstyle : Txt
  smooth : Txt
  tmpfiles : List Txt
  sent : List Txt
  deriving DecidableEq, Repr

/-- `Gnuplot::cmd`: the line is sent; a line containing "splot" or "plot" (but not "replot") counts as a plot.
Models gnuplot_i.cpp 891-930. -/
def cmd (s : Session) (line : Txt) : Session :=
  if !s.valid then s
  else
    let s := { s with sent := s.sent ++ [line] }
    if has "replot" line then s
    else if has "splot" line then { s with twoDim := false, nplots := s.nplots + 1 }
    else if has "plot" line then { s with twoDim := true, nplots := s.nplots + 1 }
    else s

/-- Several commands in a row. -/
def cmds (s : Session) (ls : List Txt) : Session := ls.foldl cmd s

/-- The styles that `set_style` knows.  Models gnuplot_i.cpp 247-257. -/
def styles : List String := ["lines", "points", "linespoints", "impulses", "dots", "steps", "fsteps", "histeps", "boxes",
  "filledcurves", "histograms"]

/-- Models gnuplot_i.cpp 245-284. -/
def setStyle (s : Session) (t : Txt) : Session :=
  { s with pstyle := if styles.all (fun k => !has k t) then "points".toList else t }

/-- Models gnuplot_i.cpp 291-308. -/
def setSmooth (s : Session) (t : Txt) : Session :=
  { s with smooth := if ["unique", "frequency", "csplines", "acsplines", "bezier", "sbezier"].all (fun k => !has k t)
    then [] else t }

/-- The name of an axis; `cb` is the colour box. -/
inductive Axis where
  | x | y | z | cb
  deriving DecidableEq, Repr

def Axis.text : Axis → Txt
  | .x => ['x'] | .y => ['y'] | .z => ['z'] | .cb => ['c', 'b']

/-- The public member functions that only send lines. -/
inductive Setting (K : Type) where
  | raw (line : Txt) | showOnScreen | saveTops (name : Txt)
  | pointSize (k : K) | grid | noGrid | multiplot | noMultiplot | samples (n : Nat) | isosamples (n : Nat)
  | hidden3d | noHidden3d | contour (position : Txt) | noContour | surface | noSurface
  | legend (position : Txt) | noLegend | title (t : Txt) | noTitle | label (a : Axis) (t : Txt)
  | range (a : Axis) (lo hi : K) | autoscale (a : Axis) | logscale (a : Axis) (base : K) | noLogscale (a : Axis)

/-- The decimal text of an `int`. -/
def natText (n : Nat) : Txt := Nat.toDigits 10 n

/-- The lines sent by a setting.  `str` prints a `double`, `term` is the static `terminal_std`.
Models gnuplot_i.cpp 315-556, gnuplot_i.hpp 221-224, 260-463. -/
def lines {K : Type} (str : K → Txt) (term : Txt) : Setting K → List Txt
  | .raw line => [line]
  | .showOnScreen => ["set output".toList, "set terminal ".toList ++ term]
  | .saveTops name => ["set terminal postscript color".toList, "set output \"".toList ++ name ++ ".ps\"".toList]
  | .pointSize k => ["set pointsize ".toList ++ str k]
  | .grid => ["set grid".toList]
  | .noGrid => ["unset grid".toList]
  | .multiplot => ["set multiplot".toList]
  | .noMultiplot => ["unset multiplot".toList]
  | .samples n => ["set samples ".toList ++ natText n]
  | .isosamples n => ["set isosamples ".toList ++ natText n]
  | .hidden3d => ["set hidden3d".toList]
  | .noHidden3d => ["unset hidden3d".toList]
  | .contour p => if !has "base" p && !has "surface" p && !has "both" p then ["set contour base".toList]
      else ["set contour ".toList ++ p]
  | .noContour => ["unset contour".toList]
  | .surface => ["set surface".toList]
  | .noSurface => ["unset surface".toList]
  | .legend p => ["set key ".toList ++ p]
  | .noLegend => ["unset key".toList]
  | .title t => ["set title \"".toList ++ t ++ "\"".toList]
  | .noTitle => ["set title \"\"".toList]
  | .label a t => ["set ".toList ++ a.text ++ "label \"".toList ++ t ++ "\"".toList]
  | .range a lo hi => ["set ".toList ++ a.text ++ "range[".toList ++ str lo ++ ":".toList ++ str hi ++ "]".toList]
  | .autoscale a => ["set ".toList ++ a.text ++ "range restore".toList, "set autoscale ".toList ++ a.text]
  | .logscale a b => ["set logscale ".toList ++ a.text ++ " ".toList ++ str b]
  | .noLogscale a => ["unset logscale ".toList ++ a.text]

/-- What a drawing takes its points from. -/
inductive Source (K : Type) where
  /-- `plot_slope(a, b)` -/
  | slope (a b : K)
  /-- `plot_equation` -/
  | equation (e : Txt)
  /-- `plot_equation3d` -/
  | equation3d (e : Txt)
  /-- `plotfile_x` -/
  | fileX (f : Txt) (c : Nat)
  /-- `plotfile_xy` -/
  | fileXY (f : Txt) (cx cy : Nat)
  /-- `plotfile_xy_err` -/
  | fileXYErr (f : Txt) (cx cy cd : Nat)
  /-- `plotfile_xyz` -/
  | fileXYZ (f : Txt) (cx cy cz : Nat)
  /-- `plot_image` -/
  | image (f : Txt)

/-- `if (nplots > 0 && two_dim == true) "replot " else "plot "`.  Models gnuplot_i.cpp 569-572, 602-605, 676-679, 722-725, 767-770, 867-870. -/
def head2 (s : Session) : Txt := if s.nplots > 0 ∧ s.twoDim = true then "replot ".toList else "plot ".toList

/-- `if (nplots > 0 && two_dim == false) "replot " else "splot "`.  Models gnuplot_i.cpp 635-638, 809-812. -/
def head3 (s : Session) : Txt := if s.nplots > 0 ∧ s.twoDim = false then "replot ".toList else "splot ".toList

/-- `if (title == "") " notitle " else " title \"" title "\" "`.  Models gnuplot_i.cpp 683-686, 729-732, 776-779. -/
def titleText (t : Txt) : Txt := if t = [] then " notitle ".toList else " title \"".toList ++ t ++ "\" ".toList

/-- `if(smooth == "") "with " pstyle else "smooth " smooth`.  Models gnuplot_i.cpp 688-691, 734-737. -/
def withText (s : Session) : Txt := if s.smooth = [] then "with ".toList ++ s.pstyle else "smooth ".toList ++ s.smooth

/-- The command that draws.  Models gnuplot_i.cpp 561-655 (slope and equations), 662-828 (files), 863-880 (images). -/
def drawLine {K : Type} (str : K → Txt) (s : Session) (title : Txt) : Source K → Txt
  | .slope a b =>
    let f := str a ++ " * x + ".toList ++ str b
    head2 s ++ f ++ " title \"".toList ++ (if title = [] then "f(x) = ".toList ++ f else title) ++ "\" with ".toList ++ s.pstyle
  | .equation e =>
    head2 s ++ e ++ " title \"".toList ++ (if title = [] then "f(x) = ".toList ++ e else title) ++ "\" with ".toList ++ s.pstyle
  | .equation3d e =>
    head3 s ++ e ++ " title \"".toList ++ (if title = [] then "f(x,y) = ".toList ++ e else title) ++ "\" with ".toList ++ s.pstyle
  | .fileX f c => head2 s ++ "\"".toList ++ f ++ "\" using ".toList ++ natText c ++ titleText title ++ withText s
  | .fileXY f cx cy =>
    head2 s ++ "\"".toList ++ f ++ "\" using ".toList ++ natText cx ++ ":".toList ++ natText cy ++ titleText title ++ withText s
  | .fileXYErr f cx cy cd =>
    head2 s ++ "\"".toList ++ f ++ "\" using ".toList ++ natText cx ++ ":".toList ++ natText cy ++ ":".toList ++ natText cd ++
      " with errorbars ".toList ++ titleText title
  | .fileXYZ f cx cy cz =>
    head3 s ++ "\"".toList ++ f ++ "\" using ".toList ++ natText cx ++ ":".toList ++ natText cy ++ ":".toList ++ natText cz ++
      (if title = [] then " notitle with ".toList ++ s.pstyle
        else " title \"".toList ++ title ++ "\" with ".toList ++ s.pstyle)
  | .image f =>
    head2 s ++ (if title = [] then "\"".toList ++ f ++ "\" with image".toList
      else "\"".toList ++ f ++ "\" title \"".toList ++ title ++ "\" with image".toList)

/-- `file_available`: throws unless the file exists and can be read.  Models gnuplot_i.cpp 1075-1125. -/
def available {K : Type} (e : Env K) (f : Txt) : Bool :=
  match e.files.find? (fun g => decide (g.name = f)) with
  | some g => g.readable
  | none => false

/-- The file a source reads, if `file_available` is asked for it.  Models gnuplot_i.cpp 669, 715, 761, 803. -/
def Source.file {K : Type} : Source K → Option Txt
  | .fileX f _ => some f
  | .fileXY f _ _ => some f
  | .fileXYErr f _ _ _ => some f
  | .fileXYZ f _ _ _ => some f
  | _ => none

/-- A drawing without temporary file.  Models gnuplot_i.cpp 561-828. -/
def draw {K : Type} (str : K → Txt) (e : Env K) (s : Session) (src : Source K) (title : Txt) : Res Session :=
  match src.file with
  | none => .ok (cmd s (drawLine str s title src))
  | some f => if available e f then .ok (cmd s (drawLine str s title src)) else .error .exception

/-- `create_tmpfile`: throws at the limit or if `mkstemp` fails; else the file is on disk, its name in the list of the session and
the counter incremented.  The descriptor `mkstemp` opens is not closed.  `mk` is the name `mkstemp` makes (`none`: failure);
a name on disk is never made.  `rows` is what the caller writes into it.  Models gnuplot_i.cpp 1133-1197. -/
def createTmp {K : Type} (e : Env K) (s : Session) (mk : Option Txt) (rows : List (List K)) : Res (Env K × Session × Txt) :=
  if e.num = 64 - 1 then .error .exception
  else match mk with
    | none => .error .exception
    | some name =>
      if name ∈ e.files.map (·.name) then .error .exception
      else .ok (⟨e.files ++ [⟨name, true, rows⟩], e.num + 1, e.fds + 1⟩, { s with tmpfiles := s.tmpfiles ++ [name] }, name)

/-- `remove_tmpfiles`.  Models gnuplot_i.cpp 1199-1207. -/
def removeTmp {K : Type} (e : Env K) (s : Session) : Env K :=
  if s.tmpfiles.length > 0 then
    { e with files := e.files.filter (fun f => decide (f.name ∉ s.tmpfiles)), num := e.num - s.tmpfiles.length }
  else e

/-- What is given to a drawing that writes a temporary file. -/
inductive Vectors (K : Type) where
  /-- `plot_x` -/
  | vx (x : List K)
  /-- `plot_xy` -/
  | vxy (x y : List K)
  /-- `plot_xy_err` -/
  | vxyErr (x y dy : List K)
  /-- `plot_xyz` -/
  | vxyz (x y z : List K)
  /-- `plot_image`: height and width and the pixels; `num` turns a number into a coordinate -/
  | vimage (num : Nat → K) (width height : Nat) (pixels : Nat → K)

/-- The checks before the file is made.  Models gnuplot_i.hpp 481-485, 518-528, 564-574, 612-622. -/
def Vectors.check {K : Type} : Vectors K → Bool
  | .vx x => x.length ≠ 0
  | .vxy x y => x.length ≠ 0 ∧ y.length ≠ 0 ∧ x.length = y.length
  | .vxyErr x y dy => x.length ≠ 0 ∧ y.length ≠ 0 ∧ dy.length ≠ 0 ∧ x.length = y.length ∧ y.length = dy.length
  | .vxyz x y z => x.length ≠ 0 ∧ y.length ≠ 0 ∧ z.length ≠ 0 ∧ x.length = y.length ∧ x.length = z.length
  | .vimage _ _ _ _ => true

/-- The rows written to the file.  Models gnuplot_i.hpp 495-496, 539-540, 585-586, 633-634, gnuplot_i.cpp 849-857. -/
def Vectors.rows {K : Type} : Vectors K → List (List K)
  | .vx x => x.map (fun a => [a])
  | .vxy x y => List.zipWith (fun a b => [a, b]) x y
  | .vxyErr x y dy => List.zipWith (fun a r => a :: r) x (List.zipWith (fun b c => [b, c]) y dy)
  | .vxyz x y z => List.zipWith (fun a r => a :: r) x (List.zipWith (fun b c => [b, c]) y z)
  | .vimage num w h px => (List.range h).flatMap (fun r => (List.range w).map (fun c => [num c, num r, px (r * w + c)]))

/-- What is drawn once the file is made.  Models gnuplot_i.hpp 502, 546, 593, 640, gnuplot_i.cpp 863-880. -/
def Vectors.source {K : Type} (name : Txt) : Vectors K → Source K
  | .vx _ => .fileX name 1
  | .vxy _ _ => .fileXY name 1 2
  | .vxyErr _ _ _ => .fileXYErr name 1 2 3
  | .vxyz _ _ _ => .fileXYZ name 1 2 3
  | .vimage _ _ _ _ => .image name

/-- A drawing with a temporary file.  Models gnuplot_i.hpp 479-643, gnuplot_i.cpp 836-883. -/
def drawVectors {K : Type} (str : K → Txt) (e : Env K) (s : Session) (mk : Option Txt) (v : Vectors K) (title : Txt) :
    Res (Env K × Session) :=
  if v.check then do
    let (e, s, name) ← createTmp e s mk v.rows
    let s ← draw str e s (v.source name) title
    return (e, s)
  else .error .exception

/-- The calls a program can make on a session. -/
inductive Call (K : Type) where
  | set (c : Setting K)
  | style (t : Txt)
  | smooth (t : Txt)
  | unsmooth
  | replot
  | resetPlot
  | resetAll
  | draw (src : Source K) (title : Txt)
  | vectors (mk : Option Txt) (v : Vectors K) (title : Txt)
  | removeTmp

/-- One call.  Models gnuplot_i.hpp 260, 687, gnuplot_i.cpp 212-238 and the functions above. -/
def call {K : Type} (str : K → Txt) (term : Txt) (e : Env K) (s : Session) : Call K → Res (Env K × Session)
  | .set c => .ok (e, cmds s (lines str term c))
  | .style t => .ok (e, setStyle s t)
  | .smooth t => .ok (e, setSmooth s t)
  | .unsmooth => .ok (e, { s with smooth := [] })
  | .replot => .ok (e, if s.nplots > 0 then cmd s "replot".toList else s)
  | .resetPlot => .ok (e, { s with nplots := 0 })
  | .resetAll =>
    let s := cmds { s with nplots := 0 } ["reset".toList, "clear".toList]
    .ok (e, cmds { s with pstyle := "points".toList, smooth := [] } (lines str term .showOnScreen))
  | .draw src title => do
    let s ← draw str e s src title
    return (e, s)
  | .vectors mk v title => drawVectors str e s mk v title
  | .removeTmp => .ok (removeTmp e s, s)

/-- `Gnuplot(style)` when gnuplot is found.  Models gnuplot_i.cpp 60-66, 938-995. -/
def newSession {K : Type} (str : K → Txt) (term : Txt) (style : Txt) : Session :=
  setStyle (cmds { valid := true, twoDim := false, nplots := 0, pstyle := [], smooth := [], tmpfiles := [], sent := [] }
    (lines str term .showOnScreen)) style

/-- The process: what is shared and the sessions made so far, `none` once destroyed. -/
structure World (K : Type) where
  env : Env K
  sessions : List (Option Session)
  deriving DecidableEq, Repr

/-- What a program does: make a session, call a member, destroy a session. -/
inductive Op (K : Type) where
  | new (style : Txt)
  | on (i : Nat) (c : Call K)
  | destroy (i : Nat)

/-- One operation.  A call that throws changes nothing (the throws come before the changes); calls on sessions that are not alive
are not made.  The destructor only closes the pipe.  Models gnuplot_i.cpp 194-205 and the functions above. -/
def step {K : Type} (str : K → Txt) (term : Txt) (w : World K) : Op K → World K
  | .new style => { w with sessions := w.sessions ++ [some (newSession str term style)] }
  | .on i c =>
    match w.sessions[i]? with
    | some (some s) =>
      match call str term w.env s c with
      | .ok (e, s) => ⟨e, w.sessions.set i (some s)⟩
      | .error _ => w
    | _ => w
  | .destroy i => { w with sessions := w.sessions.set i none }

/-- A program. -/
def run {K : Type} (str : K → Txt) (term : Txt) (w : World K) (p : List (Op K)) : World K := p.foldl (step str term) w

/-! ### Finding the program -/

/-- `stringtok(ls, in, delimiters)`, which skips delimiters (`find_first_not_of`), takes what comes before the next one
(`find_first_of`) and goes on behind it.  `cur` is the token being read, reversed.  Simplification: one pass over the characters
instead of positions.  Models gnuplot_i.hpp 709-742. -/
def stringtok (delims : List Char) (cur : Txt) : Txt → List Txt
  | [] => if cur = [] then [] else [cur.reverse]
  | c :: rest =>
    if c ∈ delims then
      if cur = [] then stringtok delims [] rest else cur.reverse :: stringtok delims [] rest
    else stringtok delims (c :: cur) rest

/-- `get_program_path` and the first part of `init`: the directory that will be used, or an exception.  `exec dir` says whether the
file `dir/gnuplot` exists and can be executed; `path` is the variable `PATH`.  Models gnuplot_i.cpp 938-966, 1002-1067. -/
def programPath (exec : Txt → Bool) (configured : Txt) (path : Option Txt) : Res Txt :=
  if exec configured then .ok configured
  else match path with
    | none => .error .exception
    | some p =>
      match (stringtok [':'] [] p).find? exec with
      | some dir => .ok dir
      | none => .error .exception

/-- `set_GNUPlotPath`: the configured directory afterwards and what is returned.  Models gnuplot_i.cpp 140-160. -/
def setPath (exec : Txt → Bool) (dir : Txt) : Txt × Bool := if exec dir then (dir, true) else ([], false)

end MLTK.Gp
