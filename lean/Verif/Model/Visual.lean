import Mathlib.Algebra.Order.Floor.Ring
import Mathlib.Algebra.Order.Field.Basic
import Mathlib.Data.List.Sort
import Mathlib.Logic.Function.Basic
import Verif.Model.Features
import Verif.Model.Point
import Verif.Model.Text
/-!
# `mltk::visualize::Visualization` (ufjfmltk-visual/include/ufjfmltk/visual/Visualization.hpp)

Text is a list of characters.  Simplifications common to this file.  `double` is an ordered field `K`;
`numeric_limits<double>::min()` and `max()` are parameters `tiny` and `big`; the texts of numbers are parameters (`Txt`).
Labels are integers.  The gnuplot process is not modelled: what is sent to it is.  The order in which `readdir` lists a
folder is a parameter.  Feature positions are not negative.  Code for Windows is left out.
-/
namespace MLTK.Vis

/-- `std::string`. -/
abbrev Str := List Char

/-- Text of numbers: `operator<<`, `dtoa` of a finite number, `std::to_string`. -/
structure Txt (K : Type) where
  shw : K → Str
  num : K → Str
  fix : K → Str

/-- What the class reads from the dataset: `name()`, `isClassification()`, the samples, `classes()`, `classesNames()`
and `getFeaturesNames()`. -/
structure VData (K : Type) where
  name : Str
  classification : Bool
  rows : List (List K × Int)
  classes : List Int
  names : List Str
  fnames : List Int

/-- `samples->dim()`.  Models Data.hpp:213. -/
def VData.dim {K : Type} (d : VData K) : Nat :=
  match d.rows with
  | [] => 0
  | r :: _ => r.1.length

/-- `getFeature(index)`: `Point::operator[]` asserts.  Models Data.hpp:2107-2113, Point.hpp:247-255. -/
def VData.column {K : Type} (d : VData K) (x : Nat) : Res (List K) :=
  d.rows.mapM (fun r => match r.1[x]? with
    | some v => .ok v
    | none => .error .assertFail)

/-! ### the files -/

/-- The contents of the files on disk. -/
abbrev Files := Str → Option Str

/-- The path of the file of a class.  Models Visualization.hpp:394. -/
def classPath (folder name : Str) : Str := folder ++ name ++ ".plt".toList

/-- Opening the streams: a stream is the path and the position of the next write, `none` when `open` fails, which
here means that the name has a `/` in it (a folder that does not exist); opening truncates.  The last component is
`file_names`.  Models Visualization.hpp:393-401. -/
def openAll (folder : Str) : List Str → Files → Files × List (Option (Str × Nat)) × List Str
  | [], fs => (fs, [], [])
  | n :: ns, fs =>
    if '/' ∈ n then
      let r := openAll folder ns fs
      (r.1, none :: r.2.1, r.2.2)
    else
      let p := classPath folder n
      let r := openAll folder ns (Function.update fs p (some []))
      (r.1, some (p, 0) :: r.2.1, p :: r.2.2)

/-- Writing `t` at position `pos` of a file. -/
def writeAt (c : Str) (pos : Nat) (t : Str) : Str := c.take pos ++ t ++ c.drop (pos + t.length)

/-- The line of a sample: the features separated by blanks and a newline after the last.
Models Visualization.hpp:406-413. -/
def rowText {K : Type} (shw : K → Str) (x : List K) : Str :=
  if x = [] then [] else (List.intercalate [' '] (x.map shw)) ++ ['\n']

/-- Output to a stream; a stream that is not open drops it. -/
def emit (fs : Files) (s : Option (Str × Nat)) (t : Str) : Files × Option (Str × Nat) :=
  match s with
  | none => (fs, none)
  | some (p, pos) => (Function.update fs p (some (writeAt ((fs p).getD []) pos t)), some (p, pos + t.length))

/-- The loop over the samples.  `class_names[class_pos]` is undefined beyond the end.
Models Visualization.hpp:402-415. -/
def writeRows {K : Type} (shw : K → Str) (classes : List Int) (names : List Str) :
    List (List K × Int) → Files → List (Option (Str × Nat)) → Res Files
  | [], fs, _ => .ok fs
  | r :: rest, fs, streams => do
    let pos := classes.findIdx (fun c => decide (c = r.2))
    let _ ← vget names pos
    let s ← vget streams pos
    let e := emit fs s (rowText shw r.1)
    let streams' ← vset streams pos e.2
    writeRows shw classes names rest e.1 streams'

/-- The line of a sample of a regression dataset.  Models Visualization.hpp:423-428. -/
def regrText {K : Type} (shw : K → Str) (shwI : Int → Str) (r : List K × Int) : Str :=
  (r.1.map (fun v => shw v ++ [' '])).flatten ++ shwI r.2 ++ ['\n']

/-- `createTempFiles(plot_folder)`; `shwI` is the text of a label.  Models Visualization.hpp:379-435. -/
def createTempFiles {K : Type} (tx : Txt K) (shwI : Int → Str) (folder : Str) (d : VData K) (fs : Files) :
    Res (Files × List Str) :=
  if d.classification then do
    let o := openAll folder d.names fs
    let fs' ← writeRows tx.shw d.classes d.names d.rows o.1 o.2.1
    pure (fs', o.2.2)
  else
    let p := folder ++ "samples.plt".toList
    let fs' := Function.update fs p (some ((d.rows.map (regrText tx.shw shwI)).flatten))
    let fname := if d.name = [] then "samples.plt".toList else d.name ++ ".plt".toList
    .ok (fs', [folder ++ fname])

/-- `types`.  Models Data.hpp:56. -/
def types : List Str := ["data".toList, "csv".toList, "arff".toList, "txt".toList, "plt".toList]

/-- `valid_file`: the text after the last dot (the whole name without a dot) is a known type.
Models Visualization.hpp:437-457. -/
def validFile (f : Str) : Bool :=
  if f.length < 4 then false
  else types.contains (f.reverse.takeWhile (fun c => c ≠ '.')).reverse

/-- `getTempFilesNames(true)` of an existing folder with the given entries, in the order of `readdir`.
Models Visualization.hpp:459-480. -/
def tempFiles (folder : Str) (listing : List Str) : List Str :=
  (listing.filter validFile).map (folder ++ ·)

/-! ### labels -/

/-- `tokenize(tokenize(path, sep)[0], '/')[1]`.  Models Visualization.hpp:940-947. -/
def labelOf (decision : Bool) (path : Str) : Res Str := do
  let a ← vget (Text.tokenize path (if decision then '_' else '.')) 0
  vget (Text.tokenize a '/') 1

/-- `classes[std::find(class_names, n) - class_names.begin()]`: `Point::operator[]` asserts.
Models Visualization.hpp:949-951. -/
def keyOf (classes : List Int) (names : List Str) (n : Str) : Res Int :=
  match classes[names.findIdx (fun c => decide (c = n))]? with
  | some c => .ok c
  | none => .error .assertFail

/-- `std::sort` with the keys `key`: one element is never compared.  Elements with equal keys keep their order, which
the standard leaves open. -/
def sortBy (key : Str → Res Int) (l : List Str) : Res (List Str) :=
  if l.length < 2 then .ok l
  else do
    let ks ← l.mapM (fun a => do let k ← key a; pure (k, a))
    pure ((ks.insertionSort (fun a b => a.1 ≤ b.1)).map Prod.snd)

/-- `sortLabels(files, type)`: the names returned and the files reordered.  Models Visualization.hpp:935-969. -/
def sortLabels (classes : List Int) (names : List Str) (decision : Bool) (files : List Str) :
    Res (List Str × List Str) := do
  let labels ← files.mapM (labelOf decision)
  let ns ← sortBy (keyOf classes names) labels
  let fs ← sortBy (fun f => do let l ← labelOf decision f; keyOf classes names l) files
  pure (ns, fs)

/-! ### settings -/

/-- The map `configs`; a missing key is the empty text.  `save` is the key whose text is `true` or `false`. -/
structure Cfg where
  save : Bool := false
  outName : Str := []
  fmt : Str := []
  title : Str := []
  xl : Str := []
  yl : Str := []
  zl : Str := []
  xr : Str := []
  yr : Str := []
  zr : Str := []
  terminal : Str := []
  style : Str := []
  deriving DecidableEq, Repr

/-- The settings of a new object.  Models Visualization.hpp:328, 340. -/
def Cfg.fresh : Cfg := { terminal := "wxt".toList }

/-- `setTitle`.  Models Visualization.hpp:369-372. -/
def setTitle (t : Str) (c : Cfg) : Cfg := { c with title := t }

/-- `setStyle`.  Models Visualization.hpp:374-377. -/
def setStyle (t : Str) (c : Cfg) : Cfg := { c with style := t }

/-- `setTerminal`.  Models Visualization.hpp:105. -/
def setTerminal (t : Str) (c : Cfg) : Cfg := { c with terminal := t }

/-- The arguments common to the plots. -/
structure Args (K : Type) where
  save : Bool
  scale : K
  title : Str
  fmt : Str
  xl : Str
  yl : Str
  zl : Str

/-- `configurePlot`.  Models Visualization.hpp:971-982. -/
def configurePlot (out fmt title : Str) (save : Bool) (xl yl zl : Str) (c : Cfg) : Cfg :=
  { c with save := save, outName := out, fmt := fmt, title := title, xl := xl, yl := yl, zl := zl }

/-- One optional setting of the script. -/
def opt (pre t post : Str) : Str := if t = [] then [] else pre ++ t ++ post

/-- `fetchConfigs()`: the text of the settings; the ranges are cleared.  Models Visualization.hpp:984-1020. -/
def fetchConfigs (c : Cfg) : Str × Cfg :=
  let term :=
    if c.save then "set terminal ".toList ++ c.fmt ++ "; ".toList ++ "set output '".toList ++ c.outName ++ ".".toList ++
      c.fmt ++ "'; ".toList
    else if c.terminal ≠ [] then "set terminal ".toList ++ c.terminal ++ ";".toList
    else "set terminal x11;".toList
  (term ++ opt "set title '".toList c.title "';".toList ++ opt "set xrange ".toList c.xr ";".toList ++
    opt "set yrange ".toList c.yr ";".toList ++ opt "set zrange ".toList c.zr ";".toList ++
    opt "set xlabel '".toList c.xl "';".toList ++ opt "set ylabel '".toList c.yl "';".toList ++
    opt "set zlabel '".toList c.zl "';".toList, { c with xr := [], yr := [], zr := [] })

/-- `prepareScript`.  Models Visualization.hpp:1116-1120. -/
def prepareScript (cmd : Str) : Str := cmd.map (fun c => if c = ';' then '\n' else c)

section
variable {K : Type} [Field K] [LinearOrder K] [FloorRing K]

/-- `std::round`: halves away from zero. -/
def round (x : K) : K := if 0 ≤ x then ((⌊x + 1 / 2⌋ : ℤ) : K) else ((⌈x - 1 / 2⌉ : ℤ) : K)

/-- One axis of `configureRange`: `(min, max)`.  Models Visualization.hpp:1060-1063 (and 1068-1071, 1076-1079). -/
def axisRange (tiny big scale : K) (col : List K) : K × K :=
  let mn := PointM.pmin big col
  let mx := scale * PointM.pmax tiny col
  (round (mn + (if mn > 0 then (1 - scale) * mn else -(1 - scale) * mn)), round mx)

/-- `"[" + to_string(min) + ":" + to_string(max) + "]"`.  Models Visualization.hpp:1064. -/
def rangeText (tx : Txt K) (r : K × K) : Str := "[".toList ++ tx.fix r.1 ++ ":".toList ++ tx.fix r.2 ++ "]".toList

/-- `configureRange(scale, x, y, z)` on features; `none` is the default -1.  Models Visualization.hpp:1054-1083. -/
def configureRange (tx : Txt K) (tiny big scale : K) (d : VData K) (x y z : Option Nat) (c : Cfg) : Res Cfg := do
  let xr ← match x with
    | none => pure c.xr
    | some x => (d.column x).map (fun col => rangeText tx (axisRange tiny big scale col))
  let yr ← match y with
    | none => pure c.yr
    | some y => (d.column y).map (fun col => rangeText tx (axisRange tiny big scale col))
  let zr ← match z with
    | none => pure c.zr
    | some z => (d.column z).map (fun col => rangeText tx (axisRange tiny big scale col))
  pure { c with xr := xr, yr := yr, zr := zr }

/-- One axis of `configureRange` on points: nothing for an empty point or a range of length zero.
Models Visualization.hpp:1089-1096. -/
def pointRange (tx : Txt K) (tiny big scale : K) (col : List K) (old : Str) : Str :=
  if col = [] then old
  else
    let r := axisRange tiny big scale col
    if r.1 ≠ r.2 then rangeText tx r else old

/-! ### hyperplanes -/

/-- A quotient of doubles: finite, infinite or not a number. -/
inductive Coef (K : Type) where
  | fin (v : K)
  | inf
  | nan
  deriving DecidableEq, Repr

/-- Division of finite doubles. -/
def quot (a b : K) : Coef K := if b ≠ 0 then .fin (a / b) else if a = 0 then .nan else .inf

/-- `dtoa`: the sign of an infinity is lost.  Models Utils.cpp:94-102. -/
def dtoaC (tx : Txt K) : Coef K → Str
  | .fin v => tx.num v
  | .inf => "inf".toList
  | .nan => "nan".toList

/-- The fields of `Solution` read by the plots.  Models Solution.hpp:17-31. -/
structure Sol (K : Type) where
  w : List K
  bias : K
  margin : K
  norm : K

/-- `w[i]`: `Point::operator[]` asserts.  Models Point.hpp:247-255. -/
def Sol.at (s : Sol K) (i : Nat) : Res K :=
  match s.w[i]? with
  | some v => .ok v
  | none => .error .assertFail

/-- The slope and the offset of the line for the bias `b`.  Models Visualization.hpp:675-683. -/
def lineOf (s : Sol K) (x y : Nat) (b : K) : Res (Coef K × Coef K) := do
  let wx ← s.at x
  let wy ← s.at y
  pure (quot (-wx) wy, quot b (-wy))

/-- The text of a line.  Models Visualization.hpp:676. -/
def lineText (tx : Txt K) (f : Str) (l : Coef K × Coef K) : Str :=
  f ++ "(x) = ".toList ++ dtoaC tx l.1 ++ "*x + ".toList ++ dtoaC tx l.2

/-- The coefficients of the plane for the bias `b`.  Models Visualization.hpp:826-828. -/
def planeOf (s : Sol K) (x y z : Nat) (b : K) : Res (Coef K × Coef K × Coef K) := do
  let wx ← s.at x
  let wy ← s.at y
  let wz ← s.at z
  pure (quot (-wx) wz, quot (-wy) wz, quot b (-wz))

/-- The text of a plane.  Models Visualization.hpp:826. -/
def planeText (tx : Txt K) (f : Str) (l : Coef K × Coef K × Coef K) : Str :=
  f ++ "(x,y) = ".toList ++ dtoaC tx l.1 ++ "*x + ".toList ++ dtoaC tx l.2.1 ++ "*y + ".toList ++ dtoaC tx l.2.2

/-! ### plots -/

/-- The result of a plot: the text sent to gnuplot, the text returned and the settings afterwards. -/
structure Out where
  sent : Str
  script : Str
  cfg : Cfg
  deriving DecidableEq, Repr

/-- `for (i = 0; i < n - 1; i++) cmd += f(i);  cmd += last(i);`: for `n = 0` the bound wraps and the first access is
outside the list. -/
def clauses (n : Nat) (f last : Nat → Res Str) : Res Str :=
  match n with
  | 0 => .error .outOfBounds
  | k+1 => do
    let a ← (List.range k).mapM f
    let b ← last k
    pure (a.flatten ++ b)

/-- `'file' using dims` followed by a tail. -/
def plainClause (files : List Str) (dims tail : Str) (i : Nat) : Res Str := do
  let f ← vget files i
  pure ("'".toList ++ f ++ "' using ".toList ++ dims ++ tail)

/-- `'file' using dims title 'name'` followed by a tail. -/
def titledClause (files names : List Str) (dims tail : Str) (i : Nat) : Res Str := do
  let f ← vget files i
  let n ← vget names i
  pure ("'".toList ++ f ++ "' using ".toList ++ dims ++ " title '".toList ++ n ++ "'".toList ++ tail)

/-- `itos(x + 1)`. -/
def colNo (x : Nat) : Res Str := Text.itos ((x : Int) + 1)

/-- `(name().empty()) ? "prefix_" + rest : name() + "_infix_" + rest`. -/
def outName (name pre infx rest : Str) : Str := if name = [] then pre ++ rest else name ++ infx ++ rest

/-- `execute_command(cmd)` and the `prepareScript` of what it returns.  Models Visualization.hpp:1122-1139. -/
def finish (cmd : Str) (c : Cfg) : Out :=
  let r := fetchConfigs c
  ⟨r.1 ++ cmd, prepareScript (r.1 ++ cmd), r.2⟩

/-- The object and what the plots read: the settings, the dataset, the folder and its entries. -/
structure Env (K : Type) where
  tx : Txt K
  tiny : K
  big : K
  d : VData K
  folder : Str
  listing : List Str

/-- `plot1DRegresion`.  Models Visualization.hpp:544-566. -/
def plot1DRegresion (e : Env K) (a : Args K) (x : Nat) (c : Cfg) : Res Out := do
  let dims := (← colNo x) ++ ":".toList ++ (← Text.itos 2)
  let sx ← Text.itos x
  let c ← configureRange e.tx e.tiny e.big a.scale e.d (some x) none none c
  let c := configurePlot (outName e.d.name "2dplot_".toList "_2d_".toList (sx ++ "_regression".toList)) a.fmt a.title a.save a.xl a.yl [] c
  let files := tempFiles e.folder e.listing
  let cl ← clauses files.length (plainClause files dims " with points, ".toList) (plainClause files dims " with points".toList)
  pure (finish ("plot ".toList ++ cl) c)

/-- `plot1DRegresionHyperplane`: the settings are fetched twice.  Models Visualization.hpp:568-595. -/
def plot1DRegresionHyperplane (e : Env K) (a : Args K) (x : Nat) (s : Sol K) (c : Cfg) : Res Out := do
  let dims := (← colNo x) ++ ":".toList ++ (← colNo e.d.dim)
  let sx ← Text.itos x
  let c ← configureRange e.tx e.tiny e.big a.scale e.d (some x) none none c
  let c := configurePlot (outName e.d.name "2dplot_".toList "_2d_".toList (sx ++ "_regression".toList)) a.fmt a.title a.save a.xl a.yl [] c
  let wx ← s.at x
  let fx := "f(x) = ".toList ++ e.tx.num wx ++ "*x + ".toList ++ e.tx.num s.bias
  let files := tempFiles e.folder e.listing
  let cl ← clauses files.length (plainClause files dims " with points, ".toList)
    (plainClause files dims " notitle with points, f(x) notitle with lines ls 1 lt rgb \"red\"".toList)
  let r := fetchConfigs c
  pure (finish (r.1 ++ (fx ++ ";".toList ++ "plot ".toList ++ cl)) r.2)

/-- `plot2D` of two features.  Models Visualization.hpp:597-622. -/
def plot2D (e : Env K) (a : Args K) (x y : Nat) (c : Cfg) : Res Out := do
  let dims := (← colNo x) ++ ":".toList ++ (← colNo y)
  let sx ← Text.itos x
  let sy ← Text.itos y
  let c ← configureRange e.tx e.tiny e.big a.scale e.d (some x) (some y) none c
  let c := configurePlot (outName e.d.name "2dplot_".toList "_2d_".toList (sx ++ "_".toList ++ sy)) a.fmt a.title a.save a.xl a.yl [] c
  let r ← sortLabels e.d.classes e.d.names false (tempFiles e.folder e.listing)
  let cl ← clauses r.2.length (titledClause r.2 r.1 dims " with points, ".toList) (titledClause r.2 r.1 dims " with points".toList)
  pure (finish ("plot ".toList ++ cl) c)

/-- `plot2D` of two points; the file that it writes holds the pairs (third component).  Models Visualization.hpp:624-656. -/
def plot2DPoints (e : Env K) (a : Args K) (x y : List K) (c : Cfg) : Res (Out × Str × Str) :=
  if x.length ≠ y.length then .error .assertFail
  else
    let out := if a.title = [] then "2dplot_".toList else "2dplot_".toList ++ a.title
    let c := { c with xr := pointRange e.tx e.tiny e.big a.scale x c.xr, yr := pointRange e.tx e.tiny e.big a.scale y c.yr }
    let c := configurePlot out a.fmt a.title a.save a.xl a.yl [] c
    let path := "output/".toList ++ out ++ ".dat".toList
    let text := (List.zipWith (fun p q => e.tx.shw p ++ " ".toList ++ e.tx.shw q ++ "\n".toList) x y).flatten
    .ok (finish ("plot ".toList ++ "'".toList ++ path ++ "' using 1:2 with linespoints".toList) c, path, text)

/-- `plot2DwithHyperplane`; `s.norm` is a number (a NaN is replaced by zero).  Models Visualization.hpp:658-698. -/
def plot2DwithHyperplane (e : Env K) (a : Args K) (x y : Nat) (s : Sol K) (c : Cfg) : Res Out :=
  if !e.d.classification then .error .assertFail
  else do
    let feats := (← colNo x) ++ ":".toList ++ (← colNo y)
    let sx ← Text.itos x
    let sy ← Text.itos y
    let c ← configureRange e.tx e.tiny e.big a.scale e.d (some x) (some y) none c
    let c := configurePlot (outName e.d.name "2dplotsol_".toList "_2dsol_".toList (sx ++ "_".toList ++ sy)) a.fmt a.title a.save a.xl a.yl [] c
    let f ← lineOf s x y s.bias
    let g ← lineOf s x y (s.bias + s.margin * s.norm)
    let h ← lineOf s x y (s.bias - s.margin * s.norm)
    let fx := lineText e.tx "f".toList f
    let head :=
      if s.margin ≠ 0 then
        fx ++ ";".toList ++ lineText e.tx "g".toList g ++ ";".toList ++ lineText e.tx "h".toList h ++ ";plot ".toList
      else fx ++ ";plot ".toList
    let tail :=
      if s.margin ≠ 0 then
        " with points, f(x) notitle with lines ls 1, g(x) notitle with lines ls 2, h(x) notitle with lines ls 2".toList
      else " with points, f(x) title 'h(x)' with lines ls 2".toList
    let r ← sortLabels e.d.classes e.d.names false (tempFiles e.folder e.listing)
    let cl ← clauses e.d.names.length (titledClause r.2 r.1 feats " with points, ".toList) (titledClause r.2 r.1 feats tail)
    pure (finish (head ++ cl) c)

/-- `plot2DRegresion`: only the x-axis gets a range.  Models Visualization.hpp:701-722. -/
def plot2DRegresion (e : Env K) (a : Args K) (x y : Nat) (c : Cfg) : Res Out := do
  let dims := (← colNo x) ++ ":".toList ++ (← colNo y) ++ ":".toList ++ (← colNo e.d.dim)
  let sx ← Text.itos x
  let c ← configureRange e.tx e.tiny e.big a.scale e.d (some x) none none c
  let c := configurePlot (outName e.d.name "2dplot_".toList "_2d_".toList (sx ++ "_regression".toList)) a.fmt a.title a.save a.xl a.yl a.zl c
  let files := tempFiles e.folder e.listing
  let cl ← clauses files.length (plainClause files dims " with points, ".toList) (plainClause files dims " notitle with points".toList)
  pure (finish ("splot ".toList ++ cl) c)

/-- `plot2DRegresionHyperplane`.  Models Visualization.hpp:724-749. -/
def plot2DRegresionHyperplane (e : Env K) (a : Args K) (x y : Nat) (s : Sol K) (c : Cfg) : Res Out := do
  let dims := (← colNo x) ++ ":".toList ++ (← colNo y) ++ ":".toList ++ (← colNo e.d.dim)
  let sx ← Text.itos x
  let c ← configureRange e.tx e.tiny e.big a.scale e.d (some x) none none c
  let c := configurePlot (outName e.d.name "2dplot_".toList "_2d_".toList (sx ++ "_regression".toList)) a.fmt a.title a.save a.xl a.yl a.zl c
  let wx ← s.at x
  let wy ← s.at y
  let fxy := "f(x,y) = ".toList ++ e.tx.num wx ++ "*x + ".toList ++ e.tx.num wy ++ "*y + ".toList ++ e.tx.num s.bias
  let files := tempFiles e.folder e.listing
  let cl ← clauses files.length (plainClause files dims " with points, ".toList)
    (plainClause files dims " notitle with points, f(x,y) notitle with lines ls 1 lt rgb \"red\"".toList)
  pure (finish (fxy ++ "; splot ".toList ++ cl) c)

/-- `plot3D` of three features.  Models Visualization.hpp:751-774. -/
def plot3D (e : Env K) (a : Args K) (x y z : Nat) (c : Cfg) : Res Out := do
  let dims := (← colNo x) ++ ":".toList ++ (← colNo y) ++ ":".toList ++ (← colNo z)
  let sx ← Text.itos x
  let sy ← Text.itos y
  let sz ← Text.itos z
  let c ← configureRange e.tx e.tiny e.big a.scale e.d (some x) (some y) (some z) c
  let c := configurePlot (outName e.d.name "3dplot_".toList "_3d_".toList (sx ++ "_".toList ++ sy ++ "_".toList ++ sz)) a.fmt a.title a.save a.xl a.yl a.zl c
  let r ← sortLabels e.d.classes e.d.names false (tempFiles e.folder e.listing)
  let cl ← clauses e.d.names.length (titledClause r.2 r.1 dims " with points, ".toList) (titledClause r.2 r.1 dims " with points".toList)
  pure (finish ("splot ".toList ++ cl) c)

/-- `plot3D` of three points; no range and no label for the third.  Models Visualization.hpp:776-807. -/
def plot3DPoints (e : Env K) (a : Args K) (x y z : List K) (c : Cfg) : Res (Out × Str × Str) :=
  if ¬ (x.length = y.length ∧ y.length = z.length) then .error .assertFail
  else
    let out := if a.title = [] then "3dplot_".toList else "3dplot_".toList ++ a.title
    let c := { c with xr := pointRange e.tx e.tiny e.big a.scale x c.xr, yr := pointRange e.tx e.tiny e.big a.scale y c.yr }
    let c := configurePlot out a.fmt a.title a.save a.xl a.yl [] c
    let path := "output/".toList ++ out ++ ".dat".toList
    let text := (List.zipWith (fun p q => p ++ " ".toList ++ e.tx.shw q ++ "\n".toList)
      (List.zipWith (fun p q => e.tx.shw p ++ " ".toList ++ e.tx.shw q) x y) z).flatten
    .ok (finish ("splot ".toList ++ "'".toList ++ path ++ "' using 1:2:3 with points".toList) c, path, text)

/-- `plot3DwithHyperplane`: the text returned is without the settings.  Models Visualization.hpp:809-842. -/
def plot3DwithHyperplane (e : Env K) (a : Args K) (x y z : Nat) (s : Sol K) (c : Cfg) : Res Out :=
  if !e.d.classification then .error .assertFail
  else do
    let feats := (← colNo x) ++ ":".toList ++ (← colNo y) ++ ":".toList ++ (← colNo z)
    let sx ← Text.itos x
    let sy ← Text.itos y
    let sz ← Text.itos z
    let c ← configureRange e.tx e.tiny e.big a.scale e.d (some x) (some y) (some z) c
    let c := configurePlot (outName e.d.name "3dplotsol_".toList "_3dsol_".toList (sx ++ "_".toList ++ sy ++ "_".toList ++ sz)) a.fmt a.title a.save a.xl a.yl a.zl c
    let g ← planeOf s x y z (s.bias + s.margin * s.norm)
    let f ← planeOf s x y z s.bias
    let h ← planeOf s x y z (s.bias - s.margin * s.norm)
    let head := planeText e.tx "g".toList g ++ ";".toList ++ planeText e.tx "f".toList f ++ ";".toList ++
      planeText e.tx "h".toList h ++ "; splot ".toList
    let r ← sortLabels e.d.classes e.d.names false (tempFiles e.folder e.listing)
    let cl ← clauses e.d.names.length (titledClause r.2 r.1 feats " with points, ".toList)
      (titledClause r.2 r.1 feats " with points, ".toList)
    let cmd := head ++ cl ++ "g(x,y) notitle with lines ls 1 lt rgb \"red\",".toList ++
      "f(x,y) notitle with lines ls 1,".toList ++ "h(x,y) notitle with lines ls 1 lt rgb \"red\";".toList
    let o := finish cmd c
    pure ⟨o.sent, prepareScript cmd, o.cfg⟩

/-- The calls of the class that draw something, without `plotDecisionSurface2D`. -/
inductive Call (K : Type) where
  | reg1 (a : Args K) (x : Nat)
  | reg1h (a : Args K) (x : Nat) (s : Sol K)
  | two (a : Args K) (x y : Nat)
  | twoPoints (a : Args K) (x y : List K)
  | twoH (a : Args K) (x y : Nat) (s : Sol K)
  | reg2 (a : Args K) (x y : Nat)
  | reg2h (a : Args K) (x y : Nat) (s : Sol K)
  | three (a : Args K) (x y z : Nat)
  | threePoints (a : Args K) (x y z : List K)
  | threeH (a : Args K) (x y z : Nat) (s : Sol K)

/-- One drawing call. -/
def draw (e : Env K) (c : Cfg) : Call K → Res Out
  | .reg1 a x => plot1DRegresion e a x c
  | .reg1h a x s => plot1DRegresionHyperplane e a x s c
  | .two a x y => plot2D e a x y c
  | .twoPoints a x y => (plot2DPoints e a x y c).map Prod.fst
  | .twoH a x y s => plot2DwithHyperplane e a x y s c
  | .reg2 a x y => plot2DRegresion e a x y c
  | .reg2h a x y s => plot2DRegresionHyperplane e a x y s c
  | .three a x y z => plot3D e a x y z c
  | .threePoints a x y z => (plot3DPoints e a x y z c).map Prod.fst
  | .threeH a x y z s => plot3DwithHyperplane e a x y z s c

/-- A use of the object: a drawing call, one of the setters or `plotDecisionSurface2D`. -/
inductive Use (K : Type) where
  | call (p : Call K)
  | title (t : Str)
  | style (t : Str)
  | term (t : Str)
  | surface (a : Args K) (x y : Nat) (stamp : Str) (opens : Bool)

/-- The settings after `plotDecisionSurface2D`: when one of its files cannot be opened it returns before the settings are
fetched.  Models Visualization.hpp:850-852, 865-869, 887-890, 912. -/
def surfaceCfg (e : Env K) (a : Args K) (x y : Nat) (stamp : Str) (opens : Bool) (c : Cfg) : Res Cfg := do
  let c := configurePlot ("contour_".toList ++ e.d.name ++ "_".toList ++ stamp) a.fmt a.title a.save a.xl a.yl [] c
  let c ← configureRange e.tx e.tiny e.big a.scale e.d (some x) (some y) none c
  pure (if opens then (fetchConfigs c).2 else c)

/-- The settings after a sequence of uses (each drawing call with its own data and folder). -/
def history : Cfg → List (Env K × Use K) → Res Cfg
  | c, [] => .ok c
  | c, (e, .call p) :: us => do
    let o ← draw e c p
    history o.cfg us
  | c, (_, .title t) :: us => history (setTitle t c) us
  | c, (_, .style t) :: us => history (setStyle t c) us
  | c, (_, .term t) :: us => history (setTerminal t c) us
  | c, (e, .surface a x y stamp opens) :: us => do
    let c' ← surfaceCfg e a x y stamp opens c
    history c' us

/-! ### decision surface -/

/-- What `plotDecisionSurface2D` writes: the rows of the grid file and, for each class in the order of `classes`, the
rows of its file (two features and the label). -/
structure Surface (K : Type) where
  grid : List (K × K × K)
  points : List (List (List K × Int))
  deriving DecidableEq, Repr

/-- The loop that hands the samples to the files of their classes.  Models Visualization.hpp:895-898. -/
def spread (classes : List Int) : List (List K × Int) → List (List (List K × Int)) → Res (List (List (List K × Int)))
  | [], acc => .ok acc
  | r :: rest, acc => do
    let pos := classes.findIdx (fun c => decide (c = r.2))
    let l ← vget acc pos
    let acc' ← vset acc pos (l ++ [r])
    spread classes rest acc'

/-- `plotDecisionSurface2D` up to the command: `trained` is the decision function of the learner as it is, `train` the one
after training on the selected samples.  The two columns come from `selectFeatures({x+1, y+1})`, the grid from the ranges
of the features `x` and `y`.  Models Visualization.hpp:844-901. -/
def surface (tiny big scale : K) (d : VData K) (x y n : Nat) (isTrained : Bool) (trained : List K → K)
    (train : List (List K × Int) → List K → K) : Res (Surface K) :=
  if !d.classification then .error .assertFail
  else do
    let cx ← d.column x
    let cy ← d.column y
    let rx := axisRange tiny big scale cx
    let ry := axisRange tiny big scale cy
    let xx := PointM.linspace rx.1 rx.2 n
    let yy := PointM.linspace ry.1 ry.2 n
    let t ← Feat.selectFeatures ⟨d.rows.map Prod.fst, d.fnames, d.dim⟩ [x + 1, y + 1]
    let copy := t.rows.zip (d.rows.map Prod.snd)
    let f := if isTrained then trained else train copy
    let grid := xx.flatMap (fun a => yy.map (fun b => (a, b, f [a, b])))
    let points ← spread d.classes copy (List.replicate d.classes.length [])
    pure ⟨grid, points⟩

end

/-! ### folders -/

/-- The state outside and inside the object that `create_plotfolder` touches: the folders on disk, the counter `n_plots`
(shared by all objects), and `plot_folder`, `plot_folders` of the object. -/
structure Dirs where
  disk : List Str
  nPlots : Nat
  cur : Str
  mine : List Str
  deriving DecidableEq, Repr

/-- `PLOT_FOLDER + std::to_string(n_plots) + "/"`.  Models Visualization.hpp:22, 349. -/
def folderName (n : Nat) : Str := "plottemp".toList ++ Text.natChars n ++ "/".toList

/-- One pass of the `do`: the candidate is noted as one of the object's own folders.  Models Visualization.hpp:349-353. -/
def tryFolder (s : Dirs) : Dirs :=
  let p := folderName s.nPlots
  { s with cur := p, mine := if p ∈ s.mine then s.mine else s.mine ++ [p], nPlots := s.nPlots + 1 }

/-- The `do … while (exists(plot_folder))`, at most `fuel` passes.  Models Visualization.hpp:348-354. -/
def folderLoop : Nat → Dirs → Option Dirs
  | 0, _ => none
  | n+1, s =>
    let s' := tryFolder s
    if s'.cur ∈ s'.disk then folderLoop n s' else some s'

/-- `create_plotfolder()`: as many passes as there are folders on disk, and one, are enough.
Models Visualization.hpp:346-367. -/
def createFolder (s : Dirs) : Option Dirs :=
  (folderLoop (s.disk.length + 1) s).map (fun s' => { s' with disk := s'.cur :: s'.disk })

/-- `removeTempFiles()` for an object that does not keep its files: the current folder is removed.
Models Visualization.hpp:524-541. -/
def removeTemp (s : Dirs) : Dirs := { s with disk := s.disk.filter (fun p => p ≠ s.cur) }

/-- The destructor: the current folder, then everything in `plot_folders`.  Models Visualization.hpp:1022-1045. -/
def destroy (s : Dirs) : Dirs :=
  let s' := removeTemp s
  { s' with disk := s'.disk.filter (fun p => p ∉ s'.mine), mine := [] }

/-- `setSample`.  Models Visualization.hpp:925-933. -/
def setSample (s : Dirs) : Option Dirs := createFolder (if s.cur ∈ s.disk then removeTemp s else s)

end MLTK.Vis
