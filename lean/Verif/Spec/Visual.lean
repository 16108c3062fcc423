import Mathlib.Algebra.Order.Field.Basic
import Mathlib.Data.List.Sort
/-!
# What a plot shows

Words of this file: a *line* of a data file is the numbers of a sample separated by single blanks and ended by a newline;
the *file of a class* is the class name with the extension `plt`.
-/
namespace MLTK.Spec

/-- The line of a list of texts. -/
def fileLine (xs : List (List Char)) : List Char := List.intercalate [' '] xs ++ ['\n']

/-- The path of the file of a class. -/
def plotFile (folder name : List Char) : List Char := folder ++ name ++ ['.', 'p', 'l', 't']

/-- The text of a file that holds exactly the samples with label `c`, in the order of the dataset. -/
def linesOfClass {K : Type} (shw : K → List Char) (rows : List (List K × Int)) (c : Int) : List Char :=
  ((rows.filter (fun r => r.2 = c)).map (fun r => fileLine (r.1.map shw))).flatten

/-- A classification dataset as inserting samples builds it: as many class names as classes, the classes and the names
without repetitions, every sample of a known class, and all samples with `dim ≥ 1` features. -/
structure WellLabelled {K : Type} (rows : List (List K × Int)) (classes : List Int) (names : List (List Char)) (dim : Nat) :
    Prop where
  same : names.length = classes.length
  classesNodup : classes.Nodup
  namesNodup : names.Nodup
  known : ∀ r ∈ rows, r.2 ∈ classes
  wide : ∀ r ∈ rows, r.1.length = dim
  pos : 0 < dim

/-- The classes with their names, in increasing order of the class. -/
def ByClass (classes : List Int) (names : List (List Char)) (order : List (Int × List Char)) : Prop :=
  order.Perm (classes.zip names) ∧ order.Pairwise (fun a b => a.1 < b.1)

/-- The part of a plot command that draws the columns `cols` of a file under a title. -/
def drawFile (path cols title : List Char) : List Char :=
  "'".toList ++ path ++ "' using ".toList ++ cols ++ " title '".toList ++ title ++ "' with points".toList

/-- Drawing the file of every class in the given order, separated by commas. -/
def drawClasses (folder cols : List Char) (order : List (Int × List Char)) : List Char :=
  List.intercalate ", ".toList (order.map (fun p => drawFile (plotFile folder p.2) cols p.2))

/-- An optional statement of a script: nothing when its text is empty. -/
def optStmt (before text after : List Char) : List Char := if text = [] then [] else before ++ text ++ after

/-- The texts that the statements before a plot command show. -/
structure Preamble where
  save : Bool
  format : List Char
  output : List Char
  terminal : List Char
  title : List Char
  xrange : List Char
  yrange : List Char
  zrange : List Char
  xlabel : List Char
  ylabel : List Char
  zlabel : List Char

/-- The statements before a plot command: the terminal and output file, the title, the ranges, the labels. -/
def Preamble.text (p : Preamble) : List Char :=
  (if p.save then "set terminal ".toList ++ p.format ++ "; set output '".toList ++ p.output ++ ".".toList ++ p.format ++ "'; ".toList
   else if p.terminal = [] then "set terminal x11;".toList
   else "set terminal ".toList ++ p.terminal ++ ";".toList) ++
  optStmt "set title '".toList p.title "';".toList ++
  optStmt "set xrange ".toList p.xrange ";".toList ++
  optStmt "set yrange ".toList p.yrange ";".toList ++
  optStmt "set zrange ".toList p.zrange ";".toList ++
  optStmt "set xlabel '".toList p.xlabel "';".toList ++
  optStmt "set ylabel '".toList p.ylabel "';".toList ++
  optStmt "set zlabel '".toList p.zlabel "';".toList

/-- The text of a range. -/
def interval {K : Type} (fix : K → List Char) (r : K × K) : List Char :=
  "[".toList ++ fix r.1 ++ ":".toList ++ fix r.2 ++ "]".toList

/-- The decision value of a point: the scalar product with the weights, plus the bias. -/
def hyperplaneValue {K : Type} [Field K] (w : List K) (bias : K) (p : List K) : K := (List.zipWith (· * ·) w p).sum + bias

/-- In a plane of two features the graph of `slope * x + offset` is the set of the points with decision value `v`. -/
def IsLine {K : Type} [Field K] (w : List K) (bias v : K) (x y : Nat) (slope offset : K) : Prop :=
  ∀ p : List K, p.length = w.length → (p.getD y 0 = slope * p.getD x 0 + offset ↔ hyperplaneValue w bias p = v)

/-- In a space of three features the graph of `a * x + b * y + offset` is the set of the points with decision value `v`. -/
def IsPlane {K : Type} [Field K] (w : List K) (bias v : K) (x y z : Nat) (a b offset : K) : Prop :=
  ∀ p : List K, p.length = w.length →
    (p.getD z 0 = a * p.getD x 0 + b * p.getD y 0 + offset ↔ hyperplaneValue w bias p = v)

/-- The text of a line. -/
def lineFn {K : Type} (num : K → List Char) (f : List Char) (slope offset : K) : List Char :=
  f ++ "(x) = ".toList ++ num slope ++ "*x + ".toList ++ num offset

/-- The text of a plane. -/
def planeFn {K : Type} (num : K → List Char) (f : List Char) (a b offset : K) : List Char :=
  f ++ "(x,y) = ".toList ++ num a ++ "*x + ".toList ++ num b ++ "*y + ".toList ++ num offset

/-- The command that draws the classes and one line (`margin = 0`) or three. -/
def lineCommand {K : Type} [Field K] [DecidableEq K] (num : K → List Char) (margin slope f g h : K) (classes : List Char) : List Char :=
  if margin = 0 then
    lineFn num "f".toList slope f ++ ";plot ".toList ++ (classes ++ ", f(x) title 'h(x)' with lines ls 2".toList)
  else
    lineFn num "f".toList slope f ++ ";".toList ++ lineFn num "g".toList slope g ++ ";".toList ++
      lineFn num "h".toList slope h ++ ";plot ".toList ++
      (classes ++ ", f(x) notitle with lines ls 1, g(x) notitle with lines ls 2, h(x) notitle with lines ls 2".toList)

/-- The command that draws the classes and three planes. -/
def planeCommand {K : Type} (num : K → List Char) (a b f g h : K) (classes : List Char) : List Char :=
  planeFn num "g".toList a b g ++ ";".toList ++ planeFn num "f".toList a b f ++ ";".toList ++
    planeFn num "h".toList a b h ++ "; splot ".toList ++ (classes ++ ", ".toList) ++
    "g(x,y) notitle with lines ls 1 lt rgb \"red\",".toList ++ "f(x,y) notitle with lines ls 1,".toList ++
    "h(x,y) notitle with lines ls 1 lt rgb \"red\";".toList

/-- A text with every `;` replaced by a line break. -/
def onLines (s : List Char) : List Char := s.map (fun c => if c = ';' then '\n' else c)

/-- Drawing columns of the file of a regression dataset. -/
def drawSamples (folder cols tail : List Char) : List Char :=
  "'".toList ++ plotFile folder "samples".toList ++ "' using ".toList ++ cols ++ tail

/-- `n` points from `lo` to `hi` at equal distances. -/
def EvenlySpaced {K : Type} [Field K] (lo hi : K) (n : Nat) (xs : List K) : Prop :=
  xs.length = n ∧ xs[0]? = some lo ∧ xs[n - 1]? = some hi ∧
    ∀ i a b, xs[i]? = some a → xs[i + 1]? = some b → b - a = (hi - lo) / ((n : K) - 1)

/-- The values of a function on a grid, column by column. -/
def gridOf {K : Type} (xs ys : List K) (f : List K → K) : List (K × K × K) :=
  xs.flatMap (fun a => ys.map (fun b => (a, b, f [a, b])))

/-- `t` begins with `s`. -/
def Begins (s t : List Char) : Prop := ∃ rest, t = s ++ rest

/-- `s` occurs in `t`. -/
def Occurs (s t : List Char) : Prop := ∃ before after, t = before ++ s ++ after

/-- A whole number. -/
def Whole {K : Type} [Field K] (v : K) : Prop := ∃ n : ℤ, v = n

/-- The number nearest to `v` among the whole numbers, up to ties: at distance at most one half. -/
def NearWhole {K : Type} [Field K] [LinearOrder K] (v r : K) : Prop := Whole r ∧ r - 1 / 2 ≤ v ∧ v ≤ r + 1 / 2

end MLTK.Spec
