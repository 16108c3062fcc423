import Verif.Model.Gnuplot
/-!
# What a session with gnuplot should do (C177-C180)
-/
namespace MLTK.Spec
open MLTK.Gp
variable {K : Type}

/-- A text without the word "plot". -/
def Plain (t : Txt) : Prop := ¬ "plot".toList <:+: t

/-- A text without the words "replot" and "splot". -/
def Calm (t : Txt) : Prop := ¬ "replot".toList <:+: t ∧ ¬ "splot".toList <:+: t

/-- The texts in a setting do not speak of plots, and the multiplot mode is not touched. -/
def QuietSetting : Setting K → Prop
  | .raw t => Plain t
  | .saveTops t => Plain t
  | .contour t => Plain t
  | .legend t => Plain t
  | .title t => Plain t
  | .label _ t => Plain t
  | .multiplot => False
  | .noMultiplot => False
  | _ => True

/-- The texts in what is drawn. -/
def CalmSource : Source K → Prop
  | .slope _ _ => True
  | .equation t => Calm t
  | .equation3d t => Calm t
  | .fileX t _ => Calm t
  | .fileXY t _ _ => Calm t
  | .fileXYErr t _ _ _ => Calm t
  | .fileXYZ t _ _ _ => Calm t
  | .image t => Calm t

/-- The texts in a call do not speak of plots in a way that could be taken for a command. -/
def QuietCall : Call K → Prop
  | .set c => QuietSetting c
  | .style t => Calm t
  | .smooth t => Calm t
  | .draw src title => CalmSource src ∧ Calm title
  | .vectors mk _ title => (∀ name, mk = some name → Calm name) ∧ Calm title
  | _ => True

/-- Whether a picture is flat. -/
def flat : Source K → Bool
  | .equation3d _ => false
  | .fileXYZ _ _ _ _ => false
  | _ => true

/-- Whether what is drawn from vectors is flat. -/
def flatVectors : Vectors K → Bool
  | .vxyz _ _ _ => false
  | _ => true

/-- The calls a session has answered, with whether they succeeded, and the session now.  Nothing is said of what other sessions do
to the disk and to the counter in between. -/
inductive History (str : K → Txt) (term style : Txt) : List (Call K × Bool) → Session → Prop
  | new : History str term style [] (newSession str term style)
  | done {h s e c e' s'} : History str term style h s → call str term e s c = .ok (e', s') →
      History str term style (h ++ [(c, true)]) s'
  | threw {h s e c f} : History str term style h s → call str term e s c = .error f → History str term style (h ++ [(c, false)]) s

/-- The picture on display: none before the first drawing and after a reset, else whether it is flat. -/
def shown (h : List (Call K × Bool)) : Option Bool :=
  h.foldl (fun p c => match c with
    | (.draw src _, true) => some (flat src)
    | (.vectors _ v _, true) => some (flatVectors v)
    | (.resetPlot, _) => none
    | (.resetAll, _) => none
    | _ => p) none

/-- A style if gnuplot knows a part of it, else points. -/
def styleOr (t : Txt) : Txt :=
  if ∃ k ∈ ["lines", "points", "impulses", "dots", "steps", "boxes", "filledcurves", "histograms"], k.toList <:+: t then t
  else "points".toList

/-- A smoothing if gnuplot knows a part of it, else none. -/
def smoothOr (t : Txt) : Txt := if ∃ k ∈ ["unique", "frequency", "csplines", "bezier"], k.toList <:+: t then t else []

/-- The style in force: the last one asked for. -/
def styleInForce (style : Txt) (h : List (Call K × Bool)) : Txt :=
  h.foldl (fun p c => match c.1 with
    | .style t => styleOr t
    | .resetAll => "points".toList
    | _ => p) (styleOr style)

/-- The smoothing in force, empty for none. -/
def smoothInForce (h : List (Call K × Bool)) : Txt :=
  h.foldl (fun p c => match c.1 with
    | .smooth t => smoothOr t
    | .unsmooth => []
    | .resetAll => []
    | _ => p) []

/-- How a drawing begins: a picture of the same kind on display is added to, else a new one is begun. -/
def beginning (display : Option Bool) (isFlat : Bool) : String :=
  if display = some isFlat then "replot " else if isFlat then "plot " else "splot "

/-- The title of a function: the given one or its formula. -/
def functionTitle (title formula : Txt) : Txt := if title = [] then formula else title

/-- What is drawn, as gnuplot is to read it. -/
def picture (str : K → Txt) (style smooth title : Txt) : Source K → Txt
  | .slope a b => (str a ++ " * x + ".toList ++ str b) ++ " title \"".toList ++
      functionTitle title ("f(x) = ".toList ++ str a ++ " * x + ".toList ++ str b) ++ "\" with ".toList ++ style
  | .equation e => e ++ " title \"".toList ++ functionTitle title ("f(x) = ".toList ++ e) ++ "\" with ".toList ++ style
  | .equation3d e => e ++ " title \"".toList ++ functionTitle title ("f(x,y) = ".toList ++ e) ++ "\" with ".toList ++ style
  | .fileX f c => ['"'] ++ f ++ "\" using ".toList ++ Nat.toDigits 10 c ++
      (if title = [] then " notitle ".toList else " title \"".toList ++ title ++ "\" ".toList) ++
      (if smooth = [] then "with ".toList ++ style else "smooth ".toList ++ smooth)
  | .fileXY f cx cy => ['"'] ++ f ++ "\" using ".toList ++ Nat.toDigits 10 cx ++ [':'] ++ Nat.toDigits 10 cy ++
      (if title = [] then " notitle ".toList else " title \"".toList ++ title ++ "\" ".toList) ++
      (if smooth = [] then "with ".toList ++ style else "smooth ".toList ++ smooth)
  | .fileXYErr f cx cy cd => ['"'] ++ f ++ "\" using ".toList ++ Nat.toDigits 10 cx ++ [':'] ++ Nat.toDigits 10 cy ++ [':'] ++
      Nat.toDigits 10 cd ++ " with errorbars ".toList ++
      (if title = [] then " notitle ".toList else " title \"".toList ++ title ++ "\" ".toList)
  | .fileXYZ f cx cy cz => ['"'] ++ f ++ "\" using ".toList ++ Nat.toDigits 10 cx ++ [':'] ++ Nat.toDigits 10 cy ++ [':'] ++
      Nat.toDigits 10 cz ++ (if title = [] then " notitle with ".toList else " title \"".toList ++ title ++ "\" with ".toList) ++ style
  | .image f => ['"'] ++ f ++ (if title = [] then "\" with image".toList
      else "\" title \"".toList ++ title ++ "\" with image".toList)

/-- The file of the user that is drawn, if any. -/
def userFile : Source K → Option Txt
  | .fileX f _ => some f
  | .fileXY f _ _ => some f
  | .fileXYErr f _ _ _ => some f
  | .fileXYZ f _ _ _ => some f
  | _ => none

/-- The source that reads the file `name` of a drawing from vectors. -/
def readBack (name : Txt) : Vectors K → Source K
  | .vx _ => .fileX name 1
  | .vxy _ _ => .fileXY name 1 2
  | .vxyErr _ _ _ => .fileXYErr name 1 2 3
  | .vxyz _ _ _ => .fileXYZ name 1 2 3
  | .vimage _ _ _ _ => .image name

/-- The vectors can be drawn: they are not empty and of one length. -/
def Drawable : Vectors K → Prop
  | .vx x => x ≠ []
  | .vxy x y => x ≠ [] ∧ y.length = x.length
  | .vxyErr x y d => x ≠ [] ∧ y.length = x.length ∧ d.length = x.length
  | .vxyz x y z => x ≠ [] ∧ y.length = x.length ∧ z.length = x.length
  | .vimage _ _ _ _ => True

/-- The file holds the vectors: row `i` is made of their `i`-th components. -/
def Holds (rows : List (List K)) : Vectors K → Prop
  | .vx x => rows.length = x.length ∧ ∀ (i : Nat) (h : i < x.length), rows[i]? = some [x[i]]
  | .vxy x y => rows.length = x.length ∧ ∀ (i : Nat) a b, x[i]? = some a → y[i]? = some b → rows[i]? = some [a, b]
  | .vxyErr x y d => rows.length = x.length ∧ ∀ (i : Nat) a b c, x[i]? = some a → y[i]? = some b → d[i]? = some c → rows[i]? = some [a, b, c]
  | .vxyz x y z => rows.length = x.length ∧ ∀ (i : Nat) a b c, x[i]? = some a → y[i]? = some b → z[i]? = some c → rows[i]? = some [a, b, c]
  | .vimage num w h px => rows.length = h * w ∧ ∀ r c, r < h → c < w → rows[r * w + c]? = some [num c, num r, px (r * w + c)]

/-- No operation of the program removes temporary files. -/
def NoRemoval (p : List (Op K)) : Prop := ∀ i, Op.on i Call.removeTmp ∉ p

/-- After a session has removed its temporary files it makes and removes none. -/
def RemovesOnce : List (Op K) → Prop
  | [] => True
  | op :: p => (match op with
    | .on i .removeTmp => ∀ o ∈ p, ∀ c, o = Op.on i c → c ≠ Call.removeTmp ∧ ∀ mk v t, c ≠ Call.vectors mk v t
    | _ => True) ∧ RemovesOnce p

/-- The program goes on to remove the temporary files of session `i` before it destroys it. -/
def WillRemove (i : Nat) (p : List (Op K)) : Prop :=
  ∃ q1 q2, p = q1 ++ Op.on i Call.removeTmp :: q2 ∧ Op.destroy i ∉ q1

/-- Every drawing from vectors is followed by a removal of the temporary files of its session, while it is alive. -/
def Tidy : List (Op K) → Prop
  | [] => True
  | op :: p => (∀ i mk v t, op = Op.on i (Call.vectors mk v t) → WillRemove i p) ∧ Tidy p

/-- A process that has done nothing yet, with these files on disk. -/
def start (disk : List (File K)) : World K := ⟨⟨disk, 0, 0⟩, []⟩

/-- The non-empty pieces of a list of directories separated by colons. -/
def PathPieces (path : Txt) (dirs : List Txt) : Prop :=
  ∃ all : List Txt, List.intercalate [':'] all = path ∧ all ≠ [] ∧ (∀ d ∈ all, ':' ∉ d) ∧ dirs = all.filter (fun d => !d.isEmpty)

end MLTK.Spec
