import Verif.Model.Visual
import Verif.Model.Readers
/-!
# The decision surface as it is drawn, and folders that are kept

`plotDecisionSurface2D` from the texts of its files to the command, and the branch of `removeTempFiles` for an object that keeps
its files.

Simplifications: the two timestamps are parameters; a file can or cannot be opened (`opens`); two class names that are the
same give two entries of the file list (in the program they are two streams on one file); a label is printed by `shwI`.
-/
namespace MLTK.Vis

section
variable {K : Type} [Field K] [LinearOrder K] [FloorRing K]

/-- One line of the grid file: the value is printed with `std::to_string`.  Models Visualization.hpp:875. -/
def gridLine (tx : Txt K) (p : K × K × K) : Str :=
  tx.shw p.1 ++ " ".toList ++ tx.shw p.2.1 ++ " ".toList ++ tx.fix p.2.2 ++ "\n".toList

/-- The grid file: `n` blocks of `n` lines, each followed by an empty line.  Models Visualization.hpp:871-879. -/
def gridText (tx : Txt K) (n : Nat) (grid : List (K × K × K)) : Str :=
  ((List.range n).map (fun i => (((grid.drop (i * n)).take n).map (gridLine tx)).flatten ++ "\n".toList)).flatten

/-- One line of the file of a class.  Models Visualization.hpp:897. -/
def pointLine (tx : Txt K) (shwI : Int → Str) (r : List K × Int) : Str :=
  tx.shw (r.1.getD 0 0) ++ " ".toList ++ tx.shw (r.1.getD 1 0) ++ " ".toList ++ shwI r.2 ++ "\n".toList

/-- The path of the grid file.  Models Visualization.hpp:864. -/
def gridPath (folder name stamp : Str) : Str := folder ++ name ++ "_".toList ++ stamp ++ ".dat".toList

/-- The path of the file of a class.  Models Visualization.hpp:885. -/
def pointsPath (folder stamp name : Str) : Str := folder ++ name ++ "_data".toList ++ stamp ++ ".dat".toList

/-- One part of the `splot` command: a comma after all but the last class.  Models Visualization.hpp:903-909. -/
def surfaceClause (n : Nat) (files names : List Str) (i : Nat) : Res Str := do
  let f ← vget files i
  let m ← vget names i
  pure ("'".toList ++ f ++ "' title '".toList ++ m ++ "' with points".toList ++ (if i + 1 < n then ",".toList else ";".toList))

/-- The command.  Models Visualization.hpp:911-918. -/
def surfaceText (conf grid : Str) (classes : List Int) (scatter : Str) : Str :=
  conf ++ "set pm3d map;".toList ++ "set pm3d interpolate 0,0;".toList ++
    ("set cbrange [".toList ++ Text.showInt (PointM.pmin (2 ^ 31 - 1) classes) ++ ":".toList ++
      Text.showInt (PointM.pmax (-2 ^ 31) classes) ++ "];".toList) ++
    "set cbtics 1;".toList ++ "set palette rgbformulae 22,13,10;".toList ++ ("splot '".toList ++ grid ++ "', ".toList ++ scatter)

/-- What a call leaves: the text sent to gnuplot (if any), the text returned, the settings, and the files written. -/
structure Drawn where
  sent : Option Str
  script : Str
  cfg : Cfg
  files : List (Str × Str)
  deriving DecidableEq, Repr

/-- `plotDecisionSurface2D`: with a file that cannot be opened the answer is empty and nothing is drawn; the files opened before
are left (those of classes empty).  Models Visualization.hpp:844-922. -/
def plotSurface (e : Env K) (a : Args K) (x y n : Nat) (isTrained : Bool) (trained : List K → K)
    (train : List (List K × Int) → List K → K) (shwI : Int → Str) (outStamp stamp : Str) (opens : Str → Bool) (c : Cfg) :
    Res Drawn := do
  let s ← surface e.tiny e.big a.scale e.d x y n isTrained trained train
  let c := configurePlot ("contour_".toList ++ e.d.name ++ "_".toList ++ outStamp) a.fmt a.title a.save a.xl a.yl [] c
  let c ← configureRange e.tx e.tiny e.big a.scale e.d (some x) (some y) none c
  let grid := gridPath e.folder e.d.name stamp
  if !opens grid then pure ⟨none, [], c, []⟩
  else do
    let names ← (List.range e.d.classes.length).mapM (vget e.d.names)
    let files := names.map (pointsPath e.folder stamp)
    let gridFile := (grid, gridText e.tx n s.grid)
    if !files.all opens then pure ⟨none, [], c, gridFile :: (files.takeWhile opens).map (fun f => (f, []))⟩
    else do
      let r ← sortLabels e.d.classes e.d.names true files
      let scatter ← (List.range r.2.length).mapM (surfaceClause e.d.classes.length r.2 r.1)
      let conf := fetchConfigs c
      let cmd := surfaceText conf.1 grid e.d.classes scatter.flatten
      pure ⟨some cmd, prepareScript cmd, conf.2,
        gridFile :: files.zip (s.points.map (fun rs => (rs.map (pointLine e.tx shwI)).flatten))⟩

end

/-! ### folders that are kept -/

/-- `Dirs` with the contents of the folders. -/
structure Kept (α : Type) where
  disk : List (Str × α)
  nPlots : Nat
  cur : Str
  mine : List Str
  deriving DecidableEq, Repr

/-- `timestamp.erase(std::remove(begin, end, ':'))`: one character is erased at the end of the part without `:`, the characters after
it stay; without any `:` the position is the end of the text.  Models Visualization.hpp:507. -/
def savedStamp (t : Str) : Res Str :=
  let kept := t.filter (fun ch => ch ≠ ':')
  if kept.length < t.length then .ok (kept ++ t.drop (kept.length + 1)) else .error .badIterator

/-- The name that the folder gets, written like the folders with a `/` at the end.  Models Visualization.hpp:508-510. -/
def savedName (folder stamp : Str) : Str :=
  folder.filter (fun ch => ch ≠ '/') ++ "_saved_".toList ++ stamp ++ "/".toList

/-- `removeTempFiles()` for an object that keeps its files: `rename` fails (and the error is printed) when the folder is not there or the
new name is taken.  Simplified: an empty folder with the new name counts as taken.  Models Visualization.hpp:503-523. -/
def saveTemp {α : Type} (t : Str) (s : Kept α) : Res (Kept α) := do
  let stamp ← savedStamp t
  let new := savedName s.cur stamp
  if new ∈ s.disk.map Prod.fst then pure s
  else pure { s with disk := s.disk.map (fun p => if p.1 = s.cur then (new, p.2) else p) }

/-- `create_plotfolder()` and `createTempFiles()`, which puts `a` into the new folder.  Models Visualization.hpp:346-367, 380-433. -/
def keepCreate {α : Type} (a : α) (s : Kept α) : Option (Kept α) :=
  (createFolder ⟨s.disk.map Prod.fst, s.nPlots, s.cur, s.mine⟩).map (fun d => ⟨(d.cur, a) :: s.disk, d.nPlots, d.cur, d.mine⟩)

/-- `setSample` of an object that keeps its files.  Models Visualization.hpp:924-933. -/
def keepSet {α : Type} (t : Str) (a : α) (s : Kept α) : Res (Option (Kept α)) := do
  let s' ← if s.cur ∈ s.disk.map Prod.fst then saveTemp t s else pure s
  pure (keepCreate a s')

/-- The destructor of an object that keeps its files: the folders in `plot_folders` that still exist are removed.
Models Visualization.hpp:1022-1045. -/
def keepDestroy {α : Type} (t : Str) (s : Kept α) : Res (Kept α) := do
  let s' ← saveTemp t s
  pure { s' with disk := s'.disk.filter (fun p => p.1 ∉ s'.mine), mine := [] }

end MLTK.Vis
