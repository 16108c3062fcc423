import Verif.Spec.Visual
import Verif.Spec.Text
/-!
# What a decision surface shows, and what a kept folder is

Words of this file: a *block* of a grid file is the lines of one value of the first feature, ended by an empty line; a *clock stamp* is
a text that ends with a time of day `hh:mm:ss` and has no other colon.
-/
namespace MLTK.Spec

/-- The file that holds the grid of a surface. -/
def surfaceGridFile (folder name stamp : List Char) : List Char := folder ++ name ++ "_".toList ++ stamp ++ ".dat".toList

/-- The file that holds the samples of a class beside a surface. -/
def surfaceClassFile (folder stamp name : List Char) : List Char := folder ++ name ++ "_data".toList ++ stamp ++ ".dat".toList

/-- The text of a grid: for every value of the first feature a block with a line for every value of the second. -/
def surfaceBlocks {K : Type} (shw fix : K → List Char) (xs ys : List K) (f : List K → K) : List Char :=
  (xs.map (fun a => (ys.map (fun b => fileLine [shw a, shw b, fix (f [a, b])])).flatten ++ ['\n'])).flatten

/-- The text of the samples of a class: two features and the label. -/
def surfaceClassText {K : Type} [Zero K] (shw : K → List Char) (shwI : Int → List Char) (rows : List (List K × Int)) (x y : Nat)
    (c : Int) : List Char :=
  ((rows.filter (fun r => r.2 = c)).map (fun r => fileLine [shw (r.1.getD x 0), shw (r.1.getD y 0), shwI r.2])).flatten

/-- `lo` and `hi` are the least and the greatest of the classes. -/
def ClassSpan (classes : List Int) (lo hi : Int) : Prop :=
  lo ∈ classes ∧ hi ∈ classes ∧ ∀ c ∈ classes, lo ≤ c ∧ c ≤ hi

/-- The statements that draw a surface and over it the classes in the given order. -/
def surfaceStatements (grid lo hi : List Char) (classFile : List Char → List Char) (order : List (Int × List Char)) : List Char :=
  "set pm3d map;set pm3d interpolate 0,0;set cbrange [".toList ++ lo ++ ":".toList ++ hi ++
    "];set cbtics 1;set palette rgbformulae 22,13,10;splot '".toList ++ grid ++ "', ".toList ++
    List.intercalate ",".toList (order.map (fun p => "'".toList ++ classFile p.2 ++ "' title '".toList ++ p.2 ++ "' with points".toList)) ++
    ";".toList

/-- A clock stamp `t` and its characters without the colons, the last one twice. -/
def ClockStamp (t plain : List Char) : Prop :=
  ∃ (date : List Char) (h1 h2 m1 m2 s1 s2 : Char), (∀ c ∈ date ++ [h1, h2, m1, m2, s1, s2], c ≠ ':') ∧
    t = date ++ [h1, h2, ':', m1, m2, ':', s1, s2] ∧ plain = date ++ [h1, h2, m1, m2, s1, s2, s2]

/-- The name of the kept folder of the plot number `k`. -/
def keptFolder (k : Nat) (plain : List Char) : List Char :=
  "plottemp".toList ++ Nat.toDigits 10 k ++ "_saved_".toList ++ plain ++ "/".toList

/-- The folders kept from the plot number `k` on. -/
def keptFolders {α : Type} : Nat → List (α × List Char) → List (List Char × α)
  | _, [] => []
  | k, (a, p) :: rest => (keptFolder k p, a) :: keptFolders (k + 1) rest

end MLTK.Spec
