/-!
# Interleavings of sequential programs
-/
namespace MLTK.Spec

/-- `Interleaving ps l`: `l` is obtained by running the programs `ps` concurrently to their ends, each
program executing its own actions in order. -/
inductive Interleaving {α : Type} : List (List α) → List α → Prop where
  | done (ps : List (List α)) (h : ∀ p ∈ ps, p = []) : Interleaving ps []
  | turn (ps : List (List α)) (i : Nat) (a : α) (rest l : List α) (h : ps[i]? = some (a :: rest))
      (next : Interleaving (ps.set i rest) l) : Interleaving ps (a :: l)

end MLTK.Spec
