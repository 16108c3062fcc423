import Verif.Model.SyncStream
/-!
# Specification: whole lines in the output
-/
namespace MLTK.Spec
open MLTK.SyncS
variable {α : Type}

/-- The text of a call: its items, and a line end after `println`. -/
def lineText (nl : α) : Call α → List α
  | .print _ is => is
  | .println _ is => is ++ [nl]

/-- The calls of thread `t` in a sequence of calls tagged by the thread that made them. -/
def madeBy (t : Nat) (calls : List (Nat × Call α)) : List (Call α) := (calls.filter (fun c => c.1 = t)).map Prod.snd

/-- `out` consists of the texts of whole calls, every thread's calls in the order of its program, followed by the beginning
of the text of the one call in progress, if there is one. -/
def WholeCalls (nl : α) (progs : List (List (Call α))) (out : List α) : Prop :=
  ∃ done : List (Nat × Call α), (∀ t p, progs[t]? = some p → madeBy t done <+: p) ∧
    (out = done.flatMap (fun c => lineText nl c.2) ∨
     ∃ t p c part, progs[t]? = some p ∧ madeBy t done ++ [c] <+: p ∧ part <+: lineText nl c ∧
       out = done.flatMap (fun c => lineText nl c.2) ++ part)

/-- `out` consists of the texts of all calls of all threads, every thread's calls in the order of its program. -/
def AllCalls (nl : α) (progs : List (List (Call α))) (out : List α) : Prop :=
  ∃ done : List (Nat × Call α), (∀ c ∈ done, c.1 < progs.length) ∧ (∀ t p, progs[t]? = some p → madeBy t done = p) ∧
    out = done.flatMap (fun c => lineText nl c.2)

/-- All threads have come to their end. -/
def Finished (s : St α) : Prop := ∀ th ∈ s.threads, th.todo = [] ∧ th.inside = none

/-- Number of steps of the programs: two for each call and one for each of its items. -/
def stepsOf (nl : α) (progs : List (List (Call α))) : Nat :=
  (progs.map (fun p => (p.map (fun c => (lineText nl c).length + 2)).sum)).sum

end MLTK.Spec
