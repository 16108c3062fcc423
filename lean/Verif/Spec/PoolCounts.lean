import Verif.Spec.ThreadPool
/-!
# What the progress numbers of a thread pool should be
-/
namespace MLTK.Spec
open MLTK.Pool

/-- Decrements made so far: tasks whose worker has reported the end of the task. -/
def reported (es : List Event) : Nat := es.countP (fun | .dec _ => true | _ => false)

/-- Workers that have taken a task and not yet reported its end. -/
def atWork (s : Pool) : Nat :=
  s.workers.countP (fun | .exec _ => true | .done => true | _ => false)

/-- Workers whose task has returned but which have not reported its end yet. -/
def reporting (s : Pool) : Nat := s.workers.countP (fun | .done => true | _ => false)

end MLTK.Spec
