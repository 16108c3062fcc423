import Verif.Spec.ThreadPool
import Verif.Model.PoolClient
/-!
# What the client of a pool does
-/
namespace MLTK.Spec
open MLTK.Pool

/-- The events that are not steps of workers, in order. -/
def clientSteps (es : List Event) : List Event := es.filter (fun e => !isWorkerStep e)

/-- An iteration step of `wait_for_tasks` that does not return. -/
def isWaiting : Event → Bool
  | .waitLook | .waitMore | .waitReadTotal | .waitReadQueued | .waitPausedMore => true
  | _ => false

/-- A return of `wait_for_tasks`. -/
def isWaitReturn : Event → Bool
  | .waitOpenReturn | .waitPausedReturn => true
  | _ => false

end MLTK.Spec
