import Verif.Model.ThreadPool
/-!
# What a user observes of a thread pool: the order in which tasks are submitted, started, finished
-/
namespace MLTK.Spec
open MLTK.Pool

/-- Tasks for which `push_task` has been entered, in that order. -/
def submitted (es : List Event) : List Task :=
  es.filterMap (fun | .push t => some t | _ => none)

/-- Tasks in the order in which their `push_task` put them in the queue (the submission order). -/
def enqueued (es : List Event) : List Task :=
  es.filterMap (fun | .enqueue t => some t | _ => none)

/-- Tasks in the order in which some worker began to execute them. -/
def started (es : List Event) : List Task :=
  es.filterMap (fun | .start _ t => some t | _ => none)

/-- Tasks in the order in which their execution ended. -/
def finished (es : List Event) : List Task :=
  es.filterMap (fun | .finish _ t => some t | _ => none)

/-- The tasks being executed right now. -/
def executing (s : Pool) : List Task :=
  s.workers.filterMap (fun | .exec t => some t | _ => none)

/-- The event is a step of worker `i`. -/
def ofWorker (i : Nat) : Event → Bool
  | .check j | .look j | .noTask j | .dec j => i = j
  | .start j _ | .finish j _ => i = j
  | _ => false

/-- The event is a step of some worker. -/
def isWorkerStep : Event → Bool
  | .check _ | .look _ | .noTask _ | .dec _ | .start _ _ | .finish _ _ => true
  | _ => false

/-- The integers `a, a+1, …, b-1`: the iterations of `for (i = a; i < b; i++)`. -/
def indices (a b : Int) : List Int := (List.range (b - a).toNat).map (fun (k : Nat) => a + k)

end MLTK.Spec
