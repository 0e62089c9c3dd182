/-
How many commands calls send to their pool.
-/
import Verif.Model.PoolSystem

namespace Htrpc.Spec

/-- The number of calls made. -/
def callTotal (evs : List SysEvent) : Nat := evs.countP fun | .call _ _ _ _ => true | _ => false

/-- The number of connections put back by calls. -/
def putsBack (es : List Effect) : Nat := es.countP fun | .returned _ _ _ => true | _ => false

/-- The number of calls that could not connect. -/
def refusedCount (es : List Effect) : Nat := es.countP fun | .refused _ _ => true | _ => false

/-- The call waits for the pool, for its connection or for its response. -/
def Pending : PCallSt → Bool
  | .waiting _ => true
  | .replied _ _ => true
  | .active _ _ => true
  | _ => false

/-- The number of calls in progress. -/
def pendingCalls (s : Sys) : Nat := s.calls.countP fun y => Pending y.st

/-- The pool finds a command in its queue. -/
def finds (s : Sys) : SysEvent → Bool
  | .handle _ => s.pool.isSome && !s.queue.isEmpty
  | _ => false

variable [FloatText]

/-- How many commands the pool takes from its queue. -/
def commandsTaken : List SysEvent → Sys → Nat
  | [], _ => 0
  | e :: evs, s => (if finds s e then 1 else 0) + commandsTaken evs (s.step e).2

end Htrpc.Spec
