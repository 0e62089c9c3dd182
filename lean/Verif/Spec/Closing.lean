/-
How many connections are closed.
-/
import Verif.Spec.PoolSystem

namespace Htrpc.Spec

/-- The number of connections opened. -/
def openedTotal (es : List Effect) : Nat := es.countP fun | .opened _ _ _ => true | _ => false

/-- The number of connections closed. -/
def closedTotal (es : List Effect) : Nat := es.countP fun | .closed _ => true | _ => false

/-- The call has ended without a response, or was dropped. -/
def GaveUp : PCallSt → Bool
  | .failed _ => true
  | .panicked => true
  | .dropped => true
  | _ => false

/-- The number of calls that have ended without a response or were dropped. -/
def lostCalls (s : Sys) : Nat := s.calls.countP fun y => GaveUp y.st

end Htrpc.Spec
