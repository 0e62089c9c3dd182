/-
In which order connections are used again.
-/
import Verif.Model.PoolSystem

namespace Htrpc.Spec

/-- The connections that calls to the address have put back, in this order. -/
def putBackFor (a : Addr) (log : List Effect) : List Conn :=
  log.filterMap fun | .returned _ b c => if b = a then some c else none | _ => none

/-- The idle connections that calls to the address were given, in this order. -/
def takenFor (a : Addr) (log : List Effect) : List Conn :=
  log.filterMap fun | .took _ b c => if b = a then some c else none | _ => none

/-- The connections to the address in the pool. -/
def keptFor (a : Addr) (p : Pool) : List Conn :=
  p.connections.filterMap fun e => if e.1.addr = a then some e.2 else none

/-- The connections to the address that were put back and that the pool has not looked at. -/
def queuedFor (a : Addr) (q : List Cmd) : List Conn :=
  q.filterMap fun | .release b c => if b = a then some c else none | _ => none

end Htrpc.Spec
