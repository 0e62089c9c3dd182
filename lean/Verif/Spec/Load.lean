/-
How many handlers run at a time.
-/
import Verif.Model.Server

namespace Htrpc.Spec

/-- A handler is called. -/
def isCall : ConnEffect → Bool
  | .invoked _ _ _ => true
  | _ => false

/-- A handler is done. -/
def isReturn : ConnEffect → Bool
  | .returned _ _ => true
  | _ => false

/-- The connection ends. -/
def isEnd : ConnEffect → Bool
  | .finished => true
  | .warned => true
  | .panicked => true
  | _ => false

/-- How often this was observed of a connection. -/
def onConns (f : ConnEffect → Bool) (log : List ServerEffect) : Nat :=
  log.countP fun | .conn _ e => f e | _ => false

/-- How often this was observed of the connection `i`. -/
def onOne (i : Nat) (f : ConnEffect → Bool) (log : List ServerEffect) : Nat :=
  log.countP fun | .conn j e => decide (j = i) && f e | _ => false

/-- How many connections were accepted. -/
def clients (log : List ServerEffect) : Nat := log.countP fun | .spawned _ => true | _ => false

end Htrpc.Spec
