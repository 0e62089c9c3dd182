/-
Calls that are dropped before they have looked at the answer of their pool.
-/
import Verif.Spec.Commute

namespace Htrpc.Spec

/-- The same state, but call `i` was dropped. -/
def abandon (i : Nat) (s : Sys) : Sys := { s with calls := s.calls.modify i fun y => { y with st := .dropped } }

/-- The same effect, but an idle connection that call `i` was given is closed. -/
def unlessAbandoned (i : Nat) : Effect → Effect
  | .took j a c => if j = i then .closed c else .took j a c
  | e => e

end Htrpc.Spec
