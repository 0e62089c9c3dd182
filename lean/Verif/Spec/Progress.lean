/-
When a call is finished.
-/
import Verif.Model.PoolSystem

namespace Htrpc.Spec

/-- The call has ended: with a response, with an error, in a panic, or because it was dropped. -/
def Finished : PCallSt → Prop
  | .done _ _ | .failed _ | .panicked | .dropped => True
  | .waiting _ | .replied _ _ | .active _ _ => False

/-- Nothing comes of call `i`: it is not dropped, and if it is polled the network is not ready. -/
def Undisturbed (i : Nat) (evs : List SysEvent) : Prop :=
  ∀ e ∈ evs, (∀ r, e = .poll i r → r = .notReady) ∧ e ≠ .dropCall i

end Htrpc.Spec
