/-
Calls and the connections that fail under them.
-/
import Verif.Spec.OpenConns
import Verif.Spec.PoolSystem

namespace Htrpc.Spec

/-- Call `i` has not completed with a response, be it that it has failed, that it was dropped or that it
is not finished. -/
def WithoutResponse (s : Sys) (i : Nat) : Prop := ∀ y v body, s.calls[i]? = some y → y.st ≠ .done v body

end Htrpc.Spec
