/-
Calls that may have a connection.
-/
import Verif.Spec.PoolSystem

namespace Htrpc.Spec

/-- A call that has got a reply of the pool and is not finished. -/
def InProgress (y : PCall) : Prop :=
  match y.st with
  | .replied _ _ => True
  | .active _ _ => True
  | _ => False

instance : DecidablePred InProgress := fun y => by unfold InProgress; split <;> infer_instance

end Htrpc.Spec
