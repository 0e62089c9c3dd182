/-
The order in which calls are served.
-/
import Verif.Model.PoolSystem

namespace Htrpc.Spec

/-- The call waits for the answer of the pool. -/
def Waiting (y : PCall) : Prop := ∃ inner, y.st = .waiting inner

/-- The call has got nothing from the pool: it waits, or was dropped, or failed because the pool is gone. -/
def Unserved (s : Sys) (y : PCall) : Prop :=
  Waiting y ∨ y.st = .dropped ∨ s.pool = none ∧ y.st = .failed .other

end Htrpc.Spec
