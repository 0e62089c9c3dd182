/-
Calls to one address, one after another, through a pool that has time to follow.
-/
import Verif.Spec.PoolSystem
import Verif.Spec.Progress

namespace Htrpc.Spec

variable [FloatText]

/-- Every call is to this address, and when it is made the calls before it have ended and the pool has handled
everything. -/
def Serial (size : Nat) (a : Addr) (evs : List SysEvent) : Prop :=
  ∀ l p b v body l', evs = l ++ .call p b v body :: l' →
    b = a ∧ (Sys.run l (.new size)).2.queue = [] ∧ ∀ y ∈ (Sys.run l (.new size)).2.calls, Finished y.st

/-- Call `i` has completed with a response. -/
def HasResponse (s : Sys) (i : Nat) : Prop := ∃ y v body, s.calls[i]? = some y ∧ y.st = .done v body

/-- Call `i` has ended by itself. -/
def HasEnded (s : Sys) (i : Nat) : Prop := ∃ y, s.calls[i]? = some y ∧ Finished y.st ∧ y.st ≠ .dropped

end Htrpc.Spec
