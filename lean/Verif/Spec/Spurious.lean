/-
Calls that are polled although nothing has happened.
-/
import Verif.Model.PoolSystem

namespace Htrpc.Spec

/-- There is something for the call to find out without its connection: the pool has given it an idle connection or
rejected it, or is gone. -/
def HasNews (s : Sys) (i : Nat) : Prop :=
  ∃ y, s.calls[i]? = some y ∧
    ((∃ inner, y.st = .waiting inner ∧ s.pool = none) ∨ (∃ inner c, y.st = .replied inner (.ready c)) ∨
      ∃ inner, y.st = .replied inner .failed)

/-- Everything but attempts to read or write. -/
def apartFromIo (es : List Effect) : List Effect := es.filter fun | .io _ _ => false | _ => true

end Htrpc.Spec
