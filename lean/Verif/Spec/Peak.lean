/-
How many calls to an address are in progress at a time.
-/
import Verif.Spec.Pool
import Verif.Spec.PoolSystem

namespace Htrpc.Spec

/-- The call is to `a` and has neither ended nor been dropped. -/
def unfinished (a : Addr) (y : PCall) : Bool :=
  decide (y.addr = a) &&
    match y.st with
    | .waiting _ | .replied _ _ | .active _ _ => true
    | _ => false

/-- Of the addresses with this host only `a` is called. -/
def OneScope (a : Addr) (evs : List SysEvent) : Prop :=
  ∀ p b v body, .call p b v body ∈ evs → SameHost b a → b = a

/-- The connections that were opened to `a`, one after the other. -/
def openedTo (a : Addr) (log : List Effect) : List Conn :=
  log.filterMap fun
    | .opened _ b c => if b = a then some c else none
    | _ => none

/-- The connections to `a` that were closed. -/
def closedTo (a : Addr) (log : List Effect) : List Conn :=
  log.filterMap fun
    | .closed c => if c ∈ openedTo a log then some c else none
    | _ => none

variable [FloatText]

/-- At no time more than `k` calls to `a` are unfinished. -/
def Peak (k size : Nat) (a : Addr) (evs : List SysEvent) : Prop :=
  ∀ l, l <+: evs → (Sys.run l (.new size)).2.calls.countP (unfinished a) ≤ k

end Htrpc.Spec
