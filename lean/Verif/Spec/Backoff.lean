/-
How often connections to an address are attempted.
-/
import Verif.Spec.PoolSystem

namespace Htrpc.Spec

/-- The call is to `a` and has no connection so far: it waits for the answer of the pool, or connects. -/
def unconnected (a : Addr) (y : PCall) : Bool :=
  decide (y.addr = a) &&
    match y.st with
    | .waiting _ | .replied _ (.connecting _) => true
    | _ => false

/-- The times at which the pool handles commands. -/
def handledAt : List SysEvent → List Time
  | [] => []
  | .handle now :: evs => now :: handledAt evs
  | _ :: evs => handledAt evs

variable [FloatText]

/-- At no time more than `k` calls to `a` are without connection. -/
def AtMost (k size : Nat) (a : Addr) (evs : List SysEvent) : Prop :=
  ∀ l, l <+: evs → (Sys.run l (.new size)).2.calls.countP (unconnected a) ≤ k

/-- When the pool handled the last report that a connection to `a` cannot be made, and which duration of
suspensions was set then. At first the duration is `d`, and `r` is what is known. -/
def lastReport (a : Addr) : List SysEvent → Sys → Nat → Option (Time × Nat) → Option (Time × Nat)
  | [], _, _, r => r
  | .handle now :: evs, s, d, r =>
    lastReport a evs (s.step (.handle now)).2 d
      (if .reported a ∈ (s.step (.handle now)).1 then some (now, d) else r)
  | .setSuspended d :: evs, s, _, r => lastReport a evs (s.step (.setSuspended d)).2 d r
  | e :: evs, s, d, r => lastReport a evs (s.step e).2 d r

end Htrpc.Spec
