/-
How long connecting may take.
-/
import Verif.Model.PoolTimed

namespace Htrpc.Spec

/-- The timeout in force after a history: the one set last, and one second if none was set. -/
def timeoutAfter (evs : List TimedEvent) : Nat :=
  ((evs.filterMap fun | .setConnectTimeout d => some d | _ => none).getLast?).getD 1000000000

/-- The events without the times. -/
def untimed (evs : List TimedEvent) : List SysEvent :=
  evs.filterMap fun | .event _ e => some e | _ => none

/-- The same event, or the network gives no connection and connecting fails instead. -/
def GivenUp (e e' : SysEvent) : Prop :=
  e = e' ∨ ∃ i r, e = .poll i r ∧ r ≠ .connected ∧ e' = .poll i .failed

variable [FloatText]

/-- Call `i` connects to `a`. -/
def Connects (size : Nat) (evs : List TimedEvent) (i : Nat) (a : Addr) : Prop :=
  ∃ y inner, (TimedSys.run evs (.new size)).2.sys.calls[i]? = some y ∧
    y.st = .replied inner (.connecting a)

/-- Call `i` has begun to connect at the time `t`, when the timeout was `d`. -/
def Began (size : Nat) (evs : List TimedEvent) (i : Nat) (t : Time) (d : Nat) : Prop :=
  ∃ pre now post, evs = pre ++ .event t (.handle now) :: post ∧ d = timeoutAfter pre ∧
    (∀ a, ¬ Connects size pre i a) ∧ ∃ a, Connects size (pre ++ [.event t (.handle now)]) i a

end Htrpc.Spec
