/-
What concerns one call in an execution of a pool.
-/
import Verif.Model.PoolSystem

namespace Htrpc.Spec

/-- The results that call `i` gets when it is polled. -/
def pollsOf (i : Nat) (evs : List SysEvent) : List IoResult :=
  evs.filterMap fun
    | .poll j r => if j = i then some r else none
    | _ => none

/-- Whether call `i` is dropped. -/
def isDrop (i : Nat) : SysEvent → Bool
  | .dropCall j => decide (j = i)
  | _ => false

/-- The results that call `i` gets until it is dropped. -/
def pollsUntilDrop (i : Nat) (evs : List SysEvent) : List IoResult :=
  pollsOf i (evs.takeWhile fun e => !isDrop i e)

/-- A call on a connection that was given to it, after a plain call would have come so far; it may
have been dropped. -/
def asPooled (c : Conn) (dropped : Bool) : CallEnd → PCallSt
  | .pending inner => if dropped then .dropped else .active c inner
  | .ready v body => .done v body
  | .failed k => .failed k
  | .panicked => .panicked

/-- Call `i` has no connection, and did nothing so far. -/
def Unconnected (s : Sys) (i : Nat) (p : Proc) (a : Addr) (v : Val) (b : Bytes) : Prop :=
  ∃ st, s.calls[i]? = some ⟨p, a, st⟩ ∧
    (st = .waiting (.new v b) ∨ (∃ f, st = .replied (.new v b) f) ∨ st = .dropped ∨ st = .failed .other)

/-- Call `i` gets its connection in this event. -/
def GetsConn (s : Sys) (r : IoResult) (i : Nat) (p : Proc) (a : Addr) (v : Val) (b : Bytes) (c : Conn) : Prop :=
  s.calls[i]? = some ⟨p, a, .replied (.new v b) (.ready c)⟩ ∨
  (∃ a', s.calls[i]? = some ⟨p, a, .replied (.new v b) (.connecting a')⟩) ∧ r = .connected ∧ c = s.next

end Htrpc.Spec
