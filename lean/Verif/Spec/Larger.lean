/-
What it means that one pool is no worse than another.
-/
import Verif.Spec.Pool

namespace Htrpc.Spec

/-- An event without the number of the connection in it. -/
def anonymous : PoolEvent → PoolEvent
  | .release a _ => .release a 0
  | e => e

/-- The address for which a connection is asked or which a returned connection has. -/
def addrOf : PoolEvent → Option Addr
  | .acquire a _ => some a
  | .release a _ => some a
  | _ => none

/-- No two of the addresses in these events have the same IP address and port. -/
def ToldApart (evs : List PoolEvent) : Prop :=
  ∀ e ∈ evs, ∀ e' ∈ evs, ∀ a b, addrOf e = some a → addrOf e' = some b → SameHost a b → a = b

/-- The second answer to an event is as good as the first: the same acquisitions are rejected, an idle connection is
given where the other pool gives one, and not more connections are closed. -/
inductive NoWorse : PoolOutput → PoolOutput → Prop
  | rejected : NoWorse (.reply .failed) (.reply .failed)
  | reused (c c' : Conn) : NoWorse (.reply (.ready c)) (.reply (.ready c'))
  | spared (a : Addr) (c : Conn) : NoWorse (.reply (.connecting a)) (.reply (.ready c))
  | opened (a : Addr) : NoWorse (.reply (.connecting a)) (.reply (.connecting a))
  | closed (cs cs' : List Conn) (h : cs'.length ≤ cs.length) : NoWorse (.closed cs) (.closed cs')
  | nothing : NoWorse .nothing .nothing

/-- How many connections a pool tells its callers to open. -/
def toOpen (outs : List PoolOutput) : Nat :=
  (outs.filter fun | .reply (.connecting _) => true | _ => false).length

/-- How many connections a pool closes for want of room. -/
def crowdedOut (outs : List PoolOutput) : Nat :=
  (outs.map fun | .closed cs => cs.length | _ => 0).sum

end Htrpc.Spec
