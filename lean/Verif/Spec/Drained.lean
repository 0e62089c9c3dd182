/-
A pool in which nothing is left of what happened before.
-/
import Verif.Spec.Larger

namespace Htrpc.Spec

/-- How many idle connections a pool gives to its callers. -/
def givenOut (outs : List PoolOutput) : Nat :=
  (outs.filter fun | .reply (.ready _) => true | _ => false).length

/-- As many connections have left the pool, given to callers or closed for want of room, as have been returned to it. -/
def Drained (evs : List PoolEvent) (outs : List PoolOutput) : Prop :=
  givenOut outs + crowdedOut outs = releases evs

/-- The suspensions from the first history are over whenever a connection to their address is asked for in the second. -/
def SuspensionsOver (evs evs' : List PoolEvent) : Prop :=
  ∀ a u, SuspendedBy a u 60000000000 evs → ∀ now, .acquire a now ∈ evs' → u ≤ now

end Htrpc.Spec
