/-
What the pool does for one host, seen alone.
-/
import Verif.Spec.Pool

namespace Htrpc.Spec

/-- The event is about a host (IP address and port), or sets the duration of suspensions. -/
def concerns (a : Addr) : PoolEvent → Bool
  | .acquire b _ => decide (SameHost b a)
  | .release b _ => decide (SameHost b a)
  | .blacklist b _ => decide (SameHost b a)
  | .setSuspended _ => true

/-- What a history answers to the events about a host. -/
def answersFor (a : Addr) (evs : List PoolEvent) (outs : List PoolOutput) : List PoolOutput :=
  ((evs.zip outs).filter fun x => concerns a x.1).map Prod.snd

end Htrpc.Spec
