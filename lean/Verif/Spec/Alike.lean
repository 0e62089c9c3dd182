/-
Histories of a pool with other addresses, other connections and another clock.
-/
import Verif.Spec.Pool
import Verif.Model.PoolSystem

namespace Htrpc.Spec

/-- Other names: an address for each address, so that hosts are told apart as before, any connection for each connection,
and a clock that is ahead. -/
structure Renaming where
  addr : Addr → Addr
  conn : Conn → Conn
  ahead : Nat
  /-- Different addresses stay different. -/
  apart : ∀ a b, addr a = addr b → a = b
  /-- The same IP address and port is said of the same addresses as before. -/
  host : ∀ a b, SameHost (addr a) (addr b) ↔ SameHost a b

/-- A command with other names. -/
def Renaming.event (r : Renaming) : PoolEvent → PoolEvent
  | .acquire a t => .acquire (r.addr a) (t + r.ahead)
  | .release a c => .release (r.addr a) (r.conn c)
  | .blacklist a t => .blacklist (r.addr a) (t + r.ahead)
  | .setSuspended d => .setSuspended d

/-- An answer with other names. -/
def Renaming.output (r : Renaming) : PoolOutput → PoolOutput
  | .reply (.ready c) => .reply (.ready (r.conn c))
  | .reply (.connecting a) => .reply (.connecting (r.addr a))
  | .reply .failed => .reply .failed
  | .closed cs => .closed (cs.map r.conn)
  | .nothing => .nothing

/-- The same events with a clock that is ahead. -/
def clockAhead (k : Nat) : SysEvent → SysEvent
  | .handle now => .handle (now + k)
  | e => e

/-- All suspensions that could begin during these events end at a time that can be told, also if the clock is ahead. -/
def CanBeTold (k : Nat) (evs : List SysEvent) : Prop :=
  ∀ now, .handle now ∈ evs → now + k + 60000000000 < 2 ^ 63 * 1000000000 ∧
    ∀ d, .setSuspended d ∈ evs → now + k + d < 2 ^ 63 * 1000000000

end Htrpc.Spec
