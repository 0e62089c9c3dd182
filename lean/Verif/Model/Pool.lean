/-
src/pool.rs: the connection pool itself.
-/
import Verif.Model.Basic

namespace Htrpc

/-- `std::net::SocketAddr`.  `ip` stands for the `IpAddr` (numbered in its order, IPv4 before IPv6),
`scope` for flow label and scope id of IPv6 addresses; it is 0 for IPv4. -/
structure Addr where
  ip : Nat
  port : Nat
  scope : Nat
deriving DecidableEq, Repr

/-- A TCP connection, by number. -/
abbrev Conn := Nat

/-- A point in time (`SystemTime`), in nanoseconds since 1970. -/
abbrev Time := Nat

/-- The first point in time that a `SystemTime` cannot hold: it counts seconds with 64 bits and a sign
(64-bit Unix; contract of the standard library). -/
def timeEnd : Time := 2 ^ 63 * 1000000000

/-- src/pool.rs:22-31 `ConnectionId`. -/
structure ConnId where
  addr : Addr
  seq : Nat
deriving DecidableEq, Repr

/-- src/pool.rs:37-42 `cmp`: less. -/
def ConnId.lt (a b : ConnId) : Bool :=
  decide (a.addr.ip < b.addr.ip ∨ (a.addr.ip = b.addr.ip ∧
    (a.addr.port < b.addr.port ∨ (a.addr.port = b.addr.port ∧ a.seq < b.seq))))

/-- `<` on `u64`. -/
def natLt (a b : Nat) : Bool := decide (a < b)

/-- `std::collections::BTreeMap` as an ordered list (contract of the standard library). -/
abbrev BTreeMap (κ ν : Type) := List (κ × ν)

namespace BTreeMap
variable {κ ν : Type} (lt : κ → κ → Bool)

/-- `BTreeMap::insert`; an equal key is kept and its value replaced. -/
def insert (k : κ) (v : ν) : BTreeMap κ ν → BTreeMap κ ν
  | [] => [(k, v)]
  | (k', v') :: m =>
    if lt k k' then (k, v) :: (k', v') :: m
    else if lt k' k then (k', v') :: insert k v m
    else (k', v) :: m

/-- `BTreeMap::remove`. -/
def remove (k : κ) : BTreeMap κ ν → Option ν × BTreeMap κ ν
  | [] => (none, [])
  | (k', v') :: m =>
    if lt k' k then
      let (r, m) := remove k m
      (r, (k', v') :: m)
    else if lt k k' then (none, (k', v') :: m)
    else (some v', m)

/-- The first key of `BTreeMap::range((Bound::Included(k), Bound::Unbounded))`. -/
def firstFrom (k : κ) (m : BTreeMap κ ν) : Option κ :=
  (m.find? fun e => !lt e.1 k).map Prod.fst

end BTreeMap

/-- src/pool.rs:59-62 `PooledConnection`: what a reply holds.  `connecting` has `on_error` set
(lines 195-203), `ready` and `failed` do not (lines 64-70, 189-193). -/
inductive Pooled where
  /-- `Phase::A(finished(connection))`. -/
  | ready (c : Conn)
  /-- `Phase::B`: connecting to the address. -/
  | connecting (a : Addr)
  /-- `Phase::A(failed(error))`, of kind `Other`. -/
  | failed
deriving DecidableEq, Repr

/-- src/pool.rs:98-108 `RpcClientPool`, without the command queue (see `PoolSystem`) and the
connect timeout, which only decides when connecting fails (see `PoolTimed`).  The blacklist is a hash map, here a
list without repeated addresses. -/
structure Pool where
  size : Nat
  connections : BTreeMap ConnId Conn
  lru : BTreeMap Nat Addr
  seq : Nat
  blacklist : List (Addr × Time)
  suspended : Nat
deriving Repr

namespace Pool

/-- src/pool.rs:116-129 `with_pool_size`: 60 s. -/
def withSize (size : Nat) : Pool :=
  { size, connections := [], lru := [], seq := 0, blacklist := [], suspended := 60000000000 }

/-- src/pool.rs:111-113 `new`. -/
def new : Pool := withSize 1024

/-- src/pool.rs:139-141 `set_suspended_duration`. -/
def setSuspended (d : Nat) (p : Pool) : Pool := { p with suspended := d }

/-- src/pool.rs:178-205 `acquire_connection`.  The `expect` of line 188 panics. -/
def acquire (a : Addr) (p : Pool) : Res (Pooled × Pool) :=
  let first := (BTreeMap.firstFrom ConnId.lt ⟨a, 0⟩ p.connections).bind fun id =>
    if id.addr = a then some id else none
  match first with
  | some id =>
    let lru := (BTreeMap.remove natLt id.seq p.lru).2
    match BTreeMap.remove ConnId.lt id p.connections with
    | (some c, connections) => .ok (.ready c, { p with lru, connections })
    | (none, _) => .panic
  | none => .ok (.connecting a, p)

/-- src/pool.rs:214-224 `drop_exceeded_lru_connections`: the connections closed and the new maps.
The `expect` of line 220 panics. -/
def dropExceeded (size : Nat) (connections : BTreeMap ConnId Conn) (lru : BTreeMap Nat Addr) :
    Res (List Conn × BTreeMap ConnId Conn × BTreeMap Nat Addr) :=
  if connections.length > size then
    match lru with
    | [] => .panic
    | (seq, addr) :: rest => do
      let id : ConnId := ⟨addr, seq⟩
      let lru := (BTreeMap.remove natLt id.seq ((seq, addr) :: rest)).2
      let (c, connections) := BTreeMap.remove ConnId.lt id connections
      let (cs, connections, lru) ← dropExceeded size connections lru
      .ok (c.toList ++ cs, connections, lru)
  else .ok ([], connections, lru)
termination_by lru.length
decreasing_by simp [BTreeMap.remove, natLt]

/-- src/pool.rs:206-213 `release_connection`: the connections closed and the new state.  The
addition of line 208 panics on overflow. -/
def release (a : Addr) (c : Conn) (p : Pool) : Res (List Conn × Pool) := do
  let id : ConnId := ⟨a, p.seq⟩
  if p.seq + 1 < 2 ^ 64 then
    let lru := BTreeMap.insert natLt id.seq id.addr p.lru
    let connections := BTreeMap.insert ConnId.lt id c p.connections
    let (cs, connections, lru) ← dropExceeded p.size connections lru
    .ok (cs, { p with seq := p.seq + 1, connections, lru })
  else .panic

/-- `HashMap::remove`. -/
def unlist (a : Addr) (bl : List (Addr × Time)) : List (Addr × Time) :=
  bl.filter fun e => decide (e.1 ≠ a)

/-- `HashMap::insert`. -/
def enlist (a : Addr) (t : Time) (bl : List (Addr × Time)) : List (Addr × Time) :=
  (a, t) :: unlist a bl

/-- src/pool.rs:150-168: the command `AcquireConnection`, at the time read in line 152. -/
def handleAcquire (a : Addr) (now : Time) (p : Pool) : Res (Pooled × Pool) :=
  match p.blacklist.lookup a with
  | some «until» =>
    if «until» > now then
      .ok (.failed, { p with blacklist := enlist a «until» (unlist a p.blacklist) })
    else acquire a { p with blacklist := unlist a p.blacklist }
  | none => acquire a p

/-- src/pool.rs:172-175: the command `AddToBlacklist`, at the time read in line 173.  The addition of
line 173 panics on overflow. -/
def handleBlacklist (a : Addr) (now : Time) (p : Pool) : Res Pool :=
  if now + p.suspended < timeEnd then
    .ok { p with blacklist := enlist a (now + p.suspended) p.blacklist }
  else .panic

end Pool

/-- src/pool.rs:44-57 `Command`, with the time at which it is handled; and the public setter. -/
inductive PoolEvent where
  | acquire (a : Addr) (now : Time)
  | release (a : Addr) (c : Conn)
  | blacklist (a : Addr) (now : Time)
  | setSuspended (d : Nat)
deriving DecidableEq, Repr

/-- What handling a command does outside of the pool. -/
inductive PoolOutput where
  /-- The reply to an acquisition. -/
  | reply (r : Pooled)
  /-- Connections closed after a release. -/
  | closed (cs : List Conn)
  | nothing
deriving DecidableEq, Repr

/-- src/pool.rs:148-177 `handle_command`. -/
def Pool.step (p : Pool) : PoolEvent → Res (PoolOutput × Pool)
  | .acquire a now => do
    let (r, p) ← p.handleAcquire a now
    .ok (.reply r, p)
  | .release a c => do
    let (cs, p) ← p.release a c
    .ok (.closed cs, p)
  | .blacklist a now => do
    let p ← p.handleBlacklist a now
    .ok (.nothing, p)
  | .setSuspended d => .ok (.nothing, p.setSuspended d)

/-- src/pool.rs:226-235: commands are handled one after the other. -/
def Pool.run : List PoolEvent → Pool → Res (List PoolOutput × Pool)
  | [], p => .ok ([], p)
  | e :: es, p => do
    let (o, p) ← p.step e
    let (os, p) ← run es p
    .ok (o :: os, p)

end Htrpc
