/-
src/pool.rs: the pool together with its command queue and the calls that use it.

The calls, the pool and the network run concurrently.  An execution is a list of events in an
arbitrary order; each event is one atomic step of one participant.
-/
import Verif.Model.Pool
import Verif.Model.Client

namespace Htrpc

/-- src/pool.rs:44-57 `Command`; the reply channel is named by the number of its call. -/
inductive Cmd where
  | acquire (a : Addr) (i : Nat)
  | release (a : Addr) (c : Conn)
  | blacklist (a : Addr)
deriving DecidableEq, Repr

/-- The pool event of a command that is handled at time `now` (src/pool.rs:148-177). -/
def Cmd.event (now : Time) : Cmd → PoolEvent
  | .acquire a _ => .acquire a now
  | .release a c => .release a c
  | .blacklist a => .blacklist a now

/-- How far a call is; src/pool.rs:290-293 and 311-315. -/
inductive PCallSt where
  /-- `CallInner` in phase A, `AcquireConnection` in phase A: no reply so far. -/
  | waiting (inner : CallInner)
  /-- `CallInner` in phase A; the reply is in the channel or `AcquireConnection` is in phase B. -/
  | replied (inner : CallInner) (f : Pooled)
  /-- `CallInner` in the phases B, C or D, on this connection. -/
  | active (c : Conn) (inner : CallInner)
  /-- Finished with a response. -/
  | done (v : Val) (body : Bytes)
  /-- Finished with an error. -/
  | failed (k : Kind)
  | panicked
  /-- Dropped before it finished. -/
  | dropped

/-- src/pool.rs:311-315 `Call`, with its procedure. -/
structure PCall where
  proc : Proc
  addr : Addr
  st : PCallSt

/-- The pool (`none` after it was dropped), its command queue, the calls in the order in which they
were made, and the number of connections opened so far, which serves as the name of the next. -/
structure Sys where
  pool : Option Pool
  queue : List Cmd
  calls : List PCall
  next : Nat

/-- What happens to connections, and reports of failures. -/
inductive Effect where
  /-- A new connection to `a` was opened for call `i`. -/
  | opened (i : Nat) (a : Addr) (c : Conn)
  /-- Connecting to `a` for call `i` failed or timed out. -/
  | refused (i : Nat) (a : Addr)
  /-- Call `i`, made for address `a`, was given an idle connection. -/
  | took (i : Nat) (a : Addr) (c : Conn)
  /-- Call `i` reads from or writes to the connection. -/
  | io (i : Nat) (c : Conn)
  /-- Call `i` puts the connection back, for address `a` (src/pool.rs:324). -/
  | returned (i : Nat) (a : Addr) (c : Conn)
  | closed (c : Conn)
  /-- The pool suspends `a` (src/pool.rs:172-175). -/
  | reported (a : Addr)
deriving DecidableEq, Repr

/-- What can happen next. -/
inductive SysEvent where
  /-- src/pool.rs:272-287 `call`: a new call. -/
  | call (p : Proc) (a : Addr) (v : Val) (body : Bytes)
  /-- src/pool.rs:229-234: the pool takes the next command and handles it. -/
  | handle (now : Time)
  /-- src/pool.rs:139-141 `set_suspended_duration`. -/
  | setSuspended (d : Nat)
  /-- The pool is dropped. -/
  | dropPool
  /-- src/pool.rs:322-329 `Call::poll`: one round of call `i`; `r` is what the network does. -/
  | poll (i : Nat) (r : IoResult)
  /-- Call `i` is dropped. -/
  | dropCall (i : Nat)

/-- The connections inside commands. -/
def queuedConns : List Cmd → List Conn
  | [] => []
  | .release _ c :: q => c :: queuedConns q
  | _ :: q => queuedConns q

namespace Sys

/-- src/pool.rs:116-129. -/
def new (size : Nat) : Sys := ⟨some (.withSize size), [], [], 0⟩

/-- `command_tx.send`, whose result is ignored (src/pool.rs:79, 253, 259). -/
def send (cmd : Cmd) (s : Sys) : Sys :=
  match s.pool with
  | none => s
  | some _ => { s with queue := s.queue ++ [cmd] }

/-- A call changes its state. -/
def setCall (i : Nat) (y : PCall) (s : Sys) : Sys := { s with calls := s.calls.set i y }

/-- The pool and all connections in it and in its queue are dropped. -/
def dropPool (s : Sys) : List Effect × Sys :=
  match s.pool with
  | none => ([], s)
  | some p =>
    ((p.connections.map Prod.snd ++ queuedConns s.queue).map .closed,
      { s with pool := none, queue := [] })

/-- src/pool.rs:167 `reply.send(future)`: if the call was dropped, so is the future. -/
def reply (i : Nat) (a : Addr) (f : Pooled) (s : Sys) : List Effect × Sys :=
  match s.calls[i]? with
  | some ⟨p, b, .waiting inner⟩ =>
    (match f with
      | .ready c => [.took i a c]
      | _ => [], s.setCall i ⟨p, b, .replied inner f⟩)
  | _ =>
    (match f with
      | .ready c => [.closed c]
      | _ => [], s)

/-- src/pool.rs:230-232: one command.  If handling it panics the pool is dropped. -/
def handle (now : Time) (s : Sys) : List Effect × Sys :=
  match s.pool, s.queue with
  | some p, cmd :: q =>
    match p.step (cmd.event now) with
    | .ok (out, p') =>
      let s' : Sys := { s with pool := some p', queue := q }
      match cmd, out with
      | .acquire a i, .reply f => s'.reply i a f
      | .release _ _, .closed cs => (cs.map .closed, s')
      | .blacklist a, _ => ([.reported a], s')
      | _, _ => ([], s')
    | _ => s.dropPool
  | _, _ => ([], s)

variable [FloatText]

/-- src/pool.rs:322-329: what becomes of call `i` with the connection `c` after a round of
`CallInner`.  A call that fails drops its connection; a connection that is put back after the pool
was dropped is dropped together with the command. -/
def settle (i : Nat) (y : PCall) (c : Conn) (inner : CallInner) (s : Sys) :
    CallOutcome → List Effect × Sys
  | .pending => ([], s.setCall i { y with st := .active c inner })
  | .next inner => ([], s.setCall i { y with st := .active c inner })
  | .ready v body =>
    (.returned i y.addr c :: (match s.pool with | none => [.closed c] | some _ => []),
      (s.setCall i { y with st := .done v body }).send (.release y.addr c))
  | .failed k => ([.closed c], s.setCall i { y with st := .failed k })
  | .panicked => ([.closed c], s.setCall i { y with st := .panicked })

/-- src/pool.rs:322-329 `Call::poll`, one round.
* Lines 298-305 without a reply: pending; if the pool was dropped with the sender of the reply, the
  receiver fails and the call with it, with kind `Other` (src/error.rs:16-20).
* Lines 72-89: with a reply, the connection, the failure, or connecting.  A failure to connect (or
  a timeout) is reported once, as `on_error` is taken, and is of kind `Other`.
* With a connection: src/client.rs. -/
def poll (i : Nat) (r : IoResult) (s : Sys) : List Effect × Sys :=
  match s.calls[i]? with
  | none => ([], s)
  | some y =>
    match y.st with
    | .waiting _ =>
      match s.pool with
      | some _ => ([], s)
      | none => ([], s.setCall i { y with st := .failed .other })
    | .replied inner (.ready c) =>
      s.settle i y c inner (callStep y.proc inner .connected)
    | .replied _ .failed => ([], s.setCall i { y with st := .failed .other })
    | .replied inner (.connecting a) =>
      match r with
      | .connected =>
        let s' : Sys := { s with next := s.next + 1 }
        let (es, s') := s'.settle i y s.next inner (callStep y.proc inner .connected)
        (.opened i a s.next :: es, s')
      | .failed => ([.refused i a], (s.setCall i { y with st := .failed .other }).send (.blacklist a))
      | _ => ([], s)
    | .active c inner =>
      let (es, s') := s.settle i y c inner (callStep y.proc inner r)
      (.io i c :: es, s')
    | _ => ([], s)

/-- A call is dropped; a connection it holds is closed.  A finished call holds none. -/
def dropCall (i : Nat) (s : Sys) : List Effect × Sys :=
  match s.calls[i]? with
  | none => ([], s)
  | some y =>
    match y.st with
    | .waiting _ => ([], s.setCall i { y with st := .dropped })
    | .replied _ (.ready c) => ([.closed c], s.setCall i { y with st := .dropped })
    | .replied _ _ => ([], s.setCall i { y with st := .dropped })
    | .active c _ => ([.closed c], s.setCall i { y with st := .dropped })
    | _ => ([], s)

/-- src/pool.rs:250-256 and 272-287 `call`. -/
def call (p : Proc) (a : Addr) (v : Val) (body : Bytes) (s : Sys) : Sys :=
  let s' : Sys := { s with calls := s.calls ++ [⟨p, a, .waiting (.new v body)⟩] }
  s'.send (.acquire a s.calls.length)

/-- One event. -/
def step (s : Sys) : SysEvent → List Effect × Sys
  | .call p a v body => ([], s.call p a v body)
  | .handle now => s.handle now
  | .setSuspended d => ([], { s with pool := s.pool.map (·.setSuspended d) })
  | .dropPool => s.dropPool
  | .poll i r => s.poll i r
  | .dropCall i => s.dropCall i

/-- An execution: everything that happens to connections, and the state after it. -/
def run : List SysEvent → Sys → List Effect × Sys
  | [], s => ([], s)
  | e :: es, s =>
    let (l, s) := s.step e
    let (l', s) := run es s
    (l ++ l', s)

end Sys

end Htrpc
