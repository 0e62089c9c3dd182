/-
src/pool.rs: the pool and its calls with the time that connecting may take.

`PoolSystem` lets every attempt to connect fail at any time.  Here an attempt has a timer, and network
results that take too long become failures.
-/
import Verif.Model.PoolSystem

namespace Htrpc

/-- src/pool.rs:98-108 with `connect_timeout`; times are nanoseconds of the monotonic clock.
`deadlines` has the time at which the timer of an attempt expires, by the number of its call. -/
structure TimedSys where
  sys : Sys
  connectTimeout : Nat
  deadlines : List (Nat × Time)

/-- An event of the calls, the pool or the network, with the time at which it happens; or the public
setter. -/
inductive TimedEvent where
  | event (t : Time) (e : SysEvent)
  /-- src/pool.rs:144-146 `set_connect_timeout`. -/
  | setConnectTimeout (d : Nat)

namespace TimedSys

/-- src/pool.rs:116-129: 1 s. -/
def new (size : Nat) : TimedSys := ⟨.new size, 1000000000, []⟩

/-- src/pool.rs:194-203 and 167: the call for which the next command begins to connect, if it is still
there to get the reply. -/
def beginning (now : Time) (s : Sys) : Option Nat :=
  match s.pool, s.queue with
  | some p, .acquire a i :: _ =>
    match p.step (.acquire a now), s.calls[i]? with
    | .ok (.reply (.connecting _), _), some ⟨_, _, .waiting _⟩ => some i
    | _, _ => none
  | _, _ => none

/-- src/pool.rs:196-198 `timeout_after`, with src/error.rs:75-83: polling first looks whether the
connection is there or has failed, then at the timer (contract of `fibers`: it starts when it is made
and has expired from its deadline on). -/
def timed (t : Time) (i : Nat) (s : TimedSys) (r : IoResult) : IoResult :=
  match s.sys.calls[i]? with
  | some ⟨_, _, .replied _ (.connecting _)⟩ =>
    match r with
    | .connected => .connected
    | .failed => .failed
    | r =>
      match s.deadlines.lookup i with
      | some d => if d ≤ t then .failed else r
      | none => r
  | _ => r

/-- What happens to the timers when a command is handled: line 198. -/
def timers (t now : Time) (s : TimedSys) : List (Nat × Time) :=
  match beginning now s.sys with
  | some i => (i, t + s.connectTimeout) :: s.deadlines
  | none => s.deadlines

variable [FloatText]

/-- One event. -/
def step (s : TimedSys) : TimedEvent → List Effect × TimedSys
  | .setConnectTimeout d => ([], { s with connectTimeout := d })
  | .event t (.handle now) =>
    let (l, sys) := s.sys.step (.handle now)
    (l, { s with sys, deadlines := s.timers t now })
  | .event t (.poll i r) =>
    let (l, sys) := s.sys.step (.poll i (s.timed t i r))
    (l, { s with sys })
  | .event _ e =>
    let (l, sys) := s.sys.step e
    (l, { s with sys })

/-- An execution. -/
def run : List TimedEvent → TimedSys → List Effect × TimedSys
  | [], s => ([], s)
  | e :: es, s =>
    let (l, s) := s.step e
    let (l', s) := run es s
    (l ++ l', s)

end TimedSys

end Htrpc
