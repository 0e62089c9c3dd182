/-
What is expected of calls through a pool, in terms of what happens to connections.
-/
import Verif.Model.PoolSystem

namespace Htrpc.Spec

/-- Where a connection is. -/
inductive Place where
  /-- Not opened yet. -/
  | unborn
  /-- Used by a call. -/
  | call (i : Nat)
  /-- Put back by a call, for others. -/
  | pool
  | closed
deriving DecidableEq, Repr

/-- What may happen to the connection `c`, depending on where it is; `none` if something happened
that must not. -/
def Place.after (c : Conn) : Option Place → Effect → Option Place
  | pl, .opened i _ d => if d = c then (if pl = some .unborn then some (.call i) else none) else pl
  | pl, .took i _ d => if d = c then (if pl = some .pool then some (.call i) else none) else pl
  | pl, .io i d => if d = c then (if pl = some (.call i) then pl else none) else pl
  | pl, .returned i _ d => if d = c then (if pl = some (.call i) then some .pool else none) else pl
  | pl, .closed d =>
    if d = c then
      match pl with
      | some (.call _) => some .closed
      | some .pool => some .closed
      | _ => none
    else pl
  | pl, .refused _ _ => pl
  | pl, .reported _ => pl

/-- Where the connection `c` is after all this happened; `none` if its life was not a proper one:
opened once, then used by one call at a time, put back by the call that uses it, taken by another
only after that, and closed at most once, after which nothing happens to it. -/
def life (c : Conn) (log : List Effect) : Option Place := log.foldl (Place.after c) (some .unborn)

/-- The effects that concern a connection. -/
def connOf : Effect → Option Conn
  | .opened _ _ c | .took _ _ c | .io _ c | .returned _ _ c | .closed c => some c
  | .refused _ _ | .reported _ => none

/-- The connections that call `i` got, opened for it or taken from the pool. -/
def got (i : Nat) (log : List Effect) : List Conn :=
  log.filterMap fun
    | .opened j _ c => if j = i then some c else none
    | .took j _ c => if j = i then some c else none
    | _ => none

/-- The connections that call `i` put back, with the address. -/
def returns (i : Nat) (log : List Effect) : List (Addr × Conn) :=
  log.filterMap fun
    | .returned j a c => if j = i then some (a, c) else none
    | _ => none

/-- The addresses to which a connection could not be opened for call `i`. -/
def refusals (i : Nat) (log : List Effect) : List Addr :=
  log.filterMap fun
    | .refused j a => if j = i then some a else none
    | _ => none

/-- The connection a call has. -/
def callConn (y : PCall) : Option Conn :=
  match y.st with
  | .replied _ (.ready c) => some c
  | .active c _ => some c
  | _ => none

/-- The idle connections. -/
def idleConns : Option Pool → List Conn
  | none => []
  | some p => p.connections.map Prod.snd

/-- The connections everywhere: idle in the pool, in commands, and in calls. -/
def places (s : Sys) : List Conn :=
  idleConns s.pool ++ queuedConns s.queue ++ s.calls.filterMap callConn

/-- The effect is one of call `i` on connection `c`. -/
def By (i : Nat) (c : Conn) : Effect → Prop
  | .opened j _ d | .took j _ d | .io j d | .returned j _ d => j = i ∧ d = c
  | .refused _ _ | .closed _ | .reported _ => False

/-- How often connecting to `a` failed. -/
def refusedTo (a : Addr) (log : List Effect) : Nat :=
  (log.filter fun | .refused _ b => decide (b = a) | _ => false).length

/-- How often the pool suspended `a`. -/
def reportsOf (a : Addr) (log : List Effect) : Nat :=
  (log.filter fun | .reported b => decide (b = a) | _ => false).length

/-- How many commands the pool handles in these events. -/
def handles (evs : List SysEvent) : Nat :=
  (evs.filter fun | .handle _ => true | _ => false).length

end Htrpc.Spec
