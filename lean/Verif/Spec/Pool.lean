/-
What is expected of the connection pool: a queue of idle connections, the one released first in
front, and a table of suspended addresses.
-/
import Verif.Model.Pool

namespace Htrpc.Spec

structure IdlePool where
  /-- The idle connections, the one released first in front. -/
  idle : List (Addr × Conn)
  /-- Until when an address is suspended. -/
  suspended : Addr → Option Time
  duration : Nat

/-- The same IP address and port. -/
def SameHost (a b : Addr) : Prop := a.ip = b.ip ∧ a.port = b.port

instance (a b : Addr) : Decidable (SameHost a b) := by unfold SameHost; infer_instance

/-- The first idle connection to the same host is taken if its address is `a`; so if addresses are
determined by host (IP and port), this is the first idle connection to `a`. -/
def takeIdle (a : Addr) : List (Addr × Conn) → Option (Conn × List (Addr × Conn))
  | [] => none
  | (b, c) :: l =>
    if SameHost b a then if b = a then some (c, l) else none
    else (takeIdle a l).map fun r => (r.1, (b, c) :: r.2)

/-- One event: the outcome and the new state. -/
def IdlePool.step (size : Nat) (s : IdlePool) : PoolEvent → PoolOutput × IdlePool
  | .acquire a now =>
    if ∃ u, s.suspended a = some u ∧ now < u then (.reply .failed, s)
    else
      let s := { s with suspended := fun b => if b = a then none else s.suspended b }
      match takeIdle a s.idle with
      | some (c, idle) => (.reply (.ready c), { s with idle })
      | none => (.reply (.connecting a), s)
  | .release a c =>
    let all := s.idle ++ [(a, c)]
    let surplus := all.length - size
    (.closed ((all.take surplus).map Prod.snd), { s with idle := all.drop surplus })
  | .blacklist a now =>
    (.nothing, { s with
      suspended := fun b => if b = a then some (now + s.duration) else s.suspended b })
  | .setSuspended d => (.nothing, { s with duration := d })

/-- A history of events. -/
def IdlePool.run (size : Nat) : List PoolEvent → IdlePool → List PoolOutput × IdlePool
  | [], s => ([], s)
  | e :: es, s =>
    let (o, s) := s.step size e
    let (os, s) := run size es s
    (o :: os, s)

/-- At first nothing is idle and nothing suspended; the duration is 60 s. -/
def IdlePool.new : IdlePool := ⟨[], fun _ => none, 60000000000⟩

/-- The address is not suspended at this time. -/
def Available (s : IdlePool) (a : Addr) (now : Time) : Prop :=
  ∀ u, s.suspended a = some u → u ≤ now

/-- The number of releases in a history. -/
def releases (evs : List PoolEvent) : Nat :=
  (evs.filter fun | .release _ _ => true | _ => false).length

/-- Every suspension ends at a time that a `SystemTime` can hold, so before the second 2^63 since 1970. -/
def EndsInTime : (duration : Nat) → List PoolEvent → Prop
  | _, [] => True
  | d, .blacklist _ t :: evs => t + d < 2 ^ 63 * 1000000000 ∧ EndsInTime d evs
  | _, .setSuspended d :: evs => EndsInTime d evs
  | d, _ :: evs => EndsInTime d evs

/-- A history in which nothing overflows: neither the number of releases nor the end of a suspension. -/
def NoOverflow (evs : List PoolEvent) : Prop := releases evs < 2 ^ 64 ∧ EndsInTime 60000000000 evs

instance endsInTimeDec : ∀ (d : Nat) (evs : List PoolEvent), Decidable (EndsInTime d evs)
  | _, [] => isTrue trivial
  | d, .blacklist _ t :: evs =>
    have := endsInTimeDec d evs
    inferInstanceAs (Decidable (t + d < 2 ^ 63 * 1000000000 ∧ EndsInTime d evs))
  | _, .setSuspended d :: evs => endsInTimeDec d evs
  | d, .acquire _ _ :: evs => endsInTimeDec d evs
  | d, .release _ _ :: evs => endsInTimeDec d evs

instance (evs : List PoolEvent) : Decidable (NoOverflow evs) := by unfold NoOverflow; infer_instance

/-- The clock readings of a history. -/
def clock (evs : List PoolEvent) : List Time :=
  evs.filterMap fun | .acquire _ t => some t | .blacklist _ t => some t | _ => none

/-- The end of the suspension caused by the last failure report for `a` in a history: the time of
the report and the duration set at that time. -/
def suspendedUntil (a : Addr) : List PoolEvent → (duration : Nat) → Option Time → Option Time
  | [], _, u => u
  | .blacklist b t :: evs, d, u =>
    suspendedUntil a evs d (if b = a then some (t + d) else u)
  | .setSuspended d :: evs, _, u => suspendedUntil a evs d u
  | _ :: evs, d, u => suspendedUntil a evs d u

/-- The duration of suspensions after a history. -/
def durationAfter (d : Nat) (evs : List PoolEvent) : Nat :=
  ((evs.filterMap fun | .setSuspended d => some d | _ => none).getLast?).getD d

/-- After a history `a` is suspended until `u`: this is the end of the suspension from the last
failure report for `a`, and no acquisition for `a` at or after `u` came behind this report. -/
def SuspendedBy (a : Addr) (u : Time) (d : Nat) (evs : List PoolEvent) : Prop :=
  ∃ before t after, evs = before ++ .blacklist a t :: after ∧ u = t + durationAfter d before ∧
    (∀ t', .blacklist a t' ∉ after) ∧ ∀ now, .acquire a now ∈ after → now < u

end Htrpc.Spec
