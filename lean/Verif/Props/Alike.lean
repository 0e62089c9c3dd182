/-
C148: a pool treats all addresses, connections and times alike.
-/
import Verif.Spec.Alike
import Verif.Props.Pool

namespace Htrpc
open Spec

/-- The second pool is the first with other names. -/
structure Renamed (r : Renaming) (s s' : IdlePool) : Prop where
  idle : s'.idle = s.idle.map fun e => (r.addr e.1, r.conn e.2)
  suspended : ∀ a, s'.suspended (r.addr a) = (s.suspended a).map (· + r.ahead)
  duration : s'.duration = s.duration

theorem takeIdle_renamed (r : Renaming) (a : Addr) (l : List (Addr × Conn)) :
    takeIdle (r.addr a) (l.map fun e => (r.addr e.1, r.conn e.2)) =
      (takeIdle a l).map fun x => (r.conn x.1, x.2.map fun e => (r.addr e.1, r.conn e.2)) := by
  induction l with
  | nil => rfl
  | cons e l ih =>
    obtain ⟨b, c⟩ := e
    simp only [List.map_cons, takeIdle]
    by_cases hs : SameHost b a
    · rw [if_pos hs, if_pos ((r.host b a).2 hs)]
      by_cases hb : b = a
      · rw [if_pos hb, if_pos (by rw [hb])]; rfl
      · rw [if_neg hb, if_neg fun h => hb (r.apart _ _ h)]; rfl
    · rw [if_neg hs, if_neg fun h => hs ((r.host b a).1 h), ih]
      cases takeIdle a l <;> rfl

theorem renamed_step (r : Renaming) (size : Nat) {s s' : IdlePool} (h : Renamed r s s') (e : PoolEvent) :
    (s'.step size (r.event e)).1 = r.output (s.step size e).1 ∧
      Renamed r (s.step size e).2 (s'.step size (r.event e)).2 := by
  obtain ⟨h1, h2, h3⟩ := h
  cases e with
  | acquire a now =>
    have hiff : (∃ u, s'.suspended (r.addr a) = some u ∧ now + r.ahead < u) ↔
        ∃ u, s.suspended a = some u ∧ now < u := by
      rw [h2]
      constructor
      · rintro ⟨u, hu, hn⟩
        obtain ⟨v, hv, rfl⟩ := Option.map_eq_some_iff.1 hu
        exact ⟨v, hv, Nat.lt_of_add_lt_add_right hn⟩
      · rintro ⟨u, hu, hn⟩
        exact ⟨u + r.ahead, by rw [hu]; rfl, Nat.add_lt_add_right hn _⟩
    simp only [IdlePool.step, Renaming.event]
    by_cases hx : ∃ u, s.suspended a = some u ∧ now < u
    · rw [if_pos hx, if_pos (hiff.2 hx)]
      exact ⟨rfl, h1, h2, h3⟩
    · rw [if_neg hx, if_neg (mt hiff.1 hx), h1, takeIdle_renamed]
      have hsus : ∀ b, (if r.addr b = r.addr a then none else s'.suspended (r.addr b)) =
          (if b = a then none else s.suspended b).map (· + r.ahead) := by
        intro b
        by_cases hb : b = a
        · rw [if_pos hb, if_pos (by rw [hb])]; rfl
        · rw [if_neg hb, if_neg fun h => hb (r.apart _ _ h), h2]
      cases takeIdle a s.idle with
      | some x => exact ⟨rfl, rfl, hsus, h3⟩
      | none => exact ⟨rfl, rfl, hsus, h3⟩
  | release a c =>
    have hall : s'.idle ++ [(r.addr a, r.conn c)] =
        (s.idle ++ [(a, c)]).map fun e => (r.addr e.1, r.conn e.2) := by rw [h1, List.map_append]; rfl
    simp only [IdlePool.step, Renaming.event, hall, List.length_map]
    refine ⟨?_, ?_, h2, h3⟩
    · simp only [Renaming.output, ← List.map_take, List.map_map]
      rfl
    · exact List.map_drop.symm
  | blacklist a t =>
    refine ⟨rfl, h1, fun b => ?_, h3⟩
    simp only [IdlePool.step, Renaming.event, h3]
    by_cases hb : b = a
    · rw [if_pos hb, if_pos (by rw [hb]), Option.map_some]
      exact congrArg some (Nat.add_right_comm _ _ _)
    · rw [if_neg hb, if_neg fun h => hb (r.apart _ _ h), h2]
  | setSuspended d => exact ⟨rfl, h1, h2, rfl⟩

theorem renamed_run (r : Renaming) (size : Nat) {s s' : IdlePool} (h : Renamed r s s') (evs : List PoolEvent) :
    (s'.run size (evs.map r.event)).1 = (s.run size evs).1.map r.output := by
  induction evs generalizing s s' with
  | nil => rfl
  | cons e evs ih =>
    obtain ⟨h1, h2⟩ := renamed_step r size h e
    exact List.cons_eq_cons.2 ⟨h1, ih h2⟩

theorem releases_renamed (r : Renaming) (evs : List PoolEvent) : releases (evs.map r.event) = releases evs := by
  induction evs with
  | nil => rfl
  | cons e evs ih => rw [List.map_cons, releases_cons, ih, releases_cons e evs]; cases e <;> rfl

/-- With a clock that is ahead suspensions end later. -/
theorem endsInTime_renamed (r : Renaming) (d : Nat) (evs : List PoolEvent) (h : EndsInTime d (evs.map r.event)) :
    EndsInTime d evs := by
  induction evs generalizing d with
  | nil => trivial
  | cons e evs ih =>
    cases e with
    | acquire a t => exact ih d h
    | release a c => exact ih d h
    | setSuspended d' => exact ih d' h
    | blacklist a t =>
      refine ⟨Nat.lt_of_le_of_lt ?_ h.1, ih d h.2⟩
      exact Nat.add_le_add_right (Nat.le_add_right t r.ahead) d

theorem endsInTime_same (r : Renaming) (hr : r.ahead = 0) (d : Nat) (evs : List PoolEvent) (h : EndsInTime d evs) :
    EndsInTime d (evs.map r.event) := by
  induction evs generalizing d with
  | nil => trivial
  | cons e evs ih =>
    cases e with
    | acquire a t => exact ih d h
    | release a c => exact ih d h
    | setSuspended d' => exact ih d' h
    | blacklist a t => exact ⟨by simpa [hr] using h.1, ih d h.2⟩

/-- **C148.** A pool answers a history with other addresses, other connections and a clock that is ahead exactly as the
history itself, with the other names in the answers, as long as all suspensions end at a time that can be told. -/
theorem C148_alike (r : Renaming) (size : Nat) (evs : List PoolEvent) (outs : List PoolOutput) :
    (∃ p, (Pool.withSize size).run (evs.map r.event) = .ok (outs, p)) ↔
      EndsInTime 60000000000 (evs.map r.event) ∧
        ∃ outs' p, (Pool.withSize size).run evs = .ok (outs', p) ∧ outs = outs'.map r.output := by
  have hren : Renamed r .new .new := ⟨rfl, fun _ => rfl, rfl⟩
  constructor
  · rintro ⟨p, hp⟩
    have hno := (C54_exactly size _).1 ⟨outs, p, hp⟩
    obtain ⟨p1, h1⟩ := C54_pool_never_panics size _ hno
    obtain ⟨p2, h2⟩ := C54_pool_never_panics size evs
      ⟨releases_renamed r evs ▸ hno.1, endsInTime_renamed r _ _ hno.2⟩
    rw [hp] at h1
    cases h1
    exact ⟨hno.2, _, p2, h2, renamed_run r size hren evs⟩
  · rintro ⟨ht, outs', p, hp, rfl⟩
    have hno := (C54_exactly size _).1 ⟨outs', p, hp⟩
    obtain ⟨p1, h1⟩ := C54_pool_never_panics size evs hno
    obtain ⟨p2, h2⟩ := C54_pool_never_panics size (evs.map r.event) ⟨(releases_renamed r evs).symm ▸ hno.1, ht⟩
    rw [hp] at h1
    cases h1
    exact ⟨p2, by rw [h2, renamed_run r size hren evs]⟩

/-- **C148.** With the same clock always. -/
theorem C148_same_clock (r : Renaming) (hr : r.ahead = 0) (size : Nat) (evs : List PoolEvent) (outs : List PoolOutput)
    (p : Pool) (h : (Pool.withSize size).run evs = .ok (outs, p)) :
    ∃ p', (Pool.withSize size).run (evs.map r.event) = .ok (outs.map r.output, p') :=
  (C148_alike r size evs _).2
    ⟨endsInTime_same r hr _ _ ((C54_exactly size evs).1 ⟨outs, p, h⟩).2, outs, p, h, rfl⟩

namespace AlikeExamples

private def x : Addr := ⟨1, 80, 0⟩
private def y : Addr := ⟨2, 80, 0⟩

/-- IP address and port change places, so that the order of addresses changes; the clock is ahead by 1000. -/
private def swap : Renaming where
  addr a := ⟨a.port, a.ip, a.scope⟩
  conn c := c + 7
  ahead := 1000
  apart := by
    rintro ⟨a, b, c⟩ ⟨a', b', c'⟩ h
    simp only [Addr.mk.injEq] at h ⊢
    exact ⟨h.2.1, h.1, h.2.2⟩
  host a b := and_comm

private def evs : List PoolEvent :=
  [.setSuspended 10, .release x 0, .release y 1, .blacklist x 5, .acquire x 14, .acquire y 14, .acquire x 15]

example : ∃ p, (Pool.withSize 2).run evs =
    .ok ([.nothing, .closed [], .closed [], .nothing, .reply .failed, .reply (.ready 1), .reply (.ready 0)], p) :=
  C54_pool_never_panics 2 _ (by decide)

example : ∃ p, (Pool.withSize 2).run [.setSuspended 10, .release ⟨80, 1, 0⟩ 7, .release ⟨80, 2, 0⟩ 8,
    .blacklist ⟨80, 1, 0⟩ 1005, .acquire ⟨80, 1, 0⟩ 1014, .acquire ⟨80, 2, 0⟩ 1014, .acquire ⟨80, 1, 0⟩ 1015] =
    .ok ([.nothing, .closed [], .closed [], .nothing, .reply .failed, .reply (.ready 8), .reply (.ready 7)], p) :=
  (C148_alike swap 2 evs _).2 ⟨by decide, _, _, (C54_pool_never_panics 2 evs (by decide)).choose_spec, rfl⟩

end AlikeExamples

end Htrpc
