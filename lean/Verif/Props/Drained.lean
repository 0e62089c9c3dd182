/-
C147: a pool in which nothing is left is as good as new.
-/
import Verif.Spec.Drained
import Verif.Props.Pool

namespace Htrpc
open Spec

/-- The idle connections after a history, by number. -/
theorem idle_balance (size : Nat) (evs : List PoolEvent) (s : IdlePool) :
    (s.run size evs).2.idle.length + (givenOut (s.run size evs).1 + crowdedOut (s.run size evs).1) =
      s.idle.length + releases evs := by
  induction evs generalizing s with
  | nil => rfl
  | cons e evs ih =>
    have hrun : s.run size (e :: evs) = ((s.step size e).1 :: ((s.step size e).2.run size evs).1,
      ((s.step size e).2.run size evs).2) := rfl
    have h := ih (s.step size e).2
    have hg : ∀ (o : PoolOutput) os, givenOut (o :: os) = givenOut [o] + givenOut os := by
      intro o os
      rw [givenOut, givenOut, givenOut, ← List.length_append, ← List.filter_append]; rfl
    have hc : ∀ (o : PoolOutput) os, crowdedOut (o :: os) = crowdedOut [o] + crowdedOut os := by
      intro o os
      simp [crowdedOut]
    rw [hrun, hg, hc, releases_cons]
    have hs : (s.step size e).2.idle.length + (givenOut [(s.step size e).1] + crowdedOut [(s.step size e).1]) =
        s.idle.length + releases [e] := by
      cases e with
      | acquire a now =>
        simp only [IdlePool.step]
        split
        · rfl
        · split
          · rename_i c idle ht
            have := takeIdle_length ht
            simp [givenOut, crowdedOut, releases, this]
          · rfl
      | release a c =>
        simp only [IdlePool.step, givenOut, crowdedOut, releases, List.length_drop, List.map_cons, List.map_nil,
          List.length_map, List.length_take, List.length_append, List.length_cons, List.length_nil, List.sum_cons,
          List.sum_nil, List.filter_cons, List.filter_nil]
        simp
      | blacklist a t => rfl
      | setSuspended d => rfl
    simp only
    omega

theorem idle_run_append (size : Nat) (evs evs' : List PoolEvent) (s : IdlePool) :
    s.run size (evs ++ evs') = ((s.run size evs).1 ++ ((s.run size evs).2.run size evs').1,
      ((s.run size evs).2.run size evs').2) := by
  induction evs generalizing s with
  | nil => rfl
  | cons x evs ih =>
    rw [List.cons_append, IdlePool.run]
    simp only
    rw [ih]
    rfl

theorem idle_outs_length (size : Nat) (evs : List PoolEvent) (s : IdlePool) :
    (s.run size evs).1.length = evs.length := by
  induction evs generalizing s with
  | nil => rfl
  | cons e evs ih => exact congrArg (· + 1) (ih _)

theorem idle_duration (size : Nat) (evs : List PoolEvent) (s : IdlePool) :
    (s.run size evs).2.duration = durationAfter s.duration evs := by
  induction evs generalizing s with
  | nil => rfl
  | cons e evs ih =>
    rw [durationAfter_cons]
    refine (ih (s.step size e).2).trans ?_
    rw [duration_step]

theorem endsInTime_append (d : Nat) (evs evs' : List PoolEvent) (h : EndsInTime d (evs ++ evs')) :
    EndsInTime (durationAfter d evs) evs' := by
  induction evs generalizing d with
  | nil => exact h
  | cons e evs ih =>
    rw [durationAfter_cons]
    exact ih _ ((endsInTime_cons d e _).1 h).2

/-- The second pool is the first without suspensions that are over whenever it matters. -/
structure Forgets (evs : List PoolEvent) (s s' : IdlePool) : Prop where
  idle : s'.idle = s.idle
  duration : s'.duration = s.duration
  suspended : ∀ a, s'.suspended a = s.suspended a ∨
    s'.suspended a = none ∧ ∀ u, s.suspended a = some u → ∀ now, .acquire a now ∈ evs → u ≤ now

theorem forgets_step (size : Nat) {e : PoolEvent} {evs : List PoolEvent} {s s' : IdlePool}
    (h : Forgets (e :: evs) s s') :
    (s'.step size e).1 = (s.step size e).1 ∧ Forgets evs (s.step size e).2 (s'.step size e).2 := by
  obtain ⟨h1, h2, h3⟩ := h
  have h3' : ∀ a, s'.suspended a = s.suspended a ∨
      s'.suspended a = none ∧ ∀ u, s.suspended a = some u → ∀ now, .acquire a now ∈ evs → u ≤ now :=
    fun a => (h3 a).imp_right fun h => ⟨h.1, fun u hu now hm => h.2 u hu now (.tail _ hm)⟩
  cases e with
  | acquire a now =>
    have hiff : (∃ u, s'.suspended a = some u ∧ now < u) ↔ ∃ u, s.suspended a = some u ∧ now < u := by
      rcases h3 a with h | ⟨h, h'⟩
      · rw [h]
      · rw [h]
        refine ⟨fun ⟨u, hu, _⟩ => (nomatch hu), fun ⟨u, hu, hn⟩ => ?_⟩
        exact absurd hn (Nat.not_lt.2 (h' u hu now (.head _)))
    simp only [IdlePool.step]
    by_cases hx : ∃ u, s.suspended a = some u ∧ now < u
    · rw [if_pos hx, if_pos (hiff.2 hx)]
      exact ⟨rfl, h1, h2, h3'⟩
    · rw [if_neg hx, if_neg (mt hiff.1 hx), h1]
      have hsus : ∀ b, (if b = a then none else s'.suspended b) = (if b = a then none else s.suspended b) ∨
          (if b = a then none else s'.suspended b) = none ∧
            ∀ u, (if b = a then none else s.suspended b) = some u → ∀ now, .acquire b now ∈ evs → u ≤ now := by
        intro b
        by_cases hb : b = a
        · exact .inl (by rw [if_pos hb, if_pos hb])
        · simp only [if_neg hb]
          exact h3' b
      cases takeIdle a s.idle with
      | some r => exact ⟨rfl, rfl, h2, hsus⟩
      | none => exact ⟨rfl, rfl, h2, hsus⟩
  | release a c =>
    simp only [IdlePool.step, h1]
    exact ⟨trivial, rfl, h2, h3'⟩
  | blacklist a t =>
    refine ⟨rfl, h1, h2, fun b => ?_⟩
    simp only [IdlePool.step, h2]
    by_cases hb : b = a
    · exact .inl (by rw [if_pos hb, if_pos hb])
    · simp only [if_neg hb]
      exact h3' b
  | setSuspended d => exact ⟨rfl, h1, rfl, h3'⟩

theorem forgets_run (size : Nat) (evs : List PoolEvent) {s s' : IdlePool} (h : Forgets evs s s') :
    (s'.run size evs).1 = (s.run size evs).1 := by
  induction evs generalizing s s' with
  | nil => rfl
  | cons e evs ih =>
    obtain ⟨h1, h2⟩ := forgets_step size h
    exact List.cons_eq_cons.2 ⟨h1, ih h2⟩

/-- **C147.** If all connections that were returned to a pool have left it again, given to callers or closed, and the
suspensions are over whenever a connection to their address is asked for, then the pool answers everything from
now on as a new pool of this size does in which the same duration of suspensions has been set. -/
theorem C147_as_new (size : Nat) (evs evs' : List PoolEvent) (outs : List PoolOutput) (p : Pool)
    (hr : (Pool.withSize size).run (evs ++ evs') = .ok (outs, p))
    (hd : Drained evs (outs.take evs.length)) (hs : SuspensionsOver evs evs') :
    ∃ p', (Pool.withSize size).run (.setSuspended (durationAfter 60000000000 evs) :: evs') =
      .ok (.nothing :: outs.drop evs.length, p') := by
  have hno := (C54_exactly size _).1 ⟨outs, p, hr⟩
  obtain ⟨p1, h1⟩ := C54_pool_never_panics size _ hno
  rw [hr] at h1
  cases h1
  have hno' : NoOverflow (.setSuspended (durationAfter 60000000000 evs) :: evs') := by
    refine ⟨Nat.lt_of_le_of_lt ?_ hno.1, endsInTime_append _ _ _ hno.2⟩
    rw [releases, releases, List.filter_append, List.length_append]
    exact Nat.le_add_left _ _
  obtain ⟨p2, h2⟩ := C54_pool_never_panics size _ hno'
  refine ⟨p2, h2.trans ?_⟩
  rw [idle_run_append] at hd ⊢
  simp only at hd ⊢
  rw [List.take_left' (idle_outs_length size evs _)] at hd
  rw [List.drop_left' (idle_outs_length size evs _)]
  have hb := idle_balance size evs .new
  have hz : (IdlePool.new.run size evs).2.idle = [] := by
    have : IdlePool.new.idle.length = 0 := rfl
    unfold Drained at hd
    exact List.eq_nil_of_length_eq_zero (by omega)
  have hf : Forgets evs' (IdlePool.new.run size evs).2
      ⟨[], fun _ => none, durationAfter 60000000000 evs⟩ := by
    refine ⟨hz.symm, (idle_duration size evs .new).symm, fun a => .inr ⟨rfl, fun u hu now hm => ?_⟩⟩
    rcases (suspended_run size a u evs .new).1 hu with h | ⟨h, -⟩
    · exact hs a u h now hm
    · cases h
  rw [← forgets_run size evs' hf]
  rfl

/-- **C147.** And only then: if not all of the returned connections have left the pool, there is an address for
which it has an idle connection as soon as the suspension of this address is over. -/
theorem C147_only (size : Nat) (evs : List PoolEvent) (outs : List PoolOutput) (p : Pool)
    (hr : (Pool.withSize size).run evs = .ok (outs, p)) (hd : ¬ Drained evs outs) :
    ∃ a now c p', SuspensionsOver evs [.acquire a now] ∧
      (Pool.withSize size).run (evs ++ [.acquire a now]) = .ok (outs ++ [.reply (.ready c)], p') := by
  have hno := (C54_exactly size _).1 ⟨outs, p, hr⟩
  obtain ⟨p1, h1⟩ := C54_pool_never_panics size _ hno
  rw [hr] at h1
  cases h1
  have hb := idle_balance size evs .new
  cases hi : (IdlePool.new.run size evs).2.idle with
  | nil =>
    rw [hi] at hb
    exact absurd (by simpa [Drained, IdlePool.new] using hb) hd
  | cons e l =>
    obtain ⟨a, c⟩ := e
    obtain ⟨now, hnow⟩ : ∃ now, Available (IdlePool.new.run size evs).2 a now := by
      cases hu : (IdlePool.new.run size evs).2.suspended a with
      | none => exact ⟨0, fun u h => by rw [hu] at h; cases h⟩
      | some v => exact ⟨v, fun u h => by rw [hu] at h; cases h; exact Nat.le_refl _⟩
    obtain ⟨p2, h2⟩ := C54_pool_never_panics size _ (noOverflow_acquire hno a now)
    refine ⟨a, now, c, p2, fun b u hb t ht => ?_, h2.trans ?_⟩
    · simp only [List.mem_singleton, PoolEvent.acquire.injEq] at ht
      obtain ⟨rfl, rfl⟩ := ht
      exact hnow u ((suspended_run size b u evs .new).2 (.inl hb))
    · rw [run_append]
      have hx : ¬ ∃ u, (IdlePool.new.run size evs).2.suspended a = some u ∧ now < u :=
        fun ⟨u, hu, hn⟩ => absurd hn (Nat.not_lt.2 (hnow u hu))
      simp only [IdlePool.step, if_neg hx, hi, takeIdle]
      simp [SameHost]

/-- A new pool has no connection to give. -/
theorem new_has_none (size : Nat) (d : Nat) (a : Addr) (now : Time) :
    (Pool.withSize size).run [.setSuspended d, .acquire a now] =
      .ok ([.nothing, .reply (.connecting a)], (Pool.withSize size).setSuspended d) := rfl

namespace DrainedExamples

private def x : Addr := ⟨1, 80, 0⟩
private def y : Addr := ⟨2, 80, 0⟩

/-- A connection is returned and taken, another one crowded out by a third, which is taken, and `y` is suspended. -/
private def past : List PoolEvent :=
  [.setSuspended 10, .release x 0, .acquire x 1, .release x 1, .release y 2, .blacklist y 5, .acquire y 7,
    .acquire y 15]

/-- Later both addresses are asked for and used again. -/
private def future : List PoolEvent := [.acquire x 16, .acquire y 16, .blacklist x 17, .acquire x 20, .release y 3]

example : ∃ p, (Pool.withSize 1).run (past ++ future) =
    .ok ([.nothing, .closed [], .reply (.ready 0), .closed [], .closed [1], .nothing, .reply .failed,
      .reply (.ready 2), .reply (.connecting x), .reply (.connecting y), .nothing, .reply .failed, .closed []], p) :=
  C54_pool_never_panics 1 _ (by decide)

/-- The hypotheses of the theorem hold. -/
example : Drained past [.nothing, .closed [], .reply (.ready 0), .closed [], .closed [1], .nothing, .reply .failed,
    .reply (.ready 2)] ∧ SuspensionsOver past future := by
  refine ⟨rfl, ?_⟩
  intro a u h now hm
  have := (suspended_run 1 a u past .new).2 (.inl h)
  have hn : (IdlePool.new.run 1 past).2.suspended a = none := by
    by_cases ha : a = y <;> simp [IdlePool.run, IdlePool.step, past, takeIdle, SameHost, IdlePool.new, x, ha, y]
  rw [hn] at this
  cases this

/-- A connection that is left is given to a caller. -/
example : ¬ Drained [.release x 0] [.closed []] ∧
    ∃ p, (Pool.withSize 1).run [.release x 0, .acquire x 1] = .ok ([.closed [], .reply (.ready 0)], p) :=
  ⟨by simp [Drained, givenOut, crowdedOut, releases], C54_pool_never_panics 1 _ (by decide)⟩

end DrainedExamples

end Htrpc
