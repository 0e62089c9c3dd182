/-
C45, C48, C49, C50, C54: the connection pool.
-/
import Verif.Lemmas.Pool

namespace Htrpc
open Spec

/-- A pool in the state that is expected. -/
structure Pool.Like (p : Pool) (size : Nat) (s : IdlePool) : Prop where
  holds : ∃ es, p.Holds es ∧ Pool.idleOf es = s.idle
  size : p.size = size
  blacklist : ∀ a, p.blacklist.lookup a = s.suspended a
  duration : p.suspended = s.duration

theorem lookup_unlist (a b : Addr) (bl : List (Addr × Time)) :
    (Pool.unlist a bl).lookup b = if b = a then none else bl.lookup b := by
  induction bl with
  | nil => simp [Pool.unlist]
  | cons e bl ih =>
    obtain ⟨x, t⟩ := e
    rw [Pool.unlist] at *
    by_cases hx : x = a
    · subst hx
      rw [List.filter_cons_of_neg (by simp), ih, List.lookup_cons]
      by_cases hb : b = x
      · rw [if_pos hb, if_pos hb]
      · rw [if_neg hb, if_neg hb]
        have : (b == x) = false := by simpa using hb
        rw [this]
    · rw [List.filter_cons_of_pos (by simpa using hx), List.lookup_cons, List.lookup_cons, ih]
      by_cases hb : b = x
      · subst hb
        simp [hx]
      · have : (b == x) = false := by simpa using hb
        rw [this]

theorem lookup_enlist (a b : Addr) (t : Time) (bl : List (Addr × Time)) :
    (Pool.enlist a t bl).lookup b = if b = a then some t else bl.lookup b := by
  rw [Pool.enlist, List.lookup_cons, lookup_unlist]
  by_cases hb : b = a
  · subst hb; simp
  · have : (b == a) = false := by simpa using hb
    rw [this, if_neg hb, if_neg hb]

theorem acquire_like {p : Pool} {size : Nat} {s : IdlePool} (h : p.Like size s) (a : Addr) :
    ∃ p', p'.seq = p.seq ∧ match takeIdle a s.idle with
      | some (c, idle) => p.acquire a = .ok (.ready c, p') ∧ p'.Like size { s with idle }
      | none => p.acquire a = .ok (.connecting a, p') ∧ p'.Like size s := by
  obtain ⟨es, hes, hid⟩ := h.holds
  obtain ⟨p', es', h1, h2, h3, h4, h5, h6⟩ := hes.acquire a
  rw [hid] at h6
  refine ⟨p', h3, ?_⟩
  cases ht : takeIdle a s.idle with
  | none =>
    rw [ht] at h6
    obtain ⟨h6, rfl⟩ := h6
    exact ⟨h6, ⟨es', h1, hid⟩, h2.trans h.size, fun b => by rw [h4]; exact h.blacklist b,
      h5.trans h.duration⟩
  | some r =>
    rw [ht] at h6
    obtain ⟨h6, h7⟩ := h6
    exact ⟨h6, ⟨es', h1, h7⟩, h2.trans h.size, fun b => by rw [h4]; exact h.blacklist b,
      h5.trans h.duration⟩

/-- The event does not overflow anything. -/
def Pool.Room (p : Pool) : PoolEvent → Prop
  | .release _ _ => p.seq + 1 < 2 ^ 64
  | .blacklist _ t => t + p.suspended < timeEnd
  | _ => True

theorem room_of_step {p p' : Pool} {e : PoolEvent} {o : PoolOutput} (h : p.step e = .ok (o, p')) :
    p.Room e := by
  cases e with
  | release a c =>
    show p.seq + 1 < 2 ^ 64
    refine Decidable.byContradiction fun hc => ?_
    rw [Pool.step, Pool.release, if_neg hc] at h
    cases h
  | blacklist a t =>
    show t + p.suspended < timeEnd
    refine Decidable.byContradiction fun hc => ?_
    rw [Pool.step, Pool.handleBlacklist, if_neg hc] at h
    cases h
  | _ => trivial

/-- One event. -/
theorem step_like' {p : Pool} {size : Nat} {s : IdlePool} (h : p.Like size s) (e : PoolEvent)
    (hroom : p.Room e) :
    ∃ p', p.step e = .ok ((s.step size e).1, p') ∧ p'.Like size (s.step size e).2 ∧
      p'.seq = p.seq + releases [e] := by
  cases e with
  | acquire a now =>
    rw [Pool.step, Pool.handleAcquire, h.blacklist a, IdlePool.step]
    cases hu : s.suspended a with
    | none =>
      have hs : { s with suspended := fun b => if b = a then none else s.suspended b } = s := by
        obtain ⟨i, f, d⟩ := s
        congr 1
        funext b
        by_cases hb : b = a
        · subst hb; rw [if_pos rfl]; exact hu.symm
        · rw [if_neg hb]
      rw [if_neg (by rintro ⟨u, hu', -⟩; cases hu'), hs]
      obtain ⟨p', h1, h2⟩ := acquire_like h a
      simp only
      cases ht : takeIdle a s.idle with
      | none =>
        rw [ht] at h2
        exact ⟨p', by rw [h2.1]; rfl, h2.2, h1⟩
      | some r =>
        rw [ht] at h2
        exact ⟨p', by rw [h2.1]; rfl, h2.2, h1⟩
    | some u =>
      by_cases hn : now < u
      · rw [if_pos ⟨u, rfl, hn⟩]
        simp only
        rw [if_pos hn]
        refine ⟨_, rfl, ⟨?_, h.size, ?_, h.duration⟩, rfl⟩
        · obtain ⟨es, hes, hid⟩ := h.holds
          exact ⟨es, ⟨hes.order, hes.bound, hes.lru, hes.perm, hes.sorted⟩, hid⟩
        · intro b
          rw [lookup_enlist, lookup_unlist]
          by_cases hb : b = a
          · subst hb; rw [if_pos rfl]; exact hu.symm
          · rw [if_neg hb, if_neg hb]; exact h.blacklist b
      · rw [if_neg (by rintro ⟨v, hv, hn'⟩; cases hv; exact hn hn')]
        simp only
        rw [if_neg hn]
        have hlike : Pool.Like { p with blacklist := Pool.unlist a p.blacklist } size
            { s with suspended := fun b => if b = a then none else s.suspended b } := by
          refine ⟨?_, h.size, ?_, h.duration⟩
          · obtain ⟨es, hes, hid⟩ := h.holds
            exact ⟨es, ⟨hes.order, hes.bound, hes.lru, hes.perm, hes.sorted⟩, hid⟩
          · intro b
            rw [lookup_unlist, h.blacklist]
        obtain ⟨p', h1, h2⟩ := acquire_like hlike a
        simp only at h2
        cases ht : takeIdle a s.idle with
        | none =>
          rw [ht] at h2
          exact ⟨p', by rw [h2.1]; rfl, h2.2, h1⟩
        | some r =>
          rw [ht] at h2
          exact ⟨p', by rw [h2.1]; rfl, h2.2, h1⟩
  | release a c =>
    obtain ⟨es, hes, hid⟩ := h.holds
    obtain ⟨p', es', h1, h2, h3, h4, h5, h6, h7⟩ := hes.release a c hroom
    rw [hid] at h6 h7
    rw [h.size] at h6 h7
    refine ⟨p', ?_, ⟨⟨es', h1, h7⟩, h2.trans h.size, ?_, h5.trans h.duration⟩, h3⟩
    · rw [Pool.step, h6]; rfl
    · intro b; rw [h4]; exact h.blacklist b
  | blacklist a now =>
    have hroom : now + p.suspended < timeEnd := hroom
    refine ⟨{ p with blacklist := Pool.enlist a (now + p.suspended) p.blacklist },
      by rw [Pool.step, Pool.handleBlacklist, if_pos hroom]; rfl, ⟨?_, h.size, ?_, h.duration⟩, rfl⟩
    · obtain ⟨es, hes, hid⟩ := h.holds
      exact ⟨es, ⟨hes.order, hes.bound, hes.lru, hes.perm, hes.sorted⟩, hid⟩
    · intro b
      show (Pool.enlist a (now + p.suspended) p.blacklist).lookup b = _
      rw [lookup_enlist, h.blacklist, h.duration]
      rfl
  | setSuspended d =>
    refine ⟨_, rfl, ⟨?_, h.size, h.blacklist, rfl⟩, rfl⟩
    obtain ⟨es, hes, hid⟩ := h.holds
    exact ⟨es, ⟨hes.order, hes.bound, hes.lru, hes.perm, hes.sorted⟩, hid⟩

theorem endsInTime_cons (d : Nat) (e : PoolEvent) (evs : List PoolEvent) :
    EndsInTime d (e :: evs) ↔ EndsInTime d [e] ∧
      EndsInTime (match e with | .setSuspended d => d | _ => d) evs := by
  cases e <;> simp [EndsInTime]

theorem duration_step (size : Nat) (s : IdlePool) (e : PoolEvent) :
    (s.step size e).2.duration = match e with | .setSuspended d => d | _ => s.duration := by
  cases e with
  | acquire a now =>
    simp only [IdlePool.step]
    split
    · rfl
    · split <;> rfl
  | _ => rfl

theorem room_iff {p : Pool} {size : Nat} {s : IdlePool} (h : p.Like size s) (hp : p.seq < 2 ^ 64)
    (e : PoolEvent) : p.Room e ↔ p.seq + releases [e] < 2 ^ 64 ∧ EndsInTime s.duration [e] := by
  cases e with
  | release a c => simp [Pool.Room, releases, EndsInTime]
  | blacklist a t => simp [Pool.Room, releases, EndsInTime, h.duration, timeEnd, hp]
  | _ => simpa [Pool.Room, releases, EndsInTime] using hp

theorem step_like {p : Pool} {size : Nat} {s : IdlePool} (h : p.Like size s) (e : PoolEvent)
    (hseq : p.seq + releases [e] < 2 ^ 64) (ht : EndsInTime s.duration [e]) :
    ∃ p', p.step e = .ok ((s.step size e).1, p') ∧ p'.Like size (s.step size e).2 ∧
      p'.seq = p.seq + releases [e] :=
  step_like' h e ((room_iff h (by omega) e).2 ⟨hseq, ht⟩)

theorem releases_cons (e : PoolEvent) (evs : List PoolEvent) :
    releases (e :: evs) = releases [e] + releases evs := by
  rw [releases, releases, releases, ← List.length_append, ← List.filter_append]
  rfl

theorem run_like {p : Pool} {size : Nat} {s : IdlePool} (h : p.Like size s)
    (evs : List PoolEvent) (hseq : p.seq + releases evs < 2 ^ 64) (ht : EndsInTime s.duration evs) :
    ∃ p', p.run evs = .ok ((s.run size evs).1, p') ∧ p'.Like size (s.run size evs).2 ∧
      p'.seq = p.seq + releases evs := by
  induction evs generalizing p s with
  | nil => exact ⟨p, rfl, h, rfl⟩
  | cons e evs ih =>
    rw [releases_cons] at hseq
    rw [endsInTime_cons] at ht
    obtain ⟨p1, h1, h2, h3⟩ := step_like h e (by omega) ht.1
    obtain ⟨p2, h4, h5, h6⟩ := ih h2 (by omega) (by rw [duration_step]; exact ht.2)
    refine ⟨p2, ?_, h5, by rw [releases_cons]; omega⟩
    rw [Pool.run, h1]
    simp only [Res.bind_ok]
    rw [h4]
    rfl

theorem new_like (size : Nat) : (Pool.withSize size).Like size .new :=
  ⟨⟨[], ⟨.nil, by simp, rfl, .nil, .nil⟩, rfl⟩, rfl, fun _ => rfl, rfl⟩

/-! ### C54 and refinement -/

/-- **C54.** In a history with fewer than 2^64 releases, in which all suspensions end before the second
2^63, the pool does not panic, and its outputs are those expected of a queue of idle connections. -/
theorem C54_pool_never_panics (size : Nat) (evs : List PoolEvent) (h : NoOverflow evs) :
    ∃ p, (Pool.withSize size).run evs = .ok ((IdlePool.new.run size evs).1, p) := by
  obtain ⟨p, h1, -⟩ := run_like (new_like size) evs (by simpa [Pool.withSize] using h.1) h.2
  exact ⟨p, h1⟩

theorem run_seq {p p' : Pool} {size : Nat} {s : IdlePool} (h : p.Like size s) (hp : p.seq < 2 ^ 64)
    (evs : List PoolEvent) {outs : List PoolOutput} (hr : p.run evs = .ok (outs, p')) :
    p.seq + releases evs < 2 ^ 64 ∧ EndsInTime s.duration evs := by
  induction evs generalizing p s outs with
  | nil => exact ⟨hp, trivial⟩
  | cons e evs ih =>
    have hroom : p.Room e := by
      obtain ⟨⟨o, p1⟩, h1, -⟩ := Res.bind_eq_ok.1 hr
      exact room_of_step h1
    obtain ⟨p1, h1, h2, h3⟩ := step_like' h e hroom
    rw [Pool.run, h1, Res.bind_ok] at hr
    dsimp only at hr
    have hroom := (room_iff h hp e).1 hroom
    have hp1 : p1.seq < 2 ^ 64 := h3 ▸ hroom.1
    cases hr1 : p1.run evs with
    | ok r =>
      obtain ⟨outs1, p2⟩ := r
      rw [hr1] at hr
      cases hr
      have := ih h2 hp1 hr1
      rw [duration_step] at this
      rw [releases_cons, endsInTime_cons]
      exact ⟨by omega, hroom.2, this.2⟩
    | err k => rw [hr1] at hr; cases hr
    | panic => rw [hr1] at hr; cases hr

/-- **C54**, exactly: it panics at the release number 2^64, and at the first suspension that ends behind
the last second of the clock. -/
theorem C54_exactly (size : Nat) (evs : List PoolEvent) :
    (∃ outs p, (Pool.withSize size).run evs = .ok (outs, p)) ↔ NoOverflow evs := by
  constructor
  · rintro ⟨outs, p, h⟩
    have := run_seq (new_like size) (by simp [Pool.withSize]) evs h
    exact ⟨by simpa [Pool.withSize] using this.1, this.2⟩
  · intro h
    obtain ⟨p, h1⟩ := C54_pool_never_panics size evs h
    exact ⟨_, p, h1⟩

/-- The addresses and connections the pool holds after a history are those expected. -/
theorem pool_contents (size : Nat) (evs : List PoolEvent) (h : NoOverflow evs)
    {outs : List PoolOutput} {p : Pool} (hr : (Pool.withSize size).run evs = .ok (outs, p)) :
    outs = (IdlePool.new.run size evs).1 ∧
      (p.connections.map fun e => (e.1.addr, e.2)).Perm (IdlePool.new.run size evs).2.idle := by
  obtain ⟨p', h1, h2, -⟩ := run_like (new_like size) evs (by simpa [Pool.withSize] using h.1) h.2
  rw [h1] at hr
  cases hr
  refine ⟨rfl, ?_⟩
  obtain ⟨es, hes, hid⟩ := h2.holds
  rw [← hid]
  have := hes.perm.map fun e => (e.1.addr, e.2)
  rw [List.map_map] at this
  exact this

/-! ### C45 -/

theorem takeIdle_length {a : Addr} {l l' : List (Addr × Conn)} {c : Conn}
    (h : takeIdle a l = some (c, l')) : l.length = l'.length + 1 := by
  induction l generalizing l' with
  | nil => cases h
  | cons e l ih =>
    obtain ⟨b, d⟩ := e
    rw [takeIdle] at h
    split at h
    · split at h
      · cases h; rfl
      · cases h
    · rw [Option.map_eq_some_iff] at h
      obtain ⟨⟨c', l''⟩, h1, h2⟩ := h
      cases h2
      have := ih h1
      simp only [List.length_cons]
      omega

theorem idle_step_length (size : Nat) (s : IdlePool) (e : PoolEvent) (h : s.idle.length ≤ size) :
    (s.step size e).2.idle.length ≤ size := by
  cases e with
  | acquire a now =>
    rw [IdlePool.step]
    split
    · exact h
    · simp only
      cases ht : takeIdle a s.idle with
      | none => exact h
      | some r =>
        obtain ⟨c, l⟩ := r
        have := takeIdle_length ht
        show l.length ≤ size
        omega
  | release a c =>
    show ((s.idle ++ [(a, c)]).drop _).length ≤ size
    rw [List.length_drop]
    omega
  | blacklist a now => exact h
  | setSuspended d => exact h

theorem idle_run_length (size : Nat) (evs : List PoolEvent) (s : IdlePool)
    (h : s.idle.length ≤ size) : (s.run size evs).2.idle.length ≤ size := by
  induction evs generalizing s with
  | nil => exact h
  | cons e evs ih => exact ih _ (idle_step_length size s e h)

/-- **C45.** The pool never holds more idle connections than its size. -/
theorem C45_pool_size (size : Nat) (evs : List PoolEvent)
    (outs : List PoolOutput) (p : Pool) (hr : (Pool.withSize size).run evs = .ok (outs, p)) :
    p.connections.length ≤ size := by
  have h1 := (pool_contents size evs ((C54_exactly size evs).1 ⟨outs, p, hr⟩) hr).2.length_eq
  rw [List.length_map] at h1
  rw [h1]
  exact idle_run_length size evs .new (Nat.zero_le _)

/-! ### C48 -/

/-- The last output of a history with one more event. -/
theorem run_append (size : Nat) (evs : List PoolEvent) (e : PoolEvent) (s : IdlePool) :
    s.run size (evs ++ [e]) =
      ((s.run size evs).1 ++ [((s.run size evs).2.step size e).1],
        ((s.run size evs).2.step size e).2) := by
  induction evs generalizing s with
  | nil => rfl
  | cons x evs ih =>
    rw [List.cons_append, IdlePool.run]
    simp only
    rw [ih]
    rfl

theorem step_available {s : IdlePool} {a : Addr} {now : Time} (h : Available s a now)
    (size : Nat) :
    (s.step size (.acquire a now)).1 = .reply (match takeIdle a s.idle with
      | some (c, _) => .ready c
      | none => .connecting a) ∧
    (s.step size (.acquire a now)).2.idle = match takeIdle a s.idle with
      | some (_, l) => l
      | none => s.idle := by
  have hn : ¬ ∃ u, s.suspended a = some u ∧ now < u := by
    rintro ⟨u, hu, hn⟩
    exact absurd hn (Nat.not_lt.2 (h u hu))
  rw [IdlePool.step, if_neg hn]
  simp only
  cases takeIdle a s.idle <;> exact ⟨rfl, rfl⟩

theorem takeIdle_first {a : Addr} {x z : List (Addr × Conn)} {c : Conn}
    (hx : ∀ e ∈ x, ¬ SameHost e.1 a) : takeIdle a (x ++ (a, c) :: z) = some (c, x ++ z) := by
  induction x with
  | nil => rw [List.nil_append, takeIdle, if_pos ⟨rfl, rfl⟩, if_pos rfl]; rfl
  | cons e x ih =>
    obtain ⟨b, d⟩ := e
    rw [List.cons_append, takeIdle, if_neg (hx _ List.mem_cons_self),
      ih fun e he => hx e (List.mem_cons_of_mem _ he)]
    rfl

theorem takeIdle_blocked {a b : Addr} {x z : List (Addr × Conn)} {c : Conn}
    (hx : ∀ e ∈ x, ¬ SameHost e.1 a) (hb : SameHost b a) (hne : b ≠ a) :
    takeIdle a (x ++ (b, c) :: z) = none := by
  induction x with
  | nil => rw [List.nil_append, takeIdle, if_pos hb, if_neg hne]
  | cons e x ih =>
    obtain ⟨b', d⟩ := e
    rw [List.cons_append, takeIdle, if_neg (hx _ List.mem_cons_self),
      ih fun e he => hx e (List.mem_cons_of_mem _ he)]
    rfl

theorem takeIdle_nothing {a : Addr} {l : List (Addr × Conn)}
    (hx : ∀ e ∈ l, ¬ SameHost e.1 a) : takeIdle a l = none := by
  induction l with
  | nil => rfl
  | cons e x ih =>
    obtain ⟨b', d⟩ := e
    rw [takeIdle, if_neg (hx _ List.mem_cons_self),
      ih fun e he => hx e (List.mem_cons_of_mem _ he)]
    rfl

theorem releases_append_acquire (evs : List PoolEvent) (a : Addr) (now : Time) :
    releases (evs ++ [.acquire a now]) = releases evs := by
  simp [releases]

theorem noOverflow_acquire {evs : List PoolEvent} (h : NoOverflow evs) (a : Addr) (now : Time) :
    NoOverflow (evs ++ [.acquire a now]) := by
  refine ⟨by rw [releases_append_acquire]; exact h.1, ?_⟩
  obtain ⟨-, h⟩ := h
  generalize 60000000000 = d at h ⊢
  induction evs generalizing d with
  | nil => trivial
  | cons e evs ih =>
    rw [endsInTime_cons] at h
    rw [List.cons_append, endsInTime_cons]
    exact ⟨h.1, ih _ h.2⟩

/-- **C48.** If the first idle connection to the host of `a` has the address `a`, it is reused, and
the other idle connections remain. -/
theorem C48_reused (size : Nat) (evs : List PoolEvent) (h : NoOverflow evs) (a : Addr)
    (now : Time) (x z : List (Addr × Conn)) (c : Conn)
    (hi : (IdlePool.new.run size evs).2.idle = x ++ (a, c) :: z)
    (hx : ∀ e ∈ x, ¬ SameHost e.1 a) (hav : Available (IdlePool.new.run size evs).2 a now) :
    ∃ outs p, (Pool.withSize size).run (evs ++ [.acquire a now]) =
        .ok (outs ++ [.reply (.ready c)], p) ∧
      (p.connections.map fun e => (e.1.addr, e.2)).Perm (x ++ z) := by
  have h' : NoOverflow (evs ++ [.acquire a now]) := noOverflow_acquire h a now
  obtain ⟨p, hp⟩ := C54_pool_never_panics size (evs ++ [.acquire a now]) h'
  have hc := (pool_contents size _ h' hp).2
  obtain ⟨h1, h2⟩ := step_available hav size
  rw [hi, takeIdle_first hx] at h1 h2
  refine ⟨(IdlePool.new.run size evs).1, p, ?_, ?_⟩
  · rw [hp, run_append, h1]
  · rw [run_append] at hc
    simp only at hc
    rw [h2] at hc
    exact hc

/-- **C48.** Without an idle connection to the host of `a` a new one is opened. -/
theorem C48_opened (size : Nat) (evs : List PoolEvent) (h : NoOverflow evs) (a : Addr)
    (now : Time) (hx : ∀ e ∈ (IdlePool.new.run size evs).2.idle, ¬ SameHost e.1 a)
    (hav : Available (IdlePool.new.run size evs).2 a now) :
    ∃ outs p, (Pool.withSize size).run (evs ++ [.acquire a now]) =
        .ok (outs ++ [.reply (.connecting a)], p) := by
  have h' : NoOverflow (evs ++ [.acquire a now]) := noOverflow_acquire h a now
  obtain ⟨p, hp⟩ := C54_pool_never_panics size (evs ++ [.acquire a now]) h'
  obtain ⟨h1, -⟩ := step_available hav size
  rw [takeIdle_nothing hx] at h1
  exact ⟨(IdlePool.new.run size evs).1, p, by rw [hp, run_append, h1]⟩

/-- **C48**, what fails: if the first idle connection to the host of `a` has another scope, a new
connection is opened although there may be idle ones to `a` behind it. -/
theorem C48_blocked_by_scope (size : Nat) (evs : List PoolEvent) (h : NoOverflow evs)
    (a b : Addr) (now : Time) (x z : List (Addr × Conn)) (c : Conn)
    (hi : (IdlePool.new.run size evs).2.idle = x ++ (b, c) :: z)
    (hx : ∀ e ∈ x, ¬ SameHost e.1 a) (hb : SameHost b a) (hne : b ≠ a)
    (hav : Available (IdlePool.new.run size evs).2 a now) :
    ∃ outs p, (Pool.withSize size).run (evs ++ [.acquire a now]) =
        .ok (outs ++ [.reply (.connecting a)], p) := by
  have h' : NoOverflow (evs ++ [.acquire a now]) := noOverflow_acquire h a now
  obtain ⟨p, hp⟩ := C54_pool_never_panics size (evs ++ [.acquire a now]) h'
  obtain ⟨h1, -⟩ := step_available hav size
  rw [hi, takeIdle_blocked hx hb hne] at h1
  exact ⟨(IdlePool.new.run size evs).1, p, by rw [hp, run_append, h1]⟩

/-- If addresses are determined by their host, so in particular for IPv4 addresses, the first idle
connection to `a` is reused whenever there is one. -/
theorem C48_reused_unscoped (size : Nat) (evs : List PoolEvent) (h : NoOverflow evs)
    (a : Addr) (now : Time) (x z : List (Addr × Conn)) (c : Conn)
    (hi : (IdlePool.new.run size evs).2.idle = x ++ (a, c) :: z)
    (hx : ∀ e ∈ x, e.1 ≠ a)
    (hu : ∀ e ∈ (IdlePool.new.run size evs).2.idle, SameHost e.1 a → e.1 = a)
    (hav : Available (IdlePool.new.run size evs).2 a now) :
    ∃ outs p, (Pool.withSize size).run (evs ++ [.acquire a now]) =
        .ok (outs ++ [.reply (.ready c)], p) ∧
      (p.connections.map fun e => (e.1.addr, e.2)).Perm (x ++ z) :=
  C48_reused size evs h a now x z c hi
    (fun e he hs => hx e he (hu e (by rw [hi]; exact List.mem_append_left _ he) hs)) hav

/-! ### C49 -/

/-- **C49.** Releasing a connection to a full pool closes exactly the idle connection that was
released first; to a pool which is not full it closes nothing; a pool of size 0 closes the
connection itself. -/
theorem C49_eviction (size : Nat) (evs : List PoolEvent) (a : Addr) (c : Conn)
    (h : NoOverflow (evs ++ [.release a c])) :
    ∃ outs closed p, (Pool.withSize size).run (evs ++ [.release a c]) =
        .ok (outs ++ [.closed closed], p) ∧
      ∃ idle, (p.connections.map fun e => (e.1.addr, e.2)).Perm idle ∧
        if (IdlePool.new.run size evs).2.idle.length < size then
          closed = [] ∧ idle = (IdlePool.new.run size evs).2.idle ++ [(a, c)]
        else ∃ first, (IdlePool.new.run size evs).2.idle ++ [(a, c)] = first :: idle ∧
          closed = [first.2] := by
  obtain ⟨p, hp⟩ := C54_pool_never_panics size (evs ++ [.release a c]) h
  have hc := (pool_contents size _ h hp).2
  have hlen := idle_run_length size evs .new (Nat.zero_le _)
  rw [run_append] at hp hc
  refine ⟨_, _, p, hp, _, hc, ?_⟩
  show if _ then
    ((_ ++ [(a, c)]).take _).map Prod.snd = [] ∧ (_ ++ [(a, c)]).drop _ = _ else _
  generalize (IdlePool.new.run size evs).2 = s at hlen ⊢
  split
  · rename_i hlt
    have : (s.idle ++ [(a, c)]).length - size = 0 := by simp; omega
    rw [this]
    exact ⟨rfl, rfl⟩
  · rename_i hlt
    have : (s.idle ++ [(a, c)]).length - size = 1 := by simp; omega
    show ∃ first, _ = first :: (s.idle ++ [(a, c)]).drop ((s.idle ++ [(a, c)]).length - size) ∧
      ((s.idle ++ [(a, c)]).take ((s.idle ++ [(a, c)]).length - size)).map Prod.snd = _
    rw [this]
    cases s.idle with
    | nil => exact ⟨_, rfl, rfl⟩
    | cons e l => exact ⟨e, rfl, rfl⟩

/-! ### C50 -/

/-- What is known about the suspension of `a` after a history up to the time `t`. -/
def Suspension (a : Addr) (s : IdlePool) (u : Option Time) (t : Time) : Prop :=
  s.suspended a = u ∨ (s.suspended a = none ∧ ∃ v, u = some v ∧ v ≤ t)

theorem step_suspended (size : Nat) (s : IdlePool) (b a : Addr) (now : Time) :
    (s.step size (.acquire b now)).2.suspended a =
      if a = b ∧ ¬ ∃ u, s.suspended b = some u ∧ now < u then none else s.suspended a := by
  rw [IdlePool.step]
  by_cases h : ∃ u, s.suspended b = some u ∧ now < u
  · rw [if_pos h, if_neg (fun hh => hh.2 h)]
  · rw [if_neg h]
    simp only
    have : (IdlePool.step.match_1 (fun _ => PoolOutput × IdlePool) (takeIdle b s.idle)
        (fun c idle => (PoolOutput.reply (.ready c), { s with
              suspended := fun b' => if b' = b then none else s.suspended b', idle }))
        (fun _ => (.reply (.connecting b), { s with
              suspended := fun b' => if b' = b then none else s.suspended b' }))).2.suspended a =
        if a = b then none else s.suspended a := by
      cases takeIdle b s.idle <;> rfl
    refine this.trans ?_
    by_cases hb : a = b
    · rw [if_pos hb, if_pos ⟨hb, h⟩]
    · rw [if_neg hb, if_neg (fun hh => hb hh.1)]

theorem step_duration (size : Nat) (s : IdlePool) (b : Addr) (now : Time) :
    (s.step size (.acquire b now)).2.duration = s.duration := by
  rw [IdlePool.step]
  split
  · rfl
  · simp only
    cases takeIdle b s.idle <;> rfl

theorem suspension_run (size : Nat) (a : Addr) (evs : List PoolEvent) (s : IdlePool)
    (u : Option Time) (t now : Time) (hs : Suspension a s u t)
    (hc : (t :: clock evs ++ [now]).Pairwise (· ≤ ·)) :
    Suspension a (s.run size evs).2 (suspendedUntil a evs s.duration u) now := by
  induction evs generalizing s u t with
  | nil =>
    rcases hs with hs | ⟨hs, v, hv, hvt⟩
    · exact .inl hs
    · have : t ≤ now := by simpa [clock] using hc
      exact .inr ⟨hs, v, hv, Nat.le_trans hvt this⟩
  | cons e evs ih =>
    cases e with
    | acquire b m =>
      have hc' : (t :: m :: clock evs ++ [now]).Pairwise (· ≤ ·) := hc
      have htm : t ≤ m := (List.pairwise_cons.1 hc').1 m List.mem_cons_self
      rw [IdlePool.run, suspendedUntil]
      · have := ih (s.step size (.acquire b m)).2 u m ?_ (List.pairwise_cons.1 hc').2
        · rw [duration_step] at this
          exact this
        · rw [Suspension, step_suspended]
          by_cases hb : a = b ∧ ¬ ∃ v, s.suspended b = some v ∧ m < v
          · rw [if_pos hb]
            obtain ⟨rfl, hn⟩ := hb
            rcases hs with hs | ⟨hs, v, hv, hvt⟩
            · cases u with
              | none => exact .inl rfl
              | some v =>
                refine .inr ⟨rfl, v, rfl, ?_⟩
                apply Nat.le_of_not_lt
                intro hlt
                exact hn ⟨v, hs, hlt⟩
            · exact .inr ⟨rfl, v, hv, Nat.le_trans hvt htm⟩
          · rw [if_neg hb]
            rcases hs with hs | ⟨hs, v, hv, hvt⟩
            · exact .inl hs
            · exact .inr ⟨hs, v, hv, Nat.le_trans hvt htm⟩
      · simp
      · simp
    | release b c => exact ih _ u t hs hc
    | blacklist b m =>
      have hc' : (t :: m :: clock evs ++ [now]).Pairwise (· ≤ ·) := hc
      have htm : t ≤ m := (List.pairwise_cons.1 hc').1 m List.mem_cons_self
      refine ih (s.step size (.blacklist b m)).2 _ m ?_ (List.pairwise_cons.1 hc').2
      by_cases hb : b = a
      · subst hb
        rw [if_pos rfl]
        exact .inl (if_pos rfl)
      · rw [if_neg hb]
        have he : (s.step size (.blacklist b m)).2.suspended a = s.suspended a :=
          if_neg (fun h => hb h.symm)
        rw [Suspension, he]
        rcases hs with hs | ⟨hs, v, hv, hvt⟩
        · exact .inl hs
        · exact .inr ⟨hs, v, hv, Nat.le_trans hvt htm⟩
    | setSuspended d => exact ih _ u t hs hc

/-- **C50.** With a clock that does not run backwards, an acquisition for `a` fails at once exactly
while the suspension from the last failure report for `a` lasts; otherwise it is given an idle
connection or a new one. Reports for other addresses do not matter. Missing: clocks that go backwards, for which it is false
(`C50_full_fails`). -/
theorem C50_suspended_iff_partial (size : Nat) (evs : List PoolEvent) (h : NoOverflow evs)
    (a : Addr) (now : Time) (hc : (clock evs ++ [now]).Pairwise (· ≤ ·)) :
    ∃ outs r p, (Pool.withSize size).run (evs ++ [.acquire a now]) =
        .ok (outs ++ [.reply r], p) ∧
      (r = .failed ↔ ∃ u, suspendedUntil a evs 60000000000 none = some u ∧ now < u) := by
  have h' : NoOverflow (evs ++ [.acquire a now]) := noOverflow_acquire h a now
  obtain ⟨p, hp⟩ := C54_pool_never_panics size (evs ++ [.acquire a now]) h'
  have hs := suspension_run size a evs .new none 0 now (.inl rfl)
    (List.pairwise_cons.2 ⟨fun _ _ => Nat.zero_le _, hc⟩)
  rw [run_append] at hp
  change Suspension a _ (suspendedUntil a evs 60000000000 none) now at hs
  generalize (IdlePool.new.run size evs).2 = s at hs hp
  by_cases hf : ∃ u, s.suspended a = some u ∧ now < u
  · rw [IdlePool.step, if_pos hf] at hp
    refine ⟨_, _, _, hp, iff_of_true rfl ?_⟩
    obtain ⟨u, hu, hn⟩ := hf
    rcases hs with hs | ⟨hs, -⟩
    · exact ⟨u, hs ▸ hu, hn⟩
    · rw [hs] at hu; cases hu
  · have hav : Available s a now := by
      intro u hu
      apply Nat.le_of_not_lt
      intro hlt
      exact hf ⟨u, hu, hlt⟩
    rw [(step_available hav size).1] at hp
    refine ⟨_, _, _, hp, iff_of_false ?_ ?_⟩
    · cases takeIdle a s.idle with
      | none => simp
      | some r => obtain ⟨c, l⟩ := r; simp
    · rintro ⟨u, hu, hn⟩
      rcases hs with hs | ⟨-, v, hv, hvn⟩
      · exact hf ⟨u, hs.trans hu, hn⟩
      · rw [hu] at hv; cases hv; exact absurd hn (Nat.not_lt.2 hvn)

theorem durationAfter_cons (d : Nat) (e : PoolEvent) (evs : List PoolEvent) :
    durationAfter d (e :: evs) =
      durationAfter (match e with | .setSuspended d => d | _ => d) evs := by
  cases e with
  | setSuspended d' =>
    simp only [durationAfter, List.filterMap_cons, List.getLast?_cons, Option.getD_some]
  | _ => rfl

theorem suspendedBy_cons (a : Addr) (u : Time) (d : Nat) (e : PoolEvent) (evs : List PoolEvent) :
    SuspendedBy a u d (e :: evs) ↔
      SuspendedBy a u (match e with | .setSuspended d => d | _ => d) evs ∨
      (∃ t, e = .blacklist a t ∧ u = t + d ∧ (∀ t', .blacklist a t' ∉ evs) ∧
        ∀ now, .acquire a now ∈ evs → now < u) := by
  constructor
  · rintro ⟨before, t, after, he, hu, h1, h2⟩
    cases before with
    | nil =>
      obtain ⟨rfl, rfl⟩ := List.cons.inj he
      exact .inr ⟨t, rfl, hu, h1, h2⟩
    | cons x before =>
      obtain ⟨rfl, rfl⟩ := List.cons.inj he
      exact .inl ⟨before, t, after, rfl, hu.trans (by rw [durationAfter_cons]), h1, h2⟩
  · rintro (⟨before, t, after, rfl, hu, h1, h2⟩ | ⟨t, rfl, hu, h1, h2⟩)
    · exact ⟨e :: before, t, after, rfl, hu.trans (by rw [durationAfter_cons]), h1, h2⟩
    · exact ⟨[], t, evs, rfl, hu, h1, h2⟩

/-- Until when `a` is suspended after a history that begins in any state. -/
theorem suspended_run (size : Nat) (a : Addr) (u : Time) (evs : List PoolEvent) (s : IdlePool) :
    (s.run size evs).2.suspended a = some u ↔
      SuspendedBy a u s.duration evs ∨
      (s.suspended a = some u ∧ (∀ t, .blacklist a t ∉ evs) ∧
        ∀ now, .acquire a now ∈ evs → now < u) := by
  induction evs generalizing s with
  | nil =>
    refine ⟨fun h => .inr ⟨h, by simp, by simp⟩, ?_⟩
    rintro (⟨before, t, after, he, -⟩ | ⟨h, -⟩)
    · exact absurd he (by simp)
    · exact h
  | cons e evs ih =>
    have hd : (match e with | .setSuspended d => d | _ => s.duration) =
        (s.step size e).2.duration := by
      cases e with
      | acquire b m => exact (step_duration size s b m).symm
      | _ => rfl
    have hrun : (s.run size (e :: evs)).2 = ((s.step size e).2.run size evs).2 := rfl
    rw [hrun, ih, suspendedBy_cons, hd, or_assoc]
    refine or_congr_right ?_
    cases e with
    | acquire b m =>
      rw [step_suspended]
      by_cases hb : a = b
      · subst hb
        by_cases hf : ∃ v, s.suspended a = some v ∧ m < v
        · rw [if_neg (fun h => h.2 hf)]
          obtain ⟨v, hv, hm⟩ := hf
          refine ⟨fun ⟨h1, h2, h3⟩ => .inr ⟨h1, by simpa using h2, fun now hn => ?_⟩, ?_⟩
          · rcases List.mem_cons.1 hn with hn | hn
            · cases hn; rw [h1] at hv; cases hv; exact hm
            · exact h3 now hn
          · rintro (⟨t, h, -⟩ | ⟨h1, h2, h3⟩)
            · cases h
            · exact ⟨h1, fun t h => h2 t (List.mem_cons_of_mem _ h),
                fun now h => h3 now (List.mem_cons_of_mem _ h)⟩
        · rw [if_pos ⟨rfl, hf⟩]
          refine ⟨fun h => by simp at h, ?_⟩
          rintro (⟨t, h, -⟩ | ⟨h1, -, h3⟩)
          · cases h
          · exact absurd ⟨u, h1, h3 m List.mem_cons_self⟩ hf
      · rw [if_neg (fun h => hb h.1)]
        have hne : ∀ now, PoolEvent.acquire a now ≠ .acquire b m := fun now h => by
          cases h; exact hb rfl
        simp [hb]
    | release b c => simp [IdlePool.step]
    | blacklist b m =>
      by_cases hb : a = b
      · subst hb
        have he : (s.step size (.blacklist a m)).2.suspended a = some (m + s.duration) :=
          if_pos rfl
        rw [he]
        refine ⟨fun ⟨h1, h2, h3⟩ => .inl ⟨m, rfl, (Option.some.inj h1).symm, h2, h3⟩, ?_⟩
        rintro (⟨t, h, h1, h2, h3⟩ | ⟨-, h, -⟩)
        · cases h; exact ⟨congrArg some h1.symm, h2, h3⟩
        · exact absurd List.mem_cons_self (h m)
      · have he : (s.step size (.blacklist b m)).2.suspended a = s.suspended a := if_neg hb
        rw [he]
        have hb' : ¬ b = a := fun h => hb h.symm
        simp [hb, hb']
    | setSuspended d => simp [IdlePool.step]

/-- **C50**, every clock: an acquisition for `a` fails at once exactly before the end of the suspension
from the last failure report for `a`, as long as no acquisition for `a` was attempted at or after this
end; otherwise it is given an idle connection or a new one. -/
theorem C50_any_clock (size : Nat) (evs : List PoolEvent) (h : NoOverflow evs)
    (a : Addr) (now : Time) :
    ∃ outs r p, (Pool.withSize size).run (evs ++ [.acquire a now]) =
        .ok (outs ++ [.reply r], p) ∧
      (r = .failed ↔ ∃ u, SuspendedBy a u 60000000000 evs ∧ now < u) := by
  have h' : NoOverflow (evs ++ [.acquire a now]) := noOverflow_acquire h a now
  obtain ⟨p, hp⟩ := C54_pool_never_panics size (evs ++ [.acquire a now]) h'
  have hs : ∀ u, (IdlePool.new.run size evs).2.suspended a = some u ↔
      SuspendedBy a u 60000000000 evs := by
    intro u
    rw [suspended_run]
    refine ⟨?_, .inl⟩
    rintro (h | ⟨h, -⟩)
    · exact h
    · cases h
  rw [run_append] at hp
  generalize (IdlePool.new.run size evs).2 = s at hs hp
  simp only [← hs]
  by_cases hf : ∃ u, s.suspended a = some u ∧ now < u
  · rw [IdlePool.step, if_pos hf] at hp
    exact ⟨_, _, _, hp, iff_of_true rfl hf⟩
  · have hav : Available s a now := fun u hu => Nat.le_of_not_lt fun hlt => hf ⟨u, hu, hlt⟩
    rw [(step_available hav size).1] at hp
    refine ⟨_, _, _, hp, iff_of_false ?_ hf⟩
    cases takeIdle a s.idle with
    | none => simp
    | some r => obtain ⟨c, l⟩ := r; simp

/-- An acquisition which fails at once uses no connection. -/
theorem C50_failed_uses_nothing (p p' : Pool) (a : Addr) (now : Time)
    (h : p.step (.acquire a now) = .ok (.reply .failed, p')) :
    p'.connections = p.connections := by
  rw [Pool.step, Pool.handleAcquire] at h
  have hacq : ∀ q r : Pool, q.acquire a = .ok (.failed, r) → False := by
    intro q r h
    rw [Pool.acquire] at h
    simp only at h
    split at h
    · split at h <;> cases h
    · cases h
  cases hl : p.blacklist.lookup a with
  | none =>
    rw [hl] at h
    obtain ⟨⟨r, q⟩, h1, h2⟩ := Res.bind_eq_ok.1 h
    cases h2
    exact absurd h1 (fun h => hacq _ _ h)
  | some u =>
    rw [hl] at h
    simp only at h
    split at h
    · cases h; rfl
    · obtain ⟨⟨r, q⟩, h1, h2⟩ := Res.bind_eq_ok.1 h
      cases h2
      exact absurd h1 (fun h => hacq _ _ h)

/-! ### Examples -/

section Examples

def exA : Addr := ⟨1, 80, 0⟩
def exB : Addr := ⟨2, 80, 0⟩

/-- A history: two releases for `exA`, a failure report for `exB`. -/
def exHistory : List PoolEvent :=
  [.release exA 0, .release exB 1, .release exA 2, .blacklist exB 5]

example : (IdlePool.new.run 2 exHistory).2.idle = [(exB, 1), (exA, 2)] := rfl

/-- `C48_reused` and `C48_reused_unscoped` apply. -/
example : ∃ outs p, (Pool.withSize 2).run (exHistory ++ [.acquire exA 6]) =
      .ok (outs ++ [.reply (.ready 2)], p) ∧
    (p.connections.map fun e => (e.1.addr, e.2)).Perm ([(exB, 1)] ++ []) :=
  C48_reused_unscoped 2 exHistory (by decide) exA 6 [(exB, 1)] [] 2 rfl (by decide) (by
    intro e he
    have : e ∈ [(exB, 1), (exA, 2)] := he
    revert this e
    decide) (by intro u hu; cases hu)

/-- `C48_opened` applies. -/
example : ∃ outs p, (Pool.withSize 2).run (exHistory ++ [.acquire ⟨3, 80, 0⟩ 6]) =
      .ok (outs ++ [.reply (.connecting ⟨3, 80, 0⟩)], p) :=
  C48_opened 2 exHistory (by decide) _ 6 (by
    intro e he
    have : e ∈ [(exB, 1), (exA, 2)] := he
    revert this e
    decide) (by intro u hu; cases hu)

/-- `C48_blocked_by_scope`: an idle connection to the address is not used. -/
example : ∃ outs p, (Pool.withSize 9).run
      ([.release ⟨7, 80, 1⟩ 0, .release ⟨7, 80, 2⟩ 1] ++ [.acquire ⟨7, 80, 2⟩ 0]) =
      .ok (outs ++ [.reply (.connecting ⟨7, 80, 2⟩)], p) :=
  C48_blocked_by_scope 9 [.release ⟨7, 80, 1⟩ 0, .release ⟨7, 80, 2⟩ 1] (by decide) ⟨7, 80, 2⟩
    ⟨7, 80, 1⟩ 0 [] [(⟨7, 80, 2⟩, 1)] 0 rfl (by simp) (by decide) (by decide)
    (by intro u hu; cases hu)

/-- `C50_any_clock`: so in this history with a clock that goes backwards the last acquisition is not
refused. -/
example : ¬ ∃ u, SuspendedBy exB u 60000000000 [.blacklist exB 0, .acquire exB 60000000000] ∧
    (5 : Nat) < u := by
  rintro ⟨u, ⟨before, t, after, he, hu, -, h⟩, -⟩
  cases before with
  | nil =>
    obtain ⟨h1, rfl⟩ := List.cons.inj he
    cases h1
    have := h _ List.mem_cons_self
    subst hu
    exact absurd this (by decide)
  | cons x before =>
    have h1 := (List.cons.inj he).2
    cases before with
    | nil => cases h1
    | cons y before => exact absurd (List.cons.inj h1).2 (by simp)

/-- **C50**: false for clocks that go backwards. The suspension is forgotten at an acquisition behind
its end; an acquisition at an earlier time is then attempted, although it lies before that end. -/
theorem C50_full_fails : ∃ outs p, (Pool.withSize 2).run
      ([.blacklist exB 0, .acquire exB 60000000000] ++ [.acquire exB 5]) =
        .ok (outs ++ [.reply (.connecting exB)], p) ∧
      suspendedUntil exB [.blacklist exB 0, .acquire exB 60000000000] 60000000000 none =
        some 60000000000 :=
  ⟨[.nothing, .reply (.connecting exB)], _, rfl, rfl⟩

/-- `C50`: before the end of the suspension, -/
example : ∃ outs p, (Pool.withSize 2).run (exHistory ++ [.acquire exB 60000000004]) =
    .ok (outs ++ [.reply .failed], p) := by
  obtain ⟨outs, r, p, h1, h2⟩ := C50_suspended_iff_partial 2 exHistory (by decide) exB 60000000004
    (by decide)
  rw [h2.2 ⟨60000000005, by decide, by decide⟩] at h1
  exact ⟨outs, p, h1⟩

/-- and at its end. -/
example : ∃ outs r p, (Pool.withSize 2).run (exHistory ++ [.acquire exB 60000000005]) =
    .ok (outs ++ [.reply r], p) ∧ r ≠ .failed := by
  obtain ⟨outs, r, p, h1, h2⟩ := C50_suspended_iff_partial 2 exHistory (by decide) exB 60000000005
    (by decide)
  refine ⟨outs, r, p, h1, fun hr => ?_⟩
  obtain ⟨u, hu, hn⟩ := h2.1 hr
  have : some u = some 60000000005 := hu.symm
  cases this
  exact absurd hn (Nat.lt_irrefl _)

end Examples

end Htrpc
