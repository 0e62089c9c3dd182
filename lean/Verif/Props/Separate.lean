/-
C136: addresses do not disturb each other.
-/
import Verif.Spec.Separate
import Verif.Props.Pool

namespace Htrpc
open Spec

/-- Of the pool `s` what is about the host of `a`. -/
structure Alone (a : Addr) (s s' : IdlePool) : Prop where
  idle : s'.idle = s.idle.filter fun e => decide (SameHost e.1 a)
  suspended : ∀ b, SameHost b a → s'.suspended b = s.suspended b
  duration : s'.duration = s.duration

theorem sameHost_trans {a b c : Addr} (h : SameHost a b) (h' : SameHost b c) : SameHost a c :=
  ⟨h.1.trans h'.1, h.2.trans h'.2⟩

theorem sameHost_symm {a b : Addr} (h : SameHost a b) : SameHost b a := ⟨h.1.symm, h.2.symm⟩

/-- What is taken from the idle connections to a host does not depend on the others. -/
theorem takeIdle_alone {a b : Addr} (h : SameHost b a) (l : List (Addr × Conn)) :
    takeIdle b (l.filter fun e => decide (SameHost e.1 a)) =
      (takeIdle b l).map fun r => (r.1, r.2.filter fun e => decide (SameHost e.1 a)) := by
  induction l with
  | nil => rfl
  | cons e l ih =>
    obtain ⟨x, c⟩ := e
    by_cases hx : SameHost x a
    · have hxb : SameHost x b := sameHost_trans hx (sameHost_symm h)
      rw [List.filter_cons_of_pos (by simpa using hx), takeIdle, takeIdle, if_pos hxb, if_pos hxb]
      split <;> rfl
    · have hxb : ¬ SameHost x b := fun h' => hx (sameHost_trans h' h)
      rw [List.filter_cons_of_neg (by simpa using hx), ih, takeIdle, if_neg hxb]
      cases takeIdle b l with
      | none => rfl
      | some r => simp [hx]

/-- What is taken for other hosts is not missed. -/
theorem takeIdle_other {a b : Addr} (h : ¬ SameHost b a) (l l' : List (Addr × Conn)) (c : Conn)
    (ht : takeIdle b l = some (c, l')) :
    (l'.filter fun e => decide (SameHost e.1 a)) = l.filter fun e => decide (SameHost e.1 a) := by
  induction l generalizing l' with
  | nil => cases ht
  | cons e l ih =>
    obtain ⟨x, d⟩ := e
    rw [takeIdle] at ht
    split at ht
    · split at ht
      · rename_i hx
        cases ht
        rw [List.filter_cons_of_neg (by simpa [hx] using h)]
      · cases ht
    · cases hr : takeIdle b l with
      | none => rw [hr] at ht; cases ht
      | some r =>
        rw [hr] at ht
        cases ht
        rw [List.filter_cons, List.filter_cons, ih r.2 (by rw [hr])]

/-- The suspensions of a host, and the duration. -/
structure AloneBut (a : Addr) (s s' : IdlePool) : Prop where
  suspended : ∀ b, SameHost b a → s'.suspended b = s.suspended b
  duration : s'.duration = s.duration

theorem aloneBut_other {a : Addr} {s s' : IdlePool} (size : Nat) (h : AloneBut a s s') (e : PoolEvent)
    (he : concerns a e = false) : AloneBut a (s.step size e).2 s' := by
  cases e with
  | acquire b now =>
    have hb : ¬ SameHost b a := by simpa [concerns] using he
    simp only [IdlePool.step]
    split
    · exact h
    · have : ∀ c, SameHost c a → s'.suspended c = if c = b then none else s.suspended c := by
        intro c hc
        rw [if_neg (by rintro rfl; exact hb hc), h.suspended c hc]
      split <;> exact ⟨this, h.duration⟩
  | release b c => exact ⟨h.suspended, h.duration⟩
  | blacklist b now =>
    have hb : ¬ SameHost b a := by simpa [concerns] using he
    refine ⟨fun c hc => ?_, h.duration⟩
    simp only [IdlePool.step]
    rw [if_neg (by rintro rfl; exact hb hc), h.suspended c hc]
  | setSuspended d => cases he

theorem aloneBut_own {a : Addr} {s s' : IdlePool} (size : Nat) (h : AloneBut a s s') (e : PoolEvent)
    (he : concerns a e = true) : AloneBut a (s.step size e).2 (s'.step size e).2 ∧
      ((s.step size e).1 = .reply .failed ↔ (s'.step size e).1 = .reply .failed) := by
  cases e with
  | acquire b now =>
    have hb : SameHost b a := by simpa [concerns] using he
    simp only [IdlePool.step, h.suspended b hb]
    split
    · exact ⟨h, Iff.rfl⟩
    · have : ∀ c, SameHost c a → (if c = b then none else s'.suspended c) = if c = b then none else s.suspended c :=
        fun c hc => by rw [h.suspended c hc]
      split <;> split <;> exact ⟨⟨this, h.duration⟩, by simp⟩
  | release b c => exact ⟨⟨h.suspended, h.duration⟩, by simp [IdlePool.step]⟩
  | blacklist b now =>
    refine ⟨⟨fun c hc => ?_, h.duration⟩, by simp [IdlePool.step]⟩
    simp only [IdlePool.step]
    rw [h.suspended c hc, h.duration]
  | setSuspended d => exact ⟨⟨h.suspended, rfl⟩, by simp [IdlePool.step]⟩

theorem alone_step {a : Addr} {s s' : IdlePool} (size : Nat) (h : Alone a s s') (e : PoolEvent)
    (hs : ∀ cs, (s.step size e).1 = .closed cs → cs = []) :
    if concerns a e = true then (s'.step size e).1 = (s.step size e).1 ∧ Alone a (s.step size e).2 (s'.step size e).2
    else Alone a (s.step size e).2 s' := by
  have hbut : AloneBut a s s' := ⟨h.suspended, h.duration⟩
  -- the pool is not full
  have room : ∀ b c, e = .release b c → (s.idle ++ [(b, c)]).length - size = 0 := by
    rintro b c rfl
    have := hs _ rfl
    rw [List.map_eq_nil_iff, List.take_eq_nil_iff] at this
    exact this.resolve_right (by simp)
  split
  · rename_i he
    obtain ⟨h1, -⟩ := aloneBut_own size hbut e he
    cases e with
    | acquire b now =>
      have hb : SameHost b a := by simpa [concerns] using he
      have ht := takeIdle_alone hb s.idle
      rw [← h.idle] at ht
      simp only [IdlePool.step, h.suspended b hb] at h1 ⊢
      split
      · exact ⟨rfl, h⟩
      · rename_i hn
        rw [if_neg hn, if_neg hn] at h1
        simp only [ht] at h1 ⊢
        cases hr : takeIdle b s.idle with
        | none =>
          simp only [hr, Option.map_none] at h1 ⊢
          exact ⟨trivial, h.idle, h1.suspended, h1.duration⟩
        | some r =>
          simp only [hr, Option.map_some] at h1 ⊢
          exact ⟨trivial, rfl, h1.suspended, h1.duration⟩
    | release b c =>
      have hb : SameHost b a := by simpa [concerns] using he
      have hr := room b c rfl
      have hr' : (s'.idle ++ [(b, c)]).length - size = 0 := by
        have : s'.idle.length ≤ s.idle.length := by rw [h.idle]; exact List.length_filter_le ..
        simp only [List.length_append] at hr ⊢
        omega
      simp only [IdlePool.step, hr, hr', List.take_zero, List.drop_zero]
      refine ⟨trivial, ?_, h.suspended, h.duration⟩
      rw [List.filter_append, h.idle, List.filter_cons_of_pos (by simpa using hb), List.filter_nil]
    | blacklist b now => exact ⟨rfl, h.idle, h1.suspended, h1.duration⟩
    | setSuspended d => exact ⟨rfl, h.idle, h1.suspended, h1.duration⟩
  · rename_i he
    rw [Bool.not_eq_true] at he
    have h1 := aloneBut_other size hbut e he
    refine ⟨?_, h1.suspended, h1.duration⟩
    rw [h.idle]
    cases e with
    | acquire b now =>
      have hb : ¬ SameHost b a := by simpa [concerns] using he
      simp only [IdlePool.step]
      split
      · rfl
      · split
        · rename_i c l ht
          exact (takeIdle_other hb _ _ _ ht).symm
        · rfl
    | release b c =>
      have hb : ¬ SameHost b a := by simpa [concerns] using he
      simp only [IdlePool.step, room b c rfl, List.drop_zero]
      rw [List.filter_append, List.filter_cons_of_neg (by simpa using hb), List.filter_nil, List.append_nil]
    | blacklist b now => rfl
    | setSuspended d => rfl

theorem run_cons' (size : Nat) (e : PoolEvent) (evs : List PoolEvent) (s : IdlePool) :
    (s.run size (e :: evs)).1 = (s.step size e).1 :: ((s.step size e).2.run size evs).1 := rfl

theorem answersFor_own {a : Addr} {e : PoolEvent} (he : concerns a e = true) (evs : List PoolEvent) (o : PoolOutput)
    (outs : List PoolOutput) : answersFor a (e :: evs) (o :: outs) = o :: answersFor a evs outs := by
  rw [answersFor, List.zip_cons_cons, List.filter_cons_of_pos (by exact he)]
  rfl

theorem answersFor_other {a : Addr} {e : PoolEvent} (he : ¬ concerns a e = true) (evs : List PoolEvent)
    (o : PoolOutput) (outs : List PoolOutput) : answersFor a (e :: evs) (o :: outs) = answersFor a evs outs := by
  rw [answersFor, List.zip_cons_cons, List.filter_cons_of_neg (by exact he)]
  rfl

theorem alone_run {a : Addr} {s s' : IdlePool} (size : Nat) (h : Alone a s s') (evs : List PoolEvent)
    (hs : ∀ cs, .closed cs ∈ (s.run size evs).1 → cs = []) :
    (s'.run size (evs.filter (concerns a))).1 = answersFor a evs (s.run size evs).1 := by
  induction evs generalizing s s' with
  | nil => rfl
  | cons e evs ih =>
    rw [run_cons'] at hs ⊢
    have h1 := alone_step size h e fun cs hc => hs cs (hc ▸ List.mem_cons_self)
    have hs' := fun cs hc => hs cs (List.mem_cons_of_mem _ hc)
    split at h1
    · rename_i he
      rw [List.filter_cons_of_pos he, answersFor_own he, run_cons', h1.1, ih h1.2 hs']
    · rename_i he
      rw [List.filter_cons_of_neg he, answersFor_other he, ih h1 hs']

theorem aloneBut_run {a : Addr} {s s' : IdlePool} (size : Nat) (h : AloneBut a s s') (evs : List PoolEvent) :
    (s'.run size (evs.filter (concerns a))).1.map (fun o => decide (o = .reply .failed)) =
      (answersFor a evs (s.run size evs).1).map fun o => decide (o = .reply .failed) := by
  induction evs generalizing s s' with
  | nil => rfl
  | cons e evs ih =>
    rw [run_cons']
    by_cases he : concerns a e = true
    · obtain ⟨h1, h2⟩ := aloneBut_own size h e he
      rw [List.filter_cons_of_pos he, answersFor_own he, run_cons', List.map_cons, List.map_cons, ih h1]
      simp only [h2]
    · have h1 := aloneBut_other size h e (by simpa using he)
      rw [List.filter_cons_of_neg he, answersFor_other he, ih h1]

/-- A part of a history overflows no earlier. -/
theorem noOverflow_part {a : Addr} {evs : List PoolEvent} (h : NoOverflow evs) :
    NoOverflow (evs.filter (concerns a)) := by
  refine ⟨Nat.lt_of_le_of_lt ?_ h.1, ?_⟩
  · exact (List.Sublist.filter _ List.filter_sublist).length_le
  · have h2 := h.2
    generalize 60000000000 = d at h2 ⊢
    clear h
    induction evs generalizing d with
    | nil => trivial
    | cons e evs ih =>
      rw [List.filter_cons]
      cases e with
      | setSuspended d' => exact ih _ h2
      | acquire b t => split <;> exact ih _ h2
      | release b c => split <;> exact ih _ h2
      | blacklist b t =>
        split
        · exact ⟨h2.1, ih _ h2.2⟩
        · exact ih _ h2.2

/-- **C136.** If the pool never becomes too small, so no connection is closed for want of room, then it
answers to everything about a host exactly what it would have answered if there were no other hosts. -/
theorem C136_alone (size : Nat) (a : Addr) (evs : List PoolEvent) (outs : List PoolOutput) (p : Pool)
    (hr : (Pool.withSize size).run evs = .ok (outs, p)) (hs : ∀ cs, .closed cs ∈ outs → cs = []) :
    ∃ p', (Pool.withSize size).run (evs.filter (concerns a)) = .ok (answersFor a evs outs, p') := by
  have hno := (C54_exactly size evs).1 ⟨outs, p, hr⟩
  obtain ⟨p1, h1⟩ := C54_pool_never_panics size evs hno
  rw [hr] at h1
  cases h1
  obtain ⟨p2, h2⟩ := C54_pool_never_panics size _ (noOverflow_part (a := a) hno)
  exact ⟨p2, by rw [h2, alone_run size ⟨rfl, fun _ _ => rfl, rfl⟩ evs hs]⟩

/-- **C136.** Which acquisitions are rejected never depends on other hosts, whatever the size of the pool is. -/
theorem C136_rejected (size : Nat) (a : Addr) (evs : List PoolEvent) (outs : List PoolOutput) (p : Pool)
    (hr : (Pool.withSize size).run evs = .ok (outs, p)) :
    ∃ outs' p', (Pool.withSize size).run (evs.filter (concerns a)) = .ok (outs', p') ∧
      outs'.map (fun o => decide (o = .reply .failed)) =
        (answersFor a evs outs).map fun o => decide (o = .reply .failed) := by
  have hno := (C54_exactly size evs).1 ⟨outs, p, hr⟩
  obtain ⟨p1, h1⟩ := C54_pool_never_panics size evs hno
  rw [hr] at h1
  cases h1
  obtain ⟨p2, h2⟩ := C54_pool_never_panics size _ (noOverflow_part (a := a) hno)
  exact ⟨_, p2, h2, aloneBut_run size ⟨fun _ _ => rfl, rfl⟩ evs⟩

theorem answersFor_skip {a : Addr} {e : PoolEvent} {evs : List PoolEvent} {outs : List PoolOutput}
    (hl : evs.length = outs.length) (h : ∀ x ∈ evs, concerns a x = false) (he : concerns a e = true) (o : PoolOutput) :
    answersFor a (evs ++ [e]) (outs ++ [o]) = [o] := by
  induction evs generalizing outs with
  | nil =>
    cases outs with
    | nil => exact answersFor_own he [] o []
    | cons => cases hl
  | cons x evs ih =>
    cases outs with
    | nil => cases hl
    | cons y outs =>
      rw [List.cons_append, List.cons_append, answersFor_other (by rw [h x List.mem_cons_self]; exact Bool.false_ne_true)]
      exact ih (Nat.succ.inj hl) fun z hz => h z (List.mem_cons_of_mem _ hz)

theorem outs_length (size : Nat) (evs : List PoolEvent) (s : IdlePool) : (s.run size evs).1.length = evs.length := by
  induction evs generalizing s with
  | nil => rfl
  | cons e evs ih => rw [run_cons', List.length_cons, ih, List.length_cons]

theorem run_releases (n : Nat) (a b : Addr) (c d : Conn) (k : Nat) (hk : k ≤ n) (u : Addr → Option Time) (t : Nat) :
    (IdlePool.run (n + 1) (List.replicate k (.release b d)) ⟨[(a, c)], u, t⟩).2 =
      ⟨(a, c) :: List.replicate k (b, d), u, t⟩ := by
  induction k with
  | zero => rfl
  | succ k ih =>
    rw [List.replicate_succ', run_append, ih (by omega)]
    have : ((a, c) :: List.replicate k (b, d) ++ [(b, d)]).length - (n + 1) = 0 := by
      simp; omega
    simp only [IdlePool.step, this, List.drop_zero]
    rw [List.replicate_succ']
    rfl

/-- **C136.** In a pool that is too small other hosts do matter: they displace idle connections. For every size
there is a history in which a connection is made only because of another host. -/
theorem C136_displaced (n : Nat) (a b : Addr) (hab : ¬ SameHost b a) (c d : Conn) (hn : n + 3 < 2 ^ 64) :
    ∃ evs outs p outs' p', (Pool.withSize (n + 1)).run evs = .ok (outs, p) ∧
      (Pool.withSize (n + 1)).run (evs.filter (concerns a)) = .ok (outs', p') ∧
      answersFor a evs outs = [.closed [], .reply (.connecting a)] ∧ outs' = [.closed [], .reply (.ready c)] := by
  have hab' : concerns a (.release b d) = false := by simpa [concerns] using hab
  have hself : SameHost a a := ⟨rfl, rfl⟩
  have hmid : ∀ x ∈ List.replicate (n + 1) (PoolEvent.release b d), x = .release b d :=
    fun x hx => (List.mem_replicate.1 hx).2
  have hno : NoOverflow ((.release a c :: List.replicate (n + 1) (.release b d)) ++ [.acquire a 0]) := by
    refine ⟨?_, ?_⟩
    · rw [releases]
      refine Nat.lt_of_le_of_lt (List.length_filter_le ..) ?_
      simp
      omega
    · have : ∀ k D, EndsInTime D (List.replicate k (.release b d) ++ [.acquire a 0]) := by
        intro k D
        induction k with
        | zero => trivial
        | succ k ih => exact ih
      exact this (n + 1) _
  obtain ⟨p, hp⟩ := C54_pool_never_panics (n + 1) _ hno
  obtain ⟨p', hp'⟩ := C54_pool_never_panics (n + 1) _ (noOverflow_part (a := a) hno)
  refine ⟨_, _, p, _, p', hp, hp', ?_, ?_⟩
  · rw [run_append]
    have hfirst : ∀ es, IdlePool.run (n + 1) (.release a c :: es) .new =
        (.closed [] :: (IdlePool.run (n + 1) es ⟨[(a, c)], fun _ => none, 60000000000⟩).1,
          (IdlePool.run (n + 1) es ⟨[(a, c)], fun _ => none, 60000000000⟩).2) := by
      intro es
      simp [IdlePool.run, IdlePool.step, IdlePool.new]
    have hstate : (IdlePool.run (n + 1) (List.replicate (n + 1) (.release b d))
        ⟨[(a, c)], fun _ => none, 60000000000⟩).2 =
          ⟨List.replicate (n + 1) (b, d), fun _ => none, 60000000000⟩ := by
      rw [List.replicate_succ', run_append, run_releases n a b c d n (Nat.le_refl n)]
      have : ((a, c) :: List.replicate n (b, d) ++ [(b, d)]).length - (n + 1) = 1 := by simp
      simp only [IdlePool.step, this]
      rw [List.cons_append, List.drop_one, List.tail_cons, ← List.replicate_succ']
    have hlast : (IdlePool.step (n + 1) ⟨List.replicate (n + 1) (b, d), fun _ => none, 60000000000⟩ (.acquire a 0)).1 =
        .reply (.connecting a) := by
      have : takeIdle a (List.replicate (n + 1) (b, d)) = none :=
        takeIdle_nothing fun e he => by rw [(List.mem_replicate.1 he).2]; exact hab
      simp [IdlePool.step, this]
    rw [hfirst]
    simp only
    rw [hstate, hlast, List.cons_append, List.cons_append, answersFor_own (by simpa [concerns] using hself)]
    congr 1
    refine answersFor_skip (outs_length ..).symm (fun x hx => ?_) (by simpa [concerns] using hself) _
    rw [hmid x hx, hab']
  · have : (((PoolEvent.release a c :: List.replicate (n + 1) (PoolEvent.release b d)) ++ [PoolEvent.acquire a 0]).filter
        (concerns a)) =
        [.release a c, .acquire a 0] := by
      rw [List.filter_append, List.filter_cons_of_pos (by simpa [concerns] using hself), List.filter_eq_nil_iff.2 ?_,
        List.filter_cons_of_pos (by simpa [concerns] using hself)]
      · rfl
      · intro x hx
        rw [hmid x hx, hab']
        exact Bool.false_ne_true
    rw [this]
    simp [IdlePool.run, IdlePool.step, IdlePool.new, takeIdle, hself]

namespace SeparateExamples

def hostA : Addr := ⟨1, 80, 0⟩
def hostB : Addr := ⟨2, 80, 0⟩

/-- Calls to two hosts, one of which cannot be reached. -/
def mixed : List PoolEvent :=
  [.acquire hostA 1, .acquire hostB 2, .release hostA 10, .blacklist hostB 3, .acquire hostB 4, .acquire hostA 5]

theorem mixed_run (size : Nat) : ∃ p, (Pool.withSize size).run mixed = .ok ((IdlePool.new.run size mixed).1, p) :=
  C54_pool_never_panics size mixed (by decide)

/-- `C136_alone`: the answers for the one that can be reached, -/
example : ∃ p', (Pool.withSize 2).run [.acquire hostA 1, .release hostA 10, .acquire hostA 5] =
    .ok ([.reply (.connecting hostA), .closed [], .reply (.ready 10)], p') := by
  obtain ⟨p, hp⟩ := mixed_run 2
  have : (IdlePool.new.run 2 mixed).1 = [.reply (.connecting hostA), .reply (.connecting hostB), .closed [], .nothing,
    .reply .failed, .reply (.ready 10)] := by
    simp [mixed, IdlePool.run, IdlePool.step, IdlePool.new, takeIdle, hostA, hostB, SameHost]
  rw [this] at hp
  exact C136_alone 2 hostA mixed _ p hp (by simp)

/-- `C136_rejected`: and the rejections for the other one. -/
example : ∃ outs' p', (Pool.withSize 0).run [.acquire hostB 2, .blacklist hostB 3, .acquire hostB 4] =
    .ok (outs', p') ∧ outs'.map (fun o => decide (o = .reply .failed)) = [false, false, true] := by
  obtain ⟨p, hp⟩ := mixed_run 0
  have : (IdlePool.new.run 0 mixed).1 = [.reply (.connecting hostA), .reply (.connecting hostB), .closed [10], .nothing,
    .reply .failed, .reply (.connecting hostA)] := by
    simp [mixed, IdlePool.run, IdlePool.step, IdlePool.new, takeIdle, hostA, hostB]
  rw [this] at hp
  exact C136_rejected 0 hostB mixed _ p hp

/-- `C136_displaced`: one connection to another host is enough for a pool of size 1. -/
example : ∃ evs outs p outs' p', (Pool.withSize 1).run evs = .ok (outs, p) ∧
    (Pool.withSize 1).run (evs.filter (concerns hostA)) = .ok (outs', p') ∧
    answersFor hostA evs outs = [.closed [], .reply (.connecting hostA)] ∧
    outs' = [.closed [], .reply (.ready 10)] :=
  C136_displaced 0 hostA hostB (by decide) 10 11 (by decide)

end SeparateExamples

end Htrpc
