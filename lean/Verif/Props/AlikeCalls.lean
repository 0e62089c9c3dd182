/-
C148: what time it is does not matter to the calls of a pool.
-/
import Verif.Props.Alike
import Verif.Props.PoolMemory

namespace Htrpc
open Spec

/-- The pool with a clock that is ahead. -/
def Pool.ahead (k : Nat) (p : Pool) : Pool := { p with blacklist := p.blacklist.map fun e => (e.1, e.2 + k) }

theorem lookup_ahead (k : Nat) (a : Addr) (bl : List (Addr × Time)) :
    (bl.map fun e => (e.1, e.2 + k)).lookup a = (bl.lookup a).map (· + k) := by
  induction bl with
  | nil => rfl
  | cons e bl ih =>
    obtain ⟨b, t⟩ := e
    simp only [List.map_cons, List.lookup_cons, ih]
    cases a == b <;> rfl

theorem unlist_ahead (k : Nat) (a : Addr) (bl : List (Addr × Time)) :
    Pool.unlist a (bl.map fun e => (e.1, e.2 + k)) = (Pool.unlist a bl).map fun e => (e.1, e.2 + k) := by
  rw [Pool.unlist, Pool.unlist, List.filter_map]
  rfl

theorem enlist_ahead (k : Nat) (a : Addr) (t : Time) (bl : List (Addr × Time)) :
    Pool.enlist a (t + k) (bl.map fun e => (e.1, e.2 + k)) = (Pool.enlist a t bl).map fun e => (e.1, e.2 + k) := by
  rw [Pool.enlist, unlist_ahead]
  rfl

theorem acquire_ahead (k : Nat) (a : Addr) (p : Pool) :
    (p.ahead k).acquire a = (p.acquire a).bind fun x => .ok (x.1, x.2.ahead k) := by
  simp only [Pool.acquire, Pool.ahead]
  split
  · split <;> rfl
  · rfl

theorem handleAcquire_ahead (k : Nat) (a : Addr) (now : Time) (p : Pool) :
    (p.ahead k).handleAcquire a (now + k) = (p.handleAcquire a now).bind fun x => .ok (x.1, x.2.ahead k) := by
  have hl : (p.ahead k).blacklist.lookup a = (p.blacklist.lookup a).map (· + k) := lookup_ahead k a p.blacklist
  rw [Pool.handleAcquire, Pool.handleAcquire, hl]
  cases p.blacklist.lookup a with
  | none => exact acquire_ahead k a p
  | some u =>
    simp only [Option.map_some]
    by_cases h : u > now
    · rw [if_pos h, if_pos (show u + k > now + k from Nat.add_lt_add_right h k)]
      simp only [Pool.ahead, unlist_ahead, enlist_ahead]
      rfl
    · rw [if_neg h, if_neg (show ¬ u + k > now + k from fun hh => h (Nat.lt_of_add_lt_add_right hh))]
      refine Eq.trans ?_ (acquire_ahead k a { p with blacklist := Pool.unlist a p.blacklist })
      simp only [Pool.ahead, unlist_ahead]

theorem release_ahead (k : Nat) (a : Addr) (c : Conn) (p : Pool) :
    (p.ahead k).release a c = (p.release a c).bind fun x => .ok (x.1, x.2.ahead k) := by
  rw [Pool.release, Pool.release]
  by_cases h : p.seq + 1 < 2 ^ 64
  · rw [if_pos h, if_pos (show (p.ahead k).seq + 1 < 2 ^ 64 from h)]
    simp only [Pool.ahead]
    cases Pool.dropExceeded p.size (BTreeMap.insert ConnId.lt ⟨a, p.seq⟩ c p.connections)
      (BTreeMap.insert natLt p.seq a p.lru) <;> rfl
  · rw [if_neg h, if_neg (show ¬ (p.ahead k).seq + 1 < 2 ^ 64 from h)]
    rfl

/-- A command that the pool handles at a later time. -/
theorem step_ahead (k : Nat) (now : Time) (cmd : Cmd) (p : Pool) (h : now + k + p.suspended < timeEnd) :
    (p.ahead k).step (cmd.event (now + k)) = (p.step (cmd.event now)).bind fun x => .ok (x.1, x.2.ahead k) := by
  cases cmd with
  | acquire a i =>
    simp only [Cmd.event, Pool.step, handleAcquire_ahead]
    cases p.handleAcquire a now <;> rfl
  | release a c =>
    simp only [Cmd.event, Pool.step, release_ahead]
    cases p.release a c <;> rfl
  | blacklist a =>
    have h' : now + p.suspended < timeEnd :=
      Nat.lt_of_le_of_lt (Nat.add_le_add_right (Nat.le_add_right now k) _) h
    have e : now + k + p.suspended = now + p.suspended + k := Nat.add_right_comm _ _ _
    simp only [Cmd.event, Pool.step, Pool.handleBlacklist]
    rw [if_pos h', if_pos (show now + k + (p.ahead k).suspended < timeEnd from h)]
    simp only [Pool.ahead, e, enlist_ahead]
    rfl

/-- The system with a clock that is ahead. -/
def Sys.ahead (k : Nat) (s : Sys) : Sys := { s with pool := s.pool.map (·.ahead k) }

theorem send_ahead (k : Nat) (cmd : Cmd) (s : Sys) : (s.ahead k).send cmd = (s.send cmd).ahead k := by
  obtain ⟨pool, q, cs, n⟩ := s
  cases pool <;> rfl

theorem dropPool_ahead (k : Nat) (s : Sys) :
    (s.ahead k).dropPool = (s.dropPool.1, s.dropPool.2.ahead k) := by
  obtain ⟨pool, q, cs, n⟩ := s
  cases pool <;> rfl

theorem reply_ahead (k : Nat) (i : Nat) (a : Addr) (f : Pooled) (s : Sys) :
    (s.ahead k).reply i a f = ((s.reply i a f).1, (s.reply i a f).2.ahead k) := by
  simp only [Sys.reply, show (s.ahead k).calls = s.calls from rfl]
  split <;> rfl

theorem handle_ahead (k : Nat) (now : Time) (s : Sys)
    (h : ∀ p, s.pool = some p → now + k + p.suspended < timeEnd) :
    (s.ahead k).handle (now + k) = ((s.handle now).1, (s.handle now).2.ahead k) := by
  obtain ⟨pool, q, cs, n⟩ := s
  cases pool with
  | none => rfl
  | some p =>
    cases q with
    | nil => rfl
    | cons cmd q =>
      simp only [Sys.handle, Sys.ahead, Option.map_some, step_ahead k now cmd p (h p rfl)]
      cases p.step (cmd.event now) with
      | ok x =>
        obtain ⟨out, p'⟩ := x
        simp only [Res.bind]
        cases cmd <;> cases out <;> first | rfl | exact reply_ahead k _ _ _ ⟨some p', q, cs, n⟩
      | _ => rfl

variable [FloatText]

omit [FloatText] in
theorem settle_ahead (k : Nat) (i : Nat) (y : PCall) (c : Conn) (inner : CallInner) (s : Sys) (o : CallOutcome) :
    (s.ahead k).settle i y c inner o = ((s.settle i y c inner o).1, (s.settle i y c inner o).2.ahead k) := by
  obtain ⟨pool, q, cs, n⟩ := s
  cases o <;> first | rfl | (cases pool <;> rfl)

theorem poll_ahead (k : Nat) (i : Nat) (r : IoResult) (s : Sys) :
    (s.ahead k).poll i r = ((s.poll i r).1, (s.poll i r).2.ahead k) := by
  simp only [Sys.poll, show (s.ahead k).calls = s.calls from rfl]
  cases s.calls[i]? with
  | none => rfl
  | some y =>
    obtain ⟨p, a, st⟩ := y
    cases st with
    | waiting inner =>
      obtain ⟨pool, q, cs, n⟩ := s
      cases pool <;> rfl
    | replied inner f =>
      cases f with
      | ready c => exact settle_ahead k i _ c inner s _
      | failed => rfl
      | connecting b =>
        cases r with
        | connected =>
          have := settle_ahead k i ⟨p, a, .replied inner (.connecting b)⟩ s.next inner { s with next := s.next + 1 }
            (callStep p inner .connected)
          exact congrArg (fun x => (Effect.opened i b s.next :: x.1, x.2)) this
        | failed =>
          have := send_ahead k (.blacklist b) (s.setCall i ⟨p, a, .failed .other⟩)
          exact congrArg (fun x : Sys => ([Effect.refused i b], x)) this
        | _ => rfl
    | active c inner =>
      exact congrArg (fun x => (Effect.io i c :: x.1, x.2)) (settle_ahead k i _ c inner s _)
    | _ => rfl

omit [FloatText] in
theorem dropCall_ahead (k : Nat) (i : Nat) (s : Sys) :
    (s.ahead k).dropCall i = ((s.dropCall i).1, (s.dropCall i).2.ahead k) := by
  simp only [Sys.dropCall, show (s.ahead k).calls = s.calls from rfl]
  cases s.calls[i]? with
  | none => rfl
  | some y =>
    obtain ⟨p, a, st⟩ := y
    cases st with
    | replied inner f => cases f <;> rfl
    | _ => rfl

theorem step_clockAhead (k : Nat) (s : Sys) (e : SysEvent)
    (h : ∀ now, e = .handle now → ∀ p, s.pool = some p → now + k + p.suspended < timeEnd) :
    (s.ahead k).step (clockAhead k e) = ((s.step e).1, (s.step e).2.ahead k) := by
  cases e with
  | call p a v body =>
    have := send_ahead k (.acquire a s.calls.length) { s with calls := s.calls ++ [⟨p, a, .waiting (.new v body)⟩] }
    exact congrArg (fun x : Sys => (([] : List Effect), x)) this
  | handle now => exact handle_ahead k now s (h now rfl)
  | setSuspended d =>
    obtain ⟨pool, q, cs, n⟩ := s
    cases pool <;> rfl
  | dropPool => exact dropPool_ahead k s
  | poll i r => exact poll_ahead k i r s
  | dropCall i => exact dropCall_ahead k i s

omit [FloatText] in
/-- A pool changes the duration of suspensions only if it is told so. -/
theorem pool_step_suspended {p p' : Pool} {now : Time} {cmd : Cmd} {o : PoolOutput}
    (h : p.step (cmd.event now) = .ok (o, p')) : p'.suspended = p.suspended := by
  have hacq : ∀ (q q' : Pool) a f, q.acquire a = .ok (f, q') → q'.suspended = q.suspended := by
    intro q q' a f hq
    simp only [Pool.acquire] at hq
    split at hq
    · split at hq
      · cases hq; rfl
      · cases hq
    · cases hq; rfl
  cases cmd with
  | acquire a i =>
    obtain ⟨⟨f, q⟩, h1, h2⟩ := Res.bind_eq_ok.1 h
    cases h2
    simp only [Pool.handleAcquire] at h1
    split at h1
    · split at h1
      · cases h1; rfl
      · exact hacq { p with blacklist := Pool.unlist a p.blacklist } _ _ _ h1
    · exact hacq _ _ _ _ h1
  | release a c =>
    obtain ⟨⟨cs, q⟩, h1, h2⟩ := Res.bind_eq_ok.1 h
    cases h2
    simp only [Pool.release] at h1
    split at h1
    · obtain ⟨⟨x, y, z⟩, -, h3⟩ := Res.bind_eq_ok.1 h1
      cases h3
      rfl
    · cases h1
  | blacklist a =>
    obtain ⟨q, h1, h2⟩ := Res.bind_eq_ok.1 h
    cases h2
    simp only [Pool.handleBlacklist] at h1
    split at h1
    · cases h1; rfl
    · cases h1

theorem sys_step_suspended (s : Sys) (e : SysEvent) (p' : Pool) (h : (s.step e).2.pool = some p') :
    e = .setSuspended p'.suspended ∨ ∃ p, s.pool = some p ∧ p'.suspended = p.suspended := by
  cases e with
  | call p a v body => exact .inr ⟨p', by simpa [Sys.step, Sys.call, Sys.send_pool] using h, rfl⟩
  | handle now =>
    rcases handle_change now s with h' | h' | ⟨p, q, cmd, o, h1, h2, h3, h4⟩
    · have := h.symm.trans h'.1
      cases this
    · exact .inr ⟨p', h'.1 ▸ h, rfl⟩
    · have := h.symm.trans h2
      cases this
      exact .inr ⟨p, h1, pool_step_suspended h4⟩
  | setSuspended d =>
    obtain ⟨p, -, rfl⟩ := Option.map_eq_some_iff.1 h
    exact .inl rfl
  | dropPool =>
    change s.dropPool.2.pool = _ at h
    rw [Sys.dropPool_pool] at h
    cases h
  | poll i r => exact .inr ⟨p', (poll_change i r s).1 ▸ h, rfl⟩
  | dropCall i => exact .inr ⟨p', (dropCall_change i s).1 ▸ h, rfl⟩

theorem run_clockAhead (k : Nat) (evs : List SysEvent) (s : Sys)
    (h : ∀ now, .handle now ∈ evs → (∀ p, s.pool = some p → now + k + p.suspended < timeEnd) ∧
      ∀ d, .setSuspended d ∈ evs → now + k + d < timeEnd) :
    Sys.run (evs.map (clockAhead k)) (s.ahead k) = ((Sys.run evs s).1, (Sys.run evs s).2.ahead k) := by
  induction evs generalizing s with
  | nil => rfl
  | cons e evs ih =>
    have h1 := step_clockAhead k s e fun now he => (h now (he ▸ .head _)).1
    have h2 := ih (s.step e).2 fun now hn => ⟨fun p' hp' => by
      rcases sys_step_suspended s e p' hp' with he | ⟨p, hp, hs⟩
      · exact (h now (.tail _ hn)).2 _ (he ▸ .head _)
      · rw [hs]
        exact (h now (.tail _ hn)).1 p hp, fun d hd => (h now (.tail _ hn)).2 d (.tail _ hd)⟩
    simp only [List.map_cons, Sys.run, h1, h2]

/-- **C148.** What time it is does not matter to calls: with a clock that is ahead the same happens to the same
connections, and all calls come equally far with the same results. -/
theorem C148_calls (size k : Nat) (evs : List SysEvent) (h : CanBeTold k evs) :
    (Sys.run (evs.map (clockAhead k)) (.new size)).1 = (Sys.run evs (.new size)).1 ∧
      (Sys.run (evs.map (clockAhead k)) (.new size)).2.calls = (Sys.run evs (.new size)).2.calls := by
  have := run_clockAhead k evs (.new size) fun now hn => ⟨fun p hp => by cases hp; exact (h now hn).1, (h now hn).2⟩
  have e : (Sys.new size).ahead k = .new size := rfl
  rw [e] at this
  rw [this]
  exact ⟨rfl, rfl⟩

namespace AlikeCallsExamples

private def x : Addr := ⟨1, 80, 0⟩

/-- A call cannot connect; another call for the same address is rejected. -/
private def evs (p : Proc) (v : Val) : List SysEvent :=
  [.call p x v [], .handle 5, .poll 0 .failed, .handle 6, .call p x v [], .handle 7, .poll 1 .failed]

example (p : Proc) (v : Val) : (Sys.run (evs p v) (.new 1)).1 = [.refused 0 x, .reported x] := rfl

example (p : Proc) (v : Val) : ((Sys.run (evs p v) (.new 1)).2.calls.map fun y => y.st) = [.failed .other, .failed .other] :=
  rfl

/-- The hypothesis of the theorem holds. -/
example (p : Proc) (v : Val) : CanBeTold 1000 (evs p v) := by
  intro now h
  refine ⟨?_, fun d hd => by simp [evs] at hd⟩
  simp only [evs, List.mem_cons, SysEvent.handle.injEq, List.not_mem_nil, reduceCtorEq, false_or, or_false] at h
  rcases h with rfl | rfl | rfl <;> decide

end AlikeCallsExamples

end Htrpc
