/-
C135: for how long calls to an address are rejected after connecting to it failed.
-/
import Verif.Props.Backoff

namespace Htrpc
open Spec

/-- The entry of `a` is the one that the last report `r` made, and it is there until its end was `seen`. -/
def Track (a : Addr) (s : Sys) (d : Nat) (r : Option (Time × Nat)) (seen : List Time) : Prop :=
  ∀ p, s.pool = some p → p.suspended = d ∧
    (∀ u, p.blacklist.lookup a = some u → ∃ t d', r = some (t, d') ∧ u = t + d') ∧
    (∀ t d', r = some (t, d') → p.blacklist.lookup a = some (t + d') ∨ ∃ n ∈ seen, t + d' ≤ n)

theorem track_same {a : Addr} {s s' : Sys} {d : Nat} {r : Option (Time × Nat)} {seen : List Time}
    (h : Track a s d r seen) (hp : s'.pool = s.pool) : Track a s' d r seen := by
  rw [Track, hp]; exact h

theorem track_more {a : Addr} {s : Sys} {d : Nat} {r : Option (Time × Nat)} {seen : List Time}
    (h : Track a s d r seen) (n : Time) : Track a s d r (seen ++ [n]) := by
  intro p hp
  obtain ⟨h1, h2, h3⟩ := h p hp
  exact ⟨h1, h2, fun t d' e => (h3 t d' e).imp_right fun ⟨n, h, h'⟩ => ⟨n, List.mem_append_left _ h, h'⟩⟩

variable [FloatText]

theorem track_handle {a : Addr} {d : Nat} {log : List Effect} {s : Sys} {r : Option (Time × Nat)}
    {seen : List Time} (hi : Sys.Inv log s) (h : Track a s d r seen) (now : Time) :
    Track a (s.handle now).2 d (if .reported a ∈ (s.handle now).1 then some (now, d) else r) (seen ++ [now]) := by
  cases hp : s.pool with
  | none =>
    have : s.handle now = ([], s) := by unfold Sys.handle; rw [hp]
    rw [this]
    exact track_more h now
  | some p =>
  cases hq : s.queue with
  | nil =>
    have : s.handle now = ([], s) := by unfold Sys.handle; rw [hp, hq]
    rw [this]
    exact track_more h now
  | cons cmd q =>
  have hl := hi.pool
  rw [hp] at hl
  obtain ⟨size, ip, hl, -⟩ := hl
  obtain ⟨h1, h2, h3⟩ := h p hp
  rw [hl.blacklist a] at h2 h3
  have gone : Track a s.dropPool.2 d (if .reported a ∈ s.dropPool.1 then some (now, d) else r) (seen ++ [now]) := by
    intro p'' hp''
    rw [Sys.dropPool_pool] at hp''; cases hp''
  unfold Sys.handle
  simp only [hp, hq]
  cases hs : p.step (Cmd.event now cmd) with
  | err e => exact gone
  | panic => exact gone
  | ok x =>
  obtain ⟨o, p'⟩ := x
  obtain ⟨p'', e1, e2, -⟩ := step_like' hl _ (room_of_step hs)
  rw [hs] at e1
  obtain ⟨-, rfl⟩ := Prod.mk.inj (Res.ok.inj e1)
  have hsusp : p'.suspended = d := by
    rw [e2.duration, duration_step, ← h1, hl.duration]
    cases cmd <;> rfl
  have hnew := e2.blacklist a
  -- the entry stays, or its end has come
  have keep : ∀ s' : Sys, s'.pool = some p' → (p'.blacklist.lookup a = ip.suspended a ∨
      (p'.blacklist.lookup a = none ∧ ∀ u, ip.suspended a = some u → u ≤ now)) →
      Track a s' d r (seen ++ [now]) := by
    intro s' hs' hk p'' hp''
    rw [hs'] at hp''
    cases hp''
    refine ⟨hsusp, ?_, ?_⟩
    · intro u hu
      rcases hk with hk | ⟨hk, -⟩
      · exact h2 u (hk ▸ hu)
      · rw [hk] at hu; cases hu
    · intro t d' hr
      rcases h3 t d' hr with h4 | ⟨n, h4, h5⟩
      · rcases hk with hk | ⟨-, hk⟩
        · exact .inl (hk.trans h4)
        · exact .inr ⟨now, by simp, hk _ h4⟩
      · exact .inr ⟨n, List.mem_append_left _ h4, h5⟩
  cases cmd with
  | acquire b i =>
    have hk : p'.blacklist.lookup a = ip.suspended a ∨
        (p'.blacklist.lookup a = none ∧ ∀ u, ip.suspended a = some u → u ≤ now) := by
      rw [hnew]
      simp only [Cmd.event, IdlePool.step]
      split
      · exact .inl rfl
      · rename_i hn
        by_cases hb : a = b
        · subst hb
          refine .inr ⟨?_, fun u hu => Nat.not_lt.1 fun h => hn ⟨u, hu, h⟩⟩
          split <;> simp
        · refine .inl ?_
          split <;> simp [hb]
    cases o with
    | reply f =>
      simp only
      rw [if_neg]
      · exact keep _ (reply_pool ..) hk
      · unfold Sys.reply
        split
        · cases f <;> simp
        · cases f <;> simp
    | _ => exact keep _ rfl hk
  | release b c =>
    have hk : p'.blacklist.lookup a = ip.suspended a := by rw [hnew]; rfl
    cases o with
    | closed cs =>
      simp only
      rw [if_neg (by simp)]
      exact keep _ rfl (.inl hk)
    | _ => exact keep _ rfl (.inl hk)
  | blacklist b =>
    simp only [List.mem_singleton, Effect.reported.injEq]
    simp only [Cmd.event, IdlePool.step] at hnew
    by_cases hb : a = b
    · rw [if_pos hb] at hnew ⊢
      intro p'' hp''
      cases hp''
      rw [← hl.duration, h1] at hnew
      refine ⟨hsusp, fun u hu => ⟨now, d, rfl, ?_⟩, fun t d' e => ?_⟩
      · rw [hnew] at hu; cases hu; rfl
      · cases e
        exact .inl hnew
    · rw [if_neg hb] at hnew ⊢
      exact keep _ rfl (.inl hnew)

theorem track_run {a : Addr} {d : Nat} {log : List Effect} {s : Sys} {r : Option (Time × Nat)}
    {seen : List Time} (hi : Sys.Inv log s) (h : Track a s d r seen) (evs : List SysEvent) :
    ∃ d', Track a (Sys.run evs s).2 d' (lastReport a evs s d r) (seen ++ handledAt evs) := by
  induction evs generalizing log s d r seen with
  | nil => exact ⟨d, by simpa [handledAt, lastReport, Sys.run] using h⟩
  | cons e evs ih =>
    have hi' := Sys.inv_step hi e
    cases e with
    | handle now =>
      obtain ⟨d', h'⟩ := ih hi' (track_handle hi h now)
      refine ⟨d', ?_⟩
      simp only [handledAt, lastReport, Sys.run]
      rw [List.append_assoc] at h'
      exact h'
    | setSuspended d' =>
      refine ih hi' ?_
      intro p' hp'
      simp only [Option.map_eq_some_iff] at hp'
      obtain ⟨p, h1, rfl⟩ := hp'
      exact ⟨rfl, (h p h1).2⟩
    | call p b v body =>
      refine ih hi' (track_same h ?_)
      show (s.call p b v body).pool = _
      rw [Sys.call, Sys.send_pool]
    | dropCall i =>
      refine ih hi' (track_same h ?_)
      show (s.dropCall i).2.pool = _
      rw [Sys.dropCall]
      split
      · rfl
      · split <;> rfl
    | poll i x =>
      refine ih hi' (track_same h ?_)
      show (s.poll i x).2.pool = _
      rw [Sys.poll]
      split
      · rfl
      · split
        · split <;> rfl
        · exact settle_pool ..
        · rfl
        · split
          · exact settle_pool ..
          · rw [Sys.send_pool]; rfl
          · rfl
        · exact settle_pool ..
        · rfl
    | dropPool =>
      refine ih hi' ?_
      intro p hp
      have hp : s.dropPool.2.pool = some p := hp
      rw [Sys.dropPool_pool] at hp; cases hp

omit [FloatText] in
/-- What the pool answers. -/
theorem handle_answer {log : List Effect} {s : Sys} (hi : Sys.Inv log s) (now : Time) (i : Nat) (y : PCall)
    (inner : CallInner) (f : Pooled) (hy : s.calls[i]? = some y) (hst : y.st = .waiting inner)
    (hy' : (s.handle now).2.calls[i]? = some { y with st := .replied inner f }) :
    ∃ p, s.pool = some p ∧ (f = .failed ↔ ∃ u, p.blacklist.lookup y.addr = some u ∧ now < u) := by
  have hno : ∀ s' : Sys, s'.calls = s.calls →
      s'.calls[i]? ≠ some { y with st := .replied inner f } := by
    intro s' h h'
    rw [h, hy] at h'
    have := congrArg (fun z => z.map PCall.st) h'
    simp [hst] at this
  unfold Sys.handle at hy'
  split at hy'
  · rename_i p cmd q hp hq
    refine ⟨p, hp, ?_⟩
    have hl := hi.pool
    rw [hp] at hl
    obtain ⟨size, ip, hl, -⟩ := hl
    split at hy'
    · rename_i o p' hs
      obtain ⟨p'', e1, e2, -⟩ := step_like' hl _ (room_of_step hs)
      rw [hs] at e1
      dsimp only at hy'
      split at hy'
      · rename_i b j g
        unfold Sys.reply at hy'
        split at hy'
        · next pr b' inner' hj =>
          by_cases e : j = i
          · subst e
            rw [Sys.setCall, set_get_self hj] at hy'
            have hj' : s.calls[j]? = some ⟨pr, b', .waiting inner'⟩ := hj
            rw [hy] at hj'
            cases hj'
            have hb : b' = b := by
              have := hi.acquires b j (by rw [hq]; exact List.mem_cons_self)
              rw [Sys.addr_of hy] at this
              cases this
              rfl
            subst hb
            cases hy'
            rw [hl.blacklist]
            obtain ⟨ho, -⟩ := Prod.mk.inj (Res.ok.inj e1)
            simp only [Cmd.event, IdlePool.step] at ho
            split at ho
            · rename_i hu
              cases ho
              exact ⟨fun _ => hu, fun _ => rfl⟩
            · rename_i hu
              split at ho <;> cases ho <;> exact ⟨fun h => (by cases h), fun h => absurd h hu⟩
          · rw [Sys.setCall, set_get hy e] at hy'
            exact absurd (hy.trans hy') (hno s rfl)
        · exact absurd hy' (hno _ rfl)
      all_goals exact absurd hy' (hno _ rfl)
    · exact absurd hy' (hno _ (Sys.dropPool_calls s))
  · exact absurd hy' (hno _ rfl)

theorem track_reach (size : Nat) (a : Addr) (evs : List SysEvent) :
    ∃ d, Track a (Sys.run evs (.new size)).2 d (lastReport a evs (.new size) 60000000000 none) (handledAt evs) := by
  have := track_run (a := a) (d := 60000000000) (r := none) (seen := []) (Sys.inv_new size) (by
    intro p hp
    cases hp
    exact ⟨rfl, fun u h => (by cases h), fun t d h => (by cases h)⟩) evs
  simpa using this

/-- **C135.** The pool rejects a call only while the suspension lasts that the last report about its address
began. No assumption about the clock is made. -/
theorem C135_rejected (size : Nat) (evs : List SysEvent) (now : Time) (i : Nat) (y : PCall) (inner : CallInner)
    (hy : (Sys.run evs (.new size)).2.calls[i]? = some y) (hst : y.st = .waiting inner)
    (hy' : (Sys.run (evs ++ [.handle now]) (.new size)).2.calls[i]? =
      some { y with st := .replied inner .failed }) :
    ∃ t d, lastReport y.addr evs (.new size) 60000000000 none = some (t, d) ∧ now < t + d := by
  have hi := Sys.inv_run (Sys.inv_new size) evs
  rw [sys_run_append] at hy'
  obtain ⟨p, hp, h⟩ := handle_answer hi now i y inner .failed hy hst hy'
  obtain ⟨u, hu, hlt⟩ := h.1 rfl
  obtain ⟨d', ht⟩ := track_reach size y.addr evs
  obtain ⟨t, d, h1, h2⟩ := (ht p hp).2.1 u hu
  exact ⟨t, d, h1, h2 ▸ hlt⟩

/-- **C135.** With a clock that does not go back the pool rejects exactly the calls that it answers before
the suspension is over. All others get a connection, or make one: a server that is back is tried again by the
first call that is answered afterwards. -/
theorem C135_iff (size : Nat) (evs : List SysEvent) (now : Time) (i : Nat) (y : PCall) (inner : CallInner)
    (f : Pooled) (hc : ∀ n ∈ handledAt evs, n ≤ now)
    (hy : (Sys.run evs (.new size)).2.calls[i]? = some y) (hst : y.st = .waiting inner)
    (hy' : (Sys.run (evs ++ [.handle now]) (.new size)).2.calls[i]? = some { y with st := .replied inner f }) :
    f = .failed ↔ ∃ t d, lastReport y.addr evs (.new size) 60000000000 none = some (t, d) ∧ now < t + d := by
  refine ⟨fun h => C135_rejected size evs now i y inner hy hst (h ▸ hy'), ?_⟩
  rintro ⟨t, d, h1, h2⟩
  have hi := Sys.inv_run (Sys.inv_new size) evs
  rw [sys_run_append] at hy'
  obtain ⟨p, hp, h⟩ := handle_answer hi now i y inner f hy hst hy'
  obtain ⟨d', ht⟩ := track_reach size y.addr evs
  refine h.2 ?_
  rcases (ht p hp).2.2 t d h1 with h3 | ⟨n, h3, h4⟩
  · exact ⟨_, h3, h2⟩
  · exact absurd (Nat.lt_of_lt_of_le h2 (Nat.le_trans h4 (hc n h3))) (Nat.lt_irrefl _)

namespace RecoveryExamples
open BackoffExamples

/-- A call that is refused, the report about it, and another call. -/
def again (a : Addr) (c : Proc) (v : Val) (body : Bytes) : List SysEvent :=
  refusal a c v body ++ [.handle 0, .call c a v body]

theorem again_run (a : Addr) (c : Proc) (v : Val) (body : Bytes) : (Sys.run (again a c v body) (.new 1)).2 =
    ⟨some { Pool.withSize 1 with blacklist := [(a, 60000000000)] }, [.acquire a 1],
      [⟨c, a, .failed .other⟩, ⟨c, a, .waiting (.new v body)⟩], 0⟩ := by
  have : (60000000000 : Nat) < timeEnd := by decide
  rw [again, sys_run_append, refusal_run]
  simp [Sys.run, Sys.step, Sys.handle, Cmd.event, Pool.step, Pool.handleBlacklist, Pool.withSize, this, bind, Res.bind,
    Sys.call, Sys.send, Pool.enlist, Pool.unlist]

theorem again_report (a : Addr) (c : Proc) (v : Val) (body : Bytes) :
    lastReport a (again a c v body) (.new 1) 60000000000 none = some (0, 60000000000) := by
  have : (60000000000 : Nat) < timeEnd := by decide
  simp [again, refusal, lastReport, Sys.new, Sys.step, Sys.call, Sys.send, Sys.handle, Cmd.event, Pool.step,
    Pool.handleAcquire, Pool.withSize, Pool.acquire, BTreeMap.firstFrom, Sys.reply, Sys.setCall, Sys.poll, bind, Res.bind,
    Pool.handleBlacklist, this]

omit [FloatText] in
theorem again_times (a : Addr) (c : Proc) (v : Val) (body : Bytes) : handledAt (again a c v body) = [0, 0] := rfl

/-- `C135_iff`: whatever the second call is answered, it is a rejection if and only if the minute is not over. -/
example (a : Addr) (c : Proc) (v : Val) (body : Bytes) (now : Time) (f : Pooled)
    (h : (Sys.run (again a c v body ++ [.handle now]) (.new 1)).2.calls[1]? =
      some ⟨c, a, .replied (.new v body) f⟩) : f = .failed ↔ now < 60000000000 := by
  have := C135_iff 1 (again a c v body) now 1 ⟨c, a, .waiting (.new v body)⟩ (.new v body) f
    (by rw [again_times]; simp) (by rw [again_run]; rfl) rfl h
  rw [this, again_report]
  constructor
  · rintro ⟨t, d, h1, h2⟩
    cases h1
    exact h2
  · exact fun h => ⟨0, 60000000000, rfl, h⟩

/-- It is rejected at the end of the minute, -/
example (a : Addr) (c : Proc) (v : Val) (body : Bytes) :
    (Sys.run (again a c v body ++ [.handle 59999999999]) (.new 1)).2.calls[1]? =
      some ⟨c, a, .replied (.new v body) .failed⟩ := by
  rw [sys_run_append, again_run]
  simp [Sys.run, Sys.step, Sys.handle, Cmd.event, Pool.step, Pool.withSize, bind, Res.bind,
    Pool.handleAcquire, Sys.reply, Sys.setCall]

/-- and connects when the minute is over. -/
example (a : Addr) (c : Proc) (v : Val) (body : Bytes) :
    (Sys.run (again a c v body ++ [.handle 60000000000]) (.new 1)).2.calls[1]? =
      some ⟨c, a, .replied (.new v body) (.connecting a)⟩ := by
  rw [sys_run_append, again_run]
  simp [Sys.run, Sys.step, Sys.handle, Cmd.event, Pool.step, Pool.withSize, bind, Res.bind,
    Pool.handleAcquire, Pool.acquire, BTreeMap.firstFrom, Sys.reply, Sys.setCall]

end RecoveryExamples

end Htrpc
