/-
C114: what ends a pool.
-/
import Verif.Props.OpenConns

set_option linter.unusedSectionVars false

namespace Htrpc
open Spec

/-- How many connections were put back. -/
def putBack (log : List Effect) : Nat :=
  (log.filter fun | .returned _ _ _ => true | _ => false).length

/-- How many connections are on their way back. -/
def inQueue (q : List Cmd) : Nat :=
  (q.filter fun | .release _ _ => true | _ => false).length

theorem putBack_append (a b : List Effect) : putBack (a ++ b) = putBack a + putBack b := by
  simp [putBack]

theorem putBack_closed (cs : List Conn) : putBack (cs.map .closed) = 0 := by
  simp [putBack]

/-- Everything that was put back was or will be counted by the pool, and the pool has one of these
durations. -/
def Counting (D : Nat → Prop) (log : List Effect) (s : Sys) : Prop :=
  ∃ p, s.pool = some p ∧ p.seq + inQueue s.queue = putBack log ∧ D p.suspended

section
variable {D : Nat → Prop}

theorem counting_other {log es : List Effect} {s s' : Sys} (h : Counting D log s) (he : putBack es = 0)
    (hp : s'.pool = s.pool) (hq : inQueue s'.queue = inQueue s.queue) : Counting D (log ++ es) s' := by
  obtain ⟨p, h1, h2, h3⟩ := h
  exact ⟨p, hp.trans h1, by rw [putBack_append, he, hq, h2]; rfl, h3⟩

theorem inQueue_send {s : Sys} {cmd : Cmd} (hc : ∀ a c, cmd ≠ .release a c) :
    inQueue (s.send cmd).queue = inQueue s.queue := by
  unfold Sys.send
  split
  · rfl
  · cases cmd with
    | release a c => exact absurd rfl (hc a c)
    | _ => simp [inQueue]

theorem counting_settle {log pre : List Effect} {s : Sys} (h : Counting D log s) (hpre : putBack pre = 0)
    (i : Nat) (y : PCall) (c : Conn) (inner : CallInner) (o : CallOutcome) :
    Counting D (log ++ (pre ++ (s.settle i y c inner o).1)) (s.settle i y c inner o).2 := by
  cases o with
  | ready v body =>
    obtain ⟨p, h1, h2, h3⟩ := h
    refine ⟨p, by simp [Sys.settle, Sys.setCall, Sys.send_pool, h1], ?_, h3⟩
    simp only [Sys.settle, h1, putBack_append, hpre, ← h2, Sys.send, Sys.setCall]
    simp [inQueue, putBack]
    omega
  | _ =>
    refine counting_other h ?_ rfl rfl
    rw [putBack_append, hpre]
    rfl

theorem counting_handle {log : List Effect} {s : Sys} (hi : Sys.Inv log s) (h : Counting D log s) (now : Time)
    (ht : ∀ d, D d → now + d < timeEnd) (hr : putBack log < 2 ^ 64) :
    Counting D (log ++ (s.handle now).1) (s.handle now).2 := by
  obtain ⟨p, h1, h2, h3⟩ := h
  have hp := hi.pool
  rw [h1] at hp
  obtain ⟨size, ip, hl, -⟩ := hp
  unfold Sys.handle
  rw [h1]
  cases hq : s.queue with
  | nil =>
    simp only [List.append_nil]
    exact ⟨p, h1, h2, h3⟩
  | cons cmd q =>
    rw [hq] at h2
    have hroom : p.Room (cmd.event now) := by
      cases cmd with
      | acquire a i => trivial
      | release a c =>
        show p.seq + 1 < 2 ^ 64
        have : inQueue (.release a c :: q) = inQueue q + 1 := by simp [inQueue]
        omega
      | blacklist a => exact ht _ h3
    obtain ⟨p', e1, e2, e3⟩ := step_like' hl (cmd.event now) hroom
    have hd : p'.suspended = p.suspended := by
      rw [e2.duration, duration_step, hl.duration]
      cases cmd <;> rfl
    rw [← hd] at h3
    simp only [e1]
    cases cmd with
    | acquire a i =>
      have hs : Counting D log { s with pool := some p', queue := q } :=
        ⟨p', rfl, by rw [e3, ← h2]; simp [inQueue, releases, Cmd.event], h3⟩
      have : ∃ f, (ip.step size (.acquire a now)).1 = .reply f := by
        simp only [IdlePool.step]
        split
        · exact ⟨_, rfl⟩
        · split <;> exact ⟨_, rfl⟩
      obtain ⟨f, hf⟩ := this
      simp only [Cmd.event, hf]
      generalize ({ s with pool := some p', queue := q } : Sys) = s' at hs
      unfold Sys.reply
      split
      · refine counting_other hs ?_ rfl rfl
        cases f <;> rfl
      · refine counting_other hs ?_ rfl rfl
        cases f <;> rfl
    | release a c =>
      refine ⟨p', rfl, ?_, h3⟩
      have : inQueue (.release a c :: q) = inQueue q + 1 := by simp [inQueue]
      simp only [Cmd.event, IdlePool.step, putBack_append, putBack_closed, ← h2, e3]
      simp only [releases, List.filter, List.length, this]
      omega
    | blacklist a =>
      refine ⟨p', rfl, ?_, h3⟩
      simp only [Cmd.event, putBack_append, ← h2, e3]
      simp [inQueue, releases, putBack]

variable [FloatText]

theorem counting_step {log : List Effect} {s : Sys} (hi : Sys.Inv log s) (h : Counting D log s)
    (e : SysEvent) (hdrop : e ≠ .dropPool) (hd : ∀ d, e = .setSuspended d → D d)
    (ht : ∀ now, e = .handle now → ∀ d, D d → now + d < timeEnd) (hr : putBack log < 2 ^ 64) :
    Counting D (log ++ (s.step e).1) (s.step e).2 := by
  have hsame : Counting D (log ++ []) s := by rw [List.append_nil]; exact h
  cases e with
  | call p a v body =>
    refine counting_other h rfl ?_ ?_
    · simp [Sys.step, Sys.call, Sys.send_pool]
    · exact inQueue_send (by intro _ _ h; cases h)
  | handle now => exact counting_handle hi h now (ht now rfl) hr
  | setSuspended d =>
    obtain ⟨p, h1, h2, -⟩ := h
    exact ⟨p.setSuspended d, by simp [Sys.step, h1], by simp [Sys.step, h2, Pool.setSuspended], hd d rfl⟩
  | dropPool => exact absurd rfl hdrop
  | poll i r =>
    rw [Sys.step, Sys.poll]
    split
    · exact hsame
    · next y hy =>
      split
      · split
        · exact hsame
        · exact counting_other h rfl rfl rfl
      · exact counting_settle (pre := []) h rfl ..
      · exact counting_other h rfl rfl rfl
      · split
        · exact counting_settle (pre := [_]) (s := { s with next := s.next + 1 }) (by
            obtain ⟨p, h1⟩ := h
            exact ⟨p, h1⟩) rfl ..
        · refine counting_other h rfl ?_ ?_
          · simp [Sys.send_pool, Sys.setCall]
          · exact inQueue_send (by intro _ _ h; cases h)
        · exact hsame
      · exact counting_settle (pre := [_]) h rfl ..
      · exact hsame
  | dropCall i =>
    rw [Sys.step, Sys.dropCall]
    split
    · exact hsame
    · split <;> first | exact hsame | exact counting_other h rfl rfl rfl

theorem counting_run {log : List Effect} {s : Sys} (hi : Sys.Inv log s) (h : Counting D log s)
    (evs : List SysEvent) (hdrop : .dropPool ∉ evs) (hd : ∀ d, .setSuspended d ∈ evs → D d)
    (ht : ∀ now, .handle now ∈ evs → ∀ d, D d → now + d < timeEnd)
    (hr : putBack (log ++ (Sys.run evs s).1) < 2 ^ 64) :
    Counting D (log ++ (Sys.run evs s).1) (Sys.run evs s).2 := by
  induction evs generalizing log s with
  | nil => rw [Sys.run, List.append_nil]; exact h
  | cons e es ih =>
    simp only [Sys.run, ← List.append_assoc] at hr ⊢
    have hr' := hr
    simp only [putBack_append] at hr'
    refine ih (Sys.inv_step hi e) (counting_step hi h e (fun he => hdrop (he ▸ List.mem_cons_self ..))
      (fun d he => hd d (he ▸ List.mem_cons_self ..)) (fun n he => ht n (he ▸ List.mem_cons_self ..)) (by omega))
      (fun h => hdrop (List.mem_cons_of_mem _ h)) (fun d h => hd d (List.mem_cons_of_mem _ h))
      (fun n h => ht n (List.mem_cons_of_mem _ h)) hr

/-- **C114.** A pool that is not dropped lives on, whatever its calls do: as long as fewer than 2^64
connections were put back and all suspensions end before the second 2^63. -/
theorem C114_alive (size : Nat) (evs : List SysEvent) (hdrop : .dropPool ∉ evs)
    (hr : ((Sys.run evs (.new size)).1.filter fun | .returned _ _ _ => true | _ => false).length < 2 ^ 64)
    (ht : ∀ d, (d = 60000000000 ∨ .setSuspended d ∈ evs) → ∀ now, .handle now ∈ evs →
      now + d < 2 ^ 63 * 1000000000) :
    (Sys.run evs (.new size)).2.pool ≠ none := by
  have := counting_run (D := fun d => d = 60000000000 ∨ .setSuspended d ∈ evs) (Sys.inv_new size)
    ⟨_, rfl, rfl, .inl rfl⟩ evs hdrop (fun d h => .inr h) (fun n hn d hd => ht d hd n hn) hr
  obtain ⟨p, h, -⟩ := this
  rw [h]
  simp

/-! ### Suspensions that never end -/

/-- Nothing is suspended. -/
def Unreported (es : List Effect) : Prop := ∀ a, .reported a ∉ es

/-- The pool, if there is one, has this duration. -/
def Lasting (d : Nat) (s : Sys) : Prop := ∀ p, s.pool = some p → p.suspended = d

theorem lasting_of_pool {d : Nat} {s s' : Sys} (h : Lasting d s) (hp : s'.pool = s.pool) : Lasting d s' :=
  fun p h1 => h p (hp ▸ h1)

theorem settle_unreported (i : Nat) (y : PCall) (c : Conn) (inner : CallInner) (s : Sys) (o : CallOutcome) :
    Unreported (s.settle i y c inner o).1 := by
  intro a
  cases o with
  | ready v b =>
    simp only [Sys.settle]
    split <;> simp
  | _ => simp [Sys.settle]

theorem reply_unreported (i : Nat) (a : Addr) (f : Pooled) (s : Sys) : Unreported (s.reply i a f).1 := by
  intro b
  unfold Sys.reply
  split <;> cases f <;> simp

theorem lasting_step {d : Nat} {log : List Effect} {s : Sys} (hi : Sys.Inv log s) (h : Lasting d s)
    (e : SysEvent) (hd : ∀ d', e ≠ .setSuspended d') (ht : ∀ now, e = .handle now → timeEnd ≤ now + d) :
    Lasting d (s.step e).2 ∧ Unreported (s.step e).1 := by
  have hdrop : Lasting d s.dropPool.2 ∧ Unreported s.dropPool.1 := by
    refine ⟨fun p h => ?_, fun a => ?_⟩
    · rw [Sys.dropPool_pool] at h; cases h
    · unfold Sys.dropPool; split <;> simp
  have hsame : Lasting d s ∧ Unreported [] := ⟨h, fun a => by simp⟩
  cases e with
  | call p a v body =>
    exact ⟨lasting_of_pool h (by simp [Sys.step, Sys.call, Sys.send_pool]), hsame.2⟩
  | handle now =>
    rw [Sys.step, Sys.handle]
    split
    · rename_i p cmd q hp hq
      split
      · rename_i o p' hs
        have hl := hi.pool
        rw [hp] at hl
        obtain ⟨size, ip, hl, -⟩ := hl
        obtain ⟨p'', e1, e2, -⟩ := step_like' hl _ (room_of_step hs)
        rw [hs] at e1
        cases e1
        have hd' : p'.suspended = d := by
          rw [e2.duration, duration_step, ← h p hp, hl.duration]
          cases cmd <;> rfl
        have hw : ∀ s' : Sys, s'.pool = some p' → Lasting d s' := by
          intro s' h3 p'' h4
          rw [h3] at h4
          cases h4
          exact hd'
        cases cmd with
        | acquire a i =>
          split
          · exact ⟨hw _ (reply_pool ..), reply_unreported _ _ _ _⟩
          · rename_i h1 _; cases h1
          · rename_i h1; cases h1
          · exact ⟨hw _ rfl, hsame.2⟩
        | release a c =>
          split
          · rename_i h1 _; cases h1
          · exact ⟨hw _ rfl, fun a => by simp⟩
          · rename_i h1; cases h1
          · exact ⟨hw _ rfl, hsame.2⟩
        | blacklist a =>
          have h1 : now + p.suspended < timeEnd := room_of_step hs
          have := ht now rfl
          rw [h p hp] at h1
          exact absurd h1 (Nat.not_lt.2 this)
      · exact hdrop
    · exact hsame
  | setSuspended d' => exact absurd rfl (hd d')
  | dropPool => exact hdrop
  | poll i r =>
    rw [Sys.step, Sys.poll]
    split
    · exact hsame
    · split
      · split
        · exact hsame
        · exact ⟨lasting_of_pool h rfl, hsame.2⟩
      · exact ⟨lasting_of_pool h (settle_pool ..), settle_unreported _ _ _ _ _ _⟩
      · exact ⟨lasting_of_pool h rfl, hsame.2⟩
      · split
        · refine ⟨lasting_of_pool h (settle_pool ..), fun a => ?_⟩
          simpa using settle_unreported _ _ _ _ _ _ a
        · exact ⟨lasting_of_pool h (by simp [Sys.send_pool, Sys.setCall]), fun a => by simp⟩
        · exact hsame
      · refine ⟨lasting_of_pool h (settle_pool ..), fun a => ?_⟩
        simpa using settle_unreported _ _ _ _ _ _ a
      · exact hsame
  | dropCall i =>
    rw [Sys.step, Sys.dropCall]
    split
    · exact hsame
    · split <;> first | exact hsame | exact ⟨lasting_of_pool h rfl, fun a => by simp⟩

theorem lasting_run {d : Nat} {log : List Effect} {s : Sys} (hi : Sys.Inv log s) (h : Lasting d s)
    (evs : List SysEvent) (hd : ∀ d', .setSuspended d' ∉ evs)
    (ht : ∀ now, .handle now ∈ evs → timeEnd ≤ now + d) : Unreported (Sys.run evs s).1 := by
  induction evs generalizing log s with
  | nil => intro a h; cases h
  | cons e es ih =>
    obtain ⟨h1, h2⟩ := lasting_step hi h e (fun d' he => hd d' (he ▸ List.mem_cons_self ..))
      (fun n he => ht n (he ▸ List.mem_cons_self ..))
    intro a ha
    rcases List.mem_append.1 ha with ha | ha
    · exact h2 a ha
    · exact ih (Sys.inv_step hi e) h1 (fun d' h => hd d' (List.mem_cons_of_mem _ h))
        (fun n h => ht n (List.mem_cons_of_mem _ h)) a ha

/-- **C114.** If the duration of suspensions is set to more than the clock can hold, then no address is
suspended at all. Instead, the first failure to connect ends the pool: when it has handled its commands, it
lives only if nothing has failed to connect since. -/
theorem C114_forever (size : Nat) (evs evs' : List SysEvent) (d : Nat) (hd : ∀ d', .setSuspended d' ∉ evs')
    (ht : ∀ now, .handle now ∈ evs' → 2 ^ 63 * 1000000000 ≤ now + d) :
    (∀ a, .reported a ∉ (Sys.run evs' (Sys.run (evs ++ [.setSuspended d]) (.new size)).2).1) ∧
    ((Sys.run (evs ++ .setSuspended d :: evs') (.new size)).2.pool ≠ none →
      (Sys.run (evs ++ .setSuspended d :: evs') (.new size)).2.queue = [] →
      ∀ i a, .refused i a ∉ (Sys.run evs' (Sys.run (evs ++ [.setSuspended d]) (.new size)).2).1) := by
  have key : ∀ a, .reported a ∉ (Sys.run evs' (Sys.run (evs ++ [.setSuspended d]) (.new size)).2).1 := by
    refine lasting_run (Sys.inv_run (Sys.inv_new size) _) (d := d) ?_ evs' hd ht
    rw [sys_run_append]
    intro p hp
    simp only [Sys.run, Sys.step] at hp
    cases hs : (Sys.run evs (.new size)).2.pool with
    | none => rw [hs] at hp; cases hp
    | some p0 => rw [hs] at hp; cases hp; rfl
  refine ⟨key, fun hp hq i a hm => ?_⟩
  have hall := C51_reports_all size _ a hp hq
  have hmost := C51_reports_at_most size (evs ++ [.setSuspended d]) a
  rw [show evs ++ .setSuspended d :: evs' = (evs ++ [.setSuspended d]) ++ evs' by simp, sys_run_append,
    Sys.reportsOf_append, Sys.refusedTo_append] at hall
  generalize (Sys.run evs' (Sys.run (evs ++ [.setSuspended d]) (.new size)).2).1 = l at *
  have h0 : reportsOf a l = 0 := by
    rw [reportsOf, List.length_eq_zero_iff, List.filter_eq_nil_iff]
    intro x hx
    cases x with
    | reported b => exact absurd hx (key b)
    | _ => simp
  have h1 : 0 < refusedTo a l := by
    rw [refusedTo]
    exact List.length_pos_of_mem (List.mem_filter.2 ⟨hm, by simp⟩)
  omega

/-- **C114.** With the pool all connections are gone that are not in use: those that are still open are
with calls. -/
theorem C114_nothing_left (size : Nat) (evs : List SysEvent)
    (hp : (Sys.run evs (.new size)).2.pool = none) (c : Conn) (i : Nat) (a : Addr)
    (ho : .opened i a c ∈ (Sys.run evs (.new size)).1) (hc : .closed c ∉ (Sys.run evs (.new size)).1) :
    ∃ y ∈ (Sys.run evs (.new size)).2.calls, callConn y = some c := by
  have hpl := ((C46_one_place size evs).2 c).2 ⟨⟨i, a, ho⟩, hc⟩
  have hi := (Sys.inv_run (Sys.inv_new size) evs).pool
  rw [hp] at hi
  rw [places, hp, hi.1] at hpl
  simpa [idleConns, queuedConns] using hpl

end

namespace PoolAliveExamples

/-- Suspended "for ever": 2^64 - 1 seconds. One connection is idle, then another address refuses. -/
def exBefore : List SysEvent :=
  [.call exProc exA exCallArgs [1], .handle 0, .poll 0 .connected, .poll 0 .written, .poll 0 (.head 404 []),
   .poll 0 (.body [7]), .handle 1]

def exAfter : List SysEvent := [.call exProc exB exCallArgs [1], .handle 2, .poll 1 .failed, .handle 3]

theorem exEnd : letI := toyFloat
    (Sys.run (exBefore ++ .setSuspended (18446744073709551615 * 1000000000) :: exAfter) (.new 3)).1 =
      [.opened 0 exA 0, .io 0 0, .io 0 0, .io 0 0, .returned 0 exA 0, .refused 1 exB, .closed 0] ∧
    (Sys.run (exBefore ++ .setSuspended (18446744073709551615 * 1000000000) :: exAfter) (.new 3)).2.pool = none := by
  let := toyFloat
  obtain ⟨r, hr⟩ := exCall_sent [1]
  have hd : deResponse exProc.resTy 404 [] = .ok (.unitVariant "NotFound".toList) := rfl
  have hm : exProc.method ≠ .head := by decide
  simp [exBefore, exAfter, Sys.run, Sys.step, Sys.call, Sys.send, Sys.new, Sys.poll, Sys.handle,
    Cmd.event, Pool.step, Pool.handleAcquire, Pool.acquire, Pool.withSize, BTreeMap.firstFrom,
    Sys.reply, Sys.setCall, CallInner.new, hr, Sys.settle, callStep, callDecode, hd, hm, Pool.release,
    BTreeMap.insert, Pool.dropExceeded, ConnId.lt, exA, exB,
    Pool.handleBlacklist, timeEnd, Sys.dropPool, queuedConns, Pool.setSuspended]

/-- `C114_forever` applies; as `exEnd` shows, the pool is gone although nobody has dropped it. -/
example (a : Addr) : letI := toyFloat
    .reported a ∉ (Sys.run exAfter
      (Sys.run (exBefore ++ [.setSuspended (18446744073709551615 * 1000000000)]) (.new 3)).2).1 := by
  let := toyFloat
  exact (C114_forever 3 exBefore exAfter (18446744073709551615 * 1000000000) (by simp [exAfter])
    fun now _ => Nat.le_trans (by decide) (Nat.le_add_left _ _)).1 a

/-- `C114_nothing_left`: the connection that was idle is closed. -/
example : letI := toyFloat
    .closed 0 ∈ (Sys.run (exBefore ++ .setSuspended (18446744073709551615 * 1000000000) :: exAfter) (.new 3)).1 := by
  rw [exEnd.1]
  simp

/-- `C114_alive` applies to the same calls with the default of 60 s. -/
example : letI := toyFloat; (Sys.run (exBefore ++ exAfter) (.new 3)).2.pool ≠ none := by
  let := toyFloat
  obtain ⟨r, hr⟩ := exCall_sent [1]
  have hd : deResponse exProc.resTy 404 [] = .ok (.unitVariant "NotFound".toList) := rfl
  have hm : exProc.method ≠ .head := by decide
  refine C114_alive 3 _ (by simp [exBefore, exAfter]) ?_ ?_
  · have h : (Sys.run (exBefore ++ exAfter) (.new 3)).1 = [.opened 0 exA 0, .io 0 0, .io 0 0, .io 0 0,
        .returned 0 exA 0, .refused 1 exB, .reported exB] := by
      simp [exBefore, exAfter, Sys.run, Sys.step, Sys.call, Sys.send, Sys.new, Sys.poll, Sys.handle,
        Cmd.event, Pool.step, Pool.handleAcquire, Pool.acquire, Pool.withSize, BTreeMap.firstFrom,
        Sys.reply, Sys.setCall, CallInner.new, hr, Sys.settle, callStep, callDecode, hd, hm, Pool.release,
        BTreeMap.insert, Pool.dropExceeded, ConnId.lt, exA, exB,
        Pool.handleBlacklist, timeEnd, Pool.enlist, Pool.unlist]
    rw [h]
    decide
  · rintro d (rfl | hd) now hn
    · simp [exBefore, exAfter] at hn
      rcases hn with rfl | rfl | rfl | rfl <;> decide
    · simp [exBefore, exAfter] at hd

end PoolAliveExamples

end Htrpc
