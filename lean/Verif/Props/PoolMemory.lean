/-
C125: what a pool keeps.
-/
import Verif.Props.OpenConns
import Verif.Props.Progress

set_option linter.unusedSectionVars false

namespace Htrpc
open Spec

section
variable [FloatText]

/-! ### The pool within the system -/

/-- One command. -/
theorem handle_change (now : Time) (s : Sys) :
    ((s.handle now).2.pool = none ∧ ∀ c ∈ (s.handle now).2.queue, c ∈ s.queue) ∨
    ((s.handle now).2.pool = s.pool ∧ (s.handle now).2.queue = s.queue) ∨
    ∃ p p' cmd o, s.pool = some p ∧ (s.handle now).2.pool = some p' ∧
      s.queue = cmd :: (s.handle now).2.queue ∧ p.step (cmd.event now) = .ok (o, p') := by
  obtain ⟨pool, queue, calls, next⟩ := s
  cases pool with
  | none => exact .inl ⟨rfl, fun _ h => h⟩
  | some p =>
    cases queue with
    | nil => exact .inr (.inl ⟨rfl, rfl⟩)
    | cons cmd q =>
      cases hs : p.step (cmd.event now) with
      | ok x =>
        obtain ⟨o, p'⟩ := x
        refine .inr (.inr ⟨p, p', cmd, o, rfl, ?_, ?_, hs⟩)
        · simp only [Sys.handle, hs]
          split
          · unfold Sys.reply
            split <;> rfl
          all_goals rfl
        · simp only [Sys.handle, hs]
          split
          · unfold Sys.reply
            split <;> rfl
          all_goals rfl
      | _ =>
        refine .inl ?_
        simp only [Sys.handle, hs]
        exact ⟨rfl, by simp [Sys.dropPool]⟩

/-- What is in the queue after a command was sent. -/
theorem mem_send {s : Sys} {cmd c : Cmd} (h : c ∈ (s.send cmd).queue) : c ∈ s.queue ∨ c = cmd := by
  unfold Sys.send at h
  split at h
  · exact .inl h
  · simpa using h

theorem settle_change (i : Nat) (y : PCall) (c : Conn) (inner : CallInner) (s : Sys) (o : CallOutcome) :
    (s.settle i y c inner o).2.pool = s.pool ∧
    ∀ a j, .acquire a j ∈ (s.settle i y c inner o).2.queue → .acquire a j ∈ s.queue := by
  cases o with
  | ready v body =>
    refine ⟨by simp [Sys.settle, Sys.setCall, Sys.send_pool], fun a j h => ?_⟩
    rcases mem_send h with h | h
    · exact h
    · cases h
  | _ => exact ⟨rfl, fun _ _ h => h⟩

theorem poll_change (i : Nat) (r : IoResult) (s : Sys) : (s.poll i r).2.pool = s.pool ∧
    ∀ a j, .acquire a j ∈ (s.poll i r).2.queue → .acquire a j ∈ s.queue := by
  unfold Sys.poll
  split
  · exact ⟨rfl, fun _ _ h => h⟩
  · split
    · split <;> exact ⟨by simp_all [Sys.setCall], fun _ _ h => h⟩
    · exact settle_change ..
    · exact ⟨rfl, fun _ _ h => h⟩
    · split
      · exact settle_change _ _ _ _ { s with next := s.next + 1 } _
      · refine ⟨by simp [Sys.setCall, Sys.send_pool], fun a j h => ?_⟩
        rcases mem_send h with h | h
        · exact h
        · cases h
      · exact ⟨rfl, fun _ _ h => h⟩
    · exact settle_change ..
    · exact ⟨rfl, fun _ _ h => h⟩

theorem dropCall_change (i : Nat) (s : Sys) : (s.dropCall i).2.pool = s.pool ∧
    (s.dropCall i).2.queue = s.queue := by
  unfold Sys.dropCall
  split
  · exact ⟨rfl, rfl⟩
  · split <;> exact ⟨rfl, rfl⟩

/-- The events of the pool in one event of the system. -/
theorem pool_change (s : Sys) (e : SysEvent) : (s.step e).2.pool = none ∨
    ∃ p p' pevs outs, s.pool = some p ∧ (s.step e).2.pool = some p' ∧ p.run pevs = .ok (outs, p') ∧
      ∀ a now, .acquire a now ∈ pevs → ∃ i, .acquire a i ∈ s.queue := by
  have same : ∀ s' : Sys, s'.pool = s.pool → s'.pool = none ∨
      ∃ p p' pevs outs, s.pool = some p ∧ s'.pool = some p' ∧ p.run pevs = .ok (outs, p') ∧
        ∀ a now, .acquire a now ∈ pevs → ∃ i, .acquire a i ∈ s.queue := by
    intro s' h
    cases hp : s.pool with
    | none => exact .inl (h.trans hp)
    | some p => exact .inr ⟨p, p, [], [], rfl, h.trans hp, rfl, by simp⟩
  cases e with
  | call p a v body => exact same _ (by simp [Sys.step, Sys.call, Sys.send_pool])
  | handle now =>
    rcases handle_change now s with h | h | ⟨p, p', cmd, o, h1, h2, h3, h4⟩
    · exact .inl h.1
    · exact same _ h.1
    · refine .inr ⟨p, p', [cmd.event now], [o], h1, h2, by simp [Pool.run, h4], ?_⟩
      intro a t ha
      rw [List.mem_singleton] at ha
      cases cmd with
      | acquire b i =>
        cases ha
        exact ⟨i, by rw [h3]; exact List.mem_cons_self⟩
      | release b c => cases ha
      | blacklist b => cases ha
  | setSuspended d =>
    cases hp : s.pool with
    | none => exact .inl (by simp [Sys.step, hp])
    | some p =>
      exact .inr ⟨p, p.setSuspended d, [.setSuspended d], [.nothing], rfl, by simp [Sys.step, hp], rfl,
        by simp⟩
  | dropPool =>
    refine .inl ?_
    cases hp : s.pool with
    | none => simp [Sys.step, Sys.dropPool, hp]
    | some p => simp [Sys.step, Sys.dropPool, hp]
  | poll i r => exact same _ (poll_change i r s).1
  | dropCall i => exact same _ (dropCall_change i s).1

/-- Acquisitions come from calls. -/
theorem acquire_change (s : Sys) (e : SysEvent) (a : Addr) (i : Nat)
    (h : .acquire a i ∈ (s.step e).2.queue) :
    .acquire a i ∈ s.queue ∨ ∃ p v body, e = .call p a v body := by
  cases e with
  | call p b v body =>
    rcases mem_send h with h | h
    · exact .inl h
    · cases h
      exact .inr ⟨p, v, body, rfl⟩
  | handle now =>
    rcases handle_change now s with h' | h' | ⟨p, p', cmd, o, h1, h2, h3, h4⟩
    · exact .inl (h'.2 _ h)
    · exact .inl (h'.2 ▸ h)
    · exact .inl (by rw [h3]; exact List.mem_cons_of_mem _ h)
  | setSuspended d => exact .inl h
  | dropPool =>
    simp only [Sys.step, Sys.dropPool] at h
    split at h
    · exact .inl h
    · cases h
  | poll j r => exact .inl ((poll_change j r s).2 a i h)
  | dropCall j => exact .inl ((dropCall_change j s).2 ▸ h)

theorem pool_run_append (p : Pool) (a b : List PoolEvent) {o1 : List PoolOutput} {p1 : Pool}
    (h1 : p.run a = .ok (o1, p1)) {o2 : List PoolOutput} {p2 : Pool} (h2 : p1.run b = .ok (o2, p2)) :
    p.run (a ++ b) = .ok (o1 ++ o2, p2) := by
  induction a generalizing p o1 with
  | nil => cases h1; exact h2
  | cons e a ih =>
    obtain ⟨⟨o, q⟩, h3, h4⟩ := Res.bind_eq_ok.1 h1
    obtain ⟨⟨os, q'⟩, h5, h6⟩ := Res.bind_eq_ok.1 h4
    cases h6
    rw [List.cons_append, Pool.run, h3]
    simp only [Res.bind_ok]
    rw [ih q h5]
    rfl

/-- The pool in an execution has handled some events. -/
theorem pool_path (evs : List SysEvent) (s : Sys) (p' : Pool) (h : (Sys.run evs s).2.pool = some p') :
    ∃ p pevs outs, s.pool = some p ∧ p.run pevs = .ok (outs, p') ∧
      ∀ a, (∀ i, .acquire a i ∉ s.queue) → (∀ c v body, .call c a v body ∉ evs) →
        ∀ now, .acquire a now ∉ pevs := by
  induction evs generalizing s with
  | nil => exact ⟨p', [], [], h, rfl, by simp⟩
  | cons e evs ih =>
    obtain ⟨p1, pevs, outs, h1, h2, h3⟩ := ih (s.step e).2 h
    rcases pool_change s e with h4 | ⟨p, p2, pevs', outs', h4, h5, h6, h7⟩
    · rw [h4] at h1; cases h1
    rw [h5] at h1
    cases h1
    refine ⟨p, pevs' ++ pevs, _, h4, pool_run_append p _ _ h6 h2, fun a hq hc now hm => ?_⟩
    rcases List.mem_append.1 hm with hm | hm
    · obtain ⟨i, hi⟩ := h7 a now hm
      exact hq i hi
    · refine h3 a (fun i hi => ?_) (fun c v body hm => hc c v body (List.mem_cons_of_mem _ hm)) now hm
      rcases acquire_change s e a i hi with h | ⟨c, v, body, rfl⟩
      · exact hq i h
      · exact hc c v body List.mem_cons_self

/-! ### What the pool keeps -/

theorem acquire_keeps {a : Addr} {p p' : Pool} {r : Pooled} (h : p.acquire a = .ok (r, p')) :
    p'.blacklist = p.blacklist := by
  unfold Pool.acquire at h
  simp only at h
  split at h
  · split at h
    · cases h; rfl
    · cases h
  · cases h; rfl

theorem release_keeps {a : Addr} {c : Conn} {p p' : Pool} {cs : List Conn}
    (h : p.release a c = .ok (cs, p')) : p'.blacklist = p.blacklist := by
  unfold Pool.release at h
  simp only at h
  split at h
  · obtain ⟨⟨cs', conns, lru⟩, -, h2⟩ := Res.bind_eq_ok.1 h
    cases h2; rfl
  · cases h

theorem nodup_unlist (a : Addr) {bl : List (Addr × Time)} (h : (bl.map Prod.fst).Nodup) :
    ((Pool.unlist a bl).map Prod.fst).Nodup :=
  h.sublist (List.filter_sublist.map _)

theorem nodup_enlist (a : Addr) (t : Time) {bl : List (Addr × Time)} (h : (bl.map Prod.fst).Nodup) :
    ((Pool.enlist a t bl).map Prod.fst).Nodup := by
  rw [Pool.enlist, List.map_cons, List.nodup_cons]
  refine ⟨?_, nodup_unlist a h⟩
  rintro hm
  obtain ⟨x, hx, he⟩ := List.mem_map.1 hm
  rw [Pool.unlist, List.mem_filter] at hx
  simp [he] at hx

theorem step_nodup {p p' : Pool} {e : PoolEvent} {o : PoolOutput} (h : p.step e = .ok (o, p'))
    (hp : (p.blacklist.map Prod.fst).Nodup) : (p'.blacklist.map Prod.fst).Nodup := by
  cases e with
  | acquire a now =>
    obtain ⟨⟨r, q⟩, h1, h2⟩ := Res.bind_eq_ok.1 h
    cases h2
    unfold Pool.handleAcquire at h1
    split at h1
    · split at h1
      · cases h1
        exact nodup_enlist _ _ (nodup_unlist a hp)
      · rw [acquire_keeps h1]
        exact nodup_unlist a hp
    · rw [acquire_keeps h1]
      exact hp
  | release a c =>
    obtain ⟨⟨cs, q⟩, h1, h2⟩ := Res.bind_eq_ok.1 h
    cases h2
    rw [release_keeps h1]
    exact hp
  | blacklist a now =>
    obtain ⟨q, h1, h2⟩ := Res.bind_eq_ok.1 h
    cases h2
    unfold Pool.handleBlacklist at h1
    split at h1
    · cases h1
      exact nodup_enlist _ _ hp
    · cases h1
  | setSuspended d => cases h; exact hp

theorem run_nodup {p p' : Pool} (evs : List PoolEvent) {outs : List PoolOutput}
    (h : p.run evs = .ok (outs, p')) (hp : (p.blacklist.map Prod.fst).Nodup) :
    (p'.blacklist.map Prod.fst).Nodup := by
  induction evs generalizing p outs with
  | nil => cases h; exact hp
  | cons e evs ih =>
    obtain ⟨⟨o, q⟩, h1, h2⟩ := Res.bind_eq_ok.1 h
    obtain ⟨⟨os, q'⟩, h3, h4⟩ := Res.bind_eq_ok.1 h2
    cases h4
    exact ih h3 (step_nodup h1 hp)

theorem lookup_mem {a : Addr} {bl : List (Addr × Time)} :
    a ∈ bl.map Prod.fst ↔ bl.lookup a ≠ none := by
  induction bl with
  | nil => simp
  | cons x bl ih =>
    obtain ⟨b, t⟩ := x
    rw [List.map_cons, List.mem_cons, List.lookup_cons, ih]
    by_cases hb : a = b
    · subst hb; simp
    · have : (a == b) = false := by simpa using hb
      rw [this]
      simp [hb]

/-- **C125.** What a pool keeps: not more connections than its size, their order of age, and each address at
most once to which connecting has failed. -/
theorem C125_bounded (size : Nat) (evs : List SysEvent) (p : Pool)
    (h : (Sys.run evs (.new size)).2.pool = some p) :
    p.connections.length ≤ size ∧ p.lru.length = p.connections.length ∧
    (p.blacklist.map Prod.fst).Nodup ∧
    ∀ a ∈ p.blacklist.map Prod.fst, 0 < refusedTo a (Sys.run evs (.new size)).1 := by
  obtain ⟨p0, pevs, outs, h1, h2, -⟩ := pool_path evs _ p h
  cases h1
  refine ⟨C45_pool_size size pevs outs p h2, ?_, run_nodup pevs h2 .nil, fun a ha =>
    C51_suspended_failed size evs a p h (lookup_mem.1 ha)⟩
  have hno := (C54_exactly size pevs).1 ⟨_, _, h2⟩
  obtain ⟨p', h3, h4, -⟩ := run_like (new_like size) pevs (by simpa [Pool.withSize] using hno.1) hno.2
  rw [h2] at h3
  cases h3
  obtain ⟨es, hes, -⟩ := h4.holds
  rw [hes.lru, hes.perm.length_eq, List.length_map, List.length_map]

/-- **C125.** Exactly which addresses a pool keeps: those with a report of a failure after which no
acquisition for the address was handled at or after the end of the suspension. That time goes by is not
enough. -/
theorem C125_remembered (size : Nat) (evs : List PoolEvent) (outs : List PoolOutput) (p : Pool)
    (h : (Pool.withSize size).run evs = .ok (outs, p)) (a : Addr) :
    a ∈ p.blacklist.map Prod.fst ↔ ∃ u, SuspendedBy a u 60000000000 evs := by
  have hno := (C54_exactly size evs).1 ⟨_, _, h⟩
  obtain ⟨p', h3, h4, -⟩ := run_like (new_like size) evs (by simpa [Pool.withSize] using hno.1) hno.2
  rw [h] at h3
  cases h3
  rw [lookup_mem, h4.blacklist a, Option.ne_none_iff_exists']
  refine exists_congr fun u => ?_
  rw [suspended_run]
  refine ⟨?_, .inl⟩
  rintro (h | ⟨h, -⟩)
  · exact h
  · cases h

theorem step_kept {p p' : Pool} {e : PoolEvent} {o : PoolOutput} (h : p.step e = .ok (o, p'))
    {a : Addr} (he : ∀ now, e ≠ .acquire a now) (hp : p.blacklist.lookup a ≠ none) :
    p'.blacklist.lookup a ≠ none := by
  cases e with
  | acquire b now =>
    have hb : a ≠ b := fun hb => he now (hb ▸ rfl)
    obtain ⟨⟨r, q⟩, h1, h2⟩ := Res.bind_eq_ok.1 h
    cases h2
    unfold Pool.handleAcquire at h1
    split at h1
    · split at h1
      · cases h1
        rw [lookup_enlist, if_neg hb, lookup_unlist, if_neg hb]
        exact hp
      · rw [acquire_keeps h1, lookup_unlist, if_neg hb]
        exact hp
    · rw [acquire_keeps h1]
      exact hp
  | release b c =>
    obtain ⟨⟨cs, q⟩, h1, h2⟩ := Res.bind_eq_ok.1 h
    cases h2
    rw [release_keeps h1]
    exact hp
  | blacklist b now =>
    obtain ⟨q, h1, h2⟩ := Res.bind_eq_ok.1 h
    cases h2
    unfold Pool.handleBlacklist at h1
    split at h1
    · cases h1
      rw [lookup_enlist]
      split
      · simp
      · exact hp
    · cases h1
  | setSuspended d => cases h; exact hp

/-- **C125.** Nothing but another call to an address ends its entry, as long as the pool lives: neither
time nor other calls do. -/
theorem C125_kept (size : Nat) (evs evs' : List SysEvent) (p p' : Pool) (a : Addr)
    (h : (Sys.run evs (.new size)).2.pool = some p) (ha : a ∈ p.blacklist.map Prod.fst)
    (hq : ∀ i, .acquire a i ∉ (Sys.run evs (.new size)).2.queue)
    (hc : ∀ c v body, .call c a v body ∉ evs')
    (h' : (Sys.run (evs ++ evs') (.new size)).2.pool = some p') : a ∈ p'.blacklist.map Prod.fst := by
  rw [sys_run_append] at h'
  obtain ⟨p0, pevs, outs, h1, h2, hx⟩ := pool_path evs' _ p' h'
  rw [h] at h1
  cases h1
  have h3 := hx a hq hc
  rw [lookup_mem] at ha ⊢
  clear h' hq hc h hx
  induction pevs generalizing p outs with
  | nil => cases h2; exact ha
  | cons e pevs ih =>
    obtain ⟨⟨o, q⟩, h4, h5⟩ := Res.bind_eq_ok.1 h2
    obtain ⟨⟨os, q'⟩, h6, h7⟩ := Res.bind_eq_ok.1 h5
    cases h7
    refine ih q (step_kept h4 (fun now he => h3 now (he ▸ List.mem_cons_self)) ha) os h6
      fun now hm => h3 now (List.mem_cons_of_mem _ hm)

/-- The calls that make a pool keep an address: connecting fails. -/
def failingCall (c : Proc) (v : Val) (body : Bytes) (i : Nat) (a : Addr) : List SysEvent :=
  [.call c a v body, .handle 0, .poll i .failed, .handle 0]

theorem failing_run (c : Proc) (v : Val) (body : Bytes) (a : Addr) (p : Pool) (calls : List PCall)
    (next : Nat) (hc : p.connections = []) (hd : p.suspended = 60000000000)
    (ha : a ∉ p.blacklist.map Prod.fst) :
    Sys.run (failingCall c v body calls.length a) ⟨some p, [], calls, next⟩ =
      ([.refused calls.length a, .reported a],
        ⟨some { p with blacklist := Pool.enlist a 60000000000 p.blacklist }, [],
          calls ++ [⟨c, a, .failed .other⟩], next⟩) := by
  have hl : p.blacklist.lookup a = none := by
    rw [lookup_mem] at ha
    exact Decidable.not_not.1 ha
  have hlt : 60000000000 < timeEnd := by decide
  simp [failingCall, Sys.run, Sys.step, Sys.call, Sys.send, Sys.handle, Cmd.event, Pool.step,
    Pool.handleAcquire, hl, Pool.acquire, BTreeMap.firstFrom, hc, Sys.reply, Sys.setCall, Sys.poll,
    Pool.handleBlacklist, hd, hlt]

/-- **C125.** So there is no bound: whatever the size of the pool, and for any number of different
addresses, there is an execution after which all calls have ended, nothing waits and no connection was ever
opened, and the pool keeps all of these addresses. -/
theorem C125_grows (size : Nat) (as : List Addr) (hn : as.Nodup) : ∃ evs p,
    (Sys.run evs (.new size)).2.pool = some p ∧ (Sys.run evs (.new size)).2.queue = [] ∧
    (∀ y ∈ (Sys.run evs (.new size)).2.calls, y.st = .failed .other) ∧
    (∀ i a c, .opened i a c ∉ (Sys.run evs (.new size)).1) ∧ p.blacklist.map Prod.fst = as := by
  suffices h : ∃ evs p calls next, (Sys.run evs (.new size)).2 = ⟨some p, [], calls, next⟩ ∧
      (∀ y ∈ calls, y.st = .failed .other) ∧
      (∀ i a c, .opened i a c ∉ (Sys.run evs (.new size)).1) ∧ p.blacklist.map Prod.fst = as ∧
      p.connections = [] ∧ p.suspended = 60000000000 by
    obtain ⟨evs, p, calls, next, h1, h2, h3, h4, -⟩ := h
    exact ⟨evs, p, by rw [h1], by rw [h1], by rw [h1]; exact h2, h3, h4⟩
  induction as with
  | nil => exact ⟨[], .withSize size, [], 0, rfl, by simp, by simp [Sys.run], rfl, rfl, rfl⟩
  | cons a as ih =>
    obtain ⟨evs, p, calls, next, h1, h2, h3, h4, h5, h6⟩ := ih (List.nodup_cons.1 hn).2
    have ha : a ∉ p.blacklist.map Prod.fst := by rw [h4]; exact (List.nodup_cons.1 hn).1
    have hr := failing_run ⟨.head, [], .unit⟩ .unit [] a p calls next h5 h6 ha
    refine ⟨evs ++ failingCall ⟨.head, [], .unit⟩ .unit [] calls.length a,
      { p with blacklist := Pool.enlist a 60000000000 p.blacklist }, _, _, (by rw [sys_run_append, h1, hr]), ?_, ?_,
      ?_, h5, h6⟩
    · intro y hy
      rcases List.mem_append.1 hy with hy | hy
      · exact h2 y hy
      · rw [List.mem_singleton.1 hy]
    · intro i b c hm
      rw [sys_run_append, h1, hr] at hm
      rcases List.mem_append.1 hm with hm | hm
      · exact h3 i b c hm
      · simp at hm
    · rw [← h4, Pool.enlist, List.map_cons]
      congr 2
      rw [Pool.unlist, List.filter_eq_self]
      intro x hx
      have : x.1 ≠ a := fun he => ha (he ▸ List.mem_map_of_mem hx)
      simpa using this

end

namespace PoolMemoryExamples

section
variable [FloatText]

/-- `C125_grows`, `C125_kept`: three addresses of which nothing works are kept by a pool of size 0, also a
year later. -/
example : ∃ evs p, (Sys.run evs (.new 0)).2.pool = some p ∧
    p.blacklist.map Prod.fst = [⟨1, 80, 0⟩, ⟨2, 80, 0⟩, ⟨3, 80, 0⟩] ∧
    ∀ p', (Sys.run (evs ++ [.handle 31536000000000000]) (.new 0)).2.pool = some p' →
      (⟨2, 80, 0⟩ : Addr) ∈ p'.blacklist.map Prod.fst := by
  obtain ⟨evs, p, h1, h2, -, -, h3⟩ := C125_grows 0 [⟨1, 80, 0⟩, ⟨2, 80, 0⟩, ⟨3, 80, 0⟩] (by decide)
  refine ⟨evs, p, h1, h3, fun p' hp' => C125_kept 0 evs _ p p' _ h1 ?_ ?_ (by simp) hp'⟩
  · rw [h3]; simp
  · rw [h2]; simp

/-- `C125_remembered`: another acquisition at the end of the suspension removes it. -/
example : ∃ outs p, (Pool.withSize 2).run [.blacklist ⟨1, 80, 0⟩ 0, .acquire ⟨1, 80, 0⟩ 60000000000] =
    .ok (outs, p) ∧ (⟨1, 80, 0⟩ : Addr) ∉ p.blacklist.map Prod.fst := by
  have hr : ∃ outs p, (Pool.withSize 2).run
      [.blacklist ⟨1, 80, 0⟩ 0, .acquire ⟨1, 80, 0⟩ 60000000000] = .ok (outs, p) := ⟨_, _, rfl⟩
  obtain ⟨outs, p, hr⟩ := hr
  refine ⟨outs, p, hr, fun h => ?_⟩
  obtain ⟨u, before, t, after, h1, h2, -, h4⟩ := (C125_remembered 2 _ _ _ hr _).1 h
  match before, h1 with
  | [], h1 =>
    simp only [List.nil_append, List.cons.injEq, PoolEvent.blacklist.injEq, true_and] at h1
    obtain ⟨rfl, rfl⟩ := h1
    have := h4 60000000000 List.mem_cons_self
    rw [h2] at this
    exact absurd this (by decide)
  | [_], h1 => simp at h1
  | [_, _], h1 => simp at h1
  | _ :: _ :: _ :: _, h1 => simp at h1

/-- `C125_bounded`: the first case again. -/
example (evs : List SysEvent) (p : Pool) (h : (Sys.run evs (.new 0)).2.pool = some p) :
    p.connections = [] ∧ p.lru = [] := by
  obtain ⟨h1, h2, -⟩ := C125_bounded 0 evs p h
  have := List.length_eq_zero_iff.1 (Nat.le_zero.1 h1)
  rw [this] at h2
  exact ⟨this, List.length_eq_zero_iff.1 h2⟩

end

end PoolMemoryExamples

end Htrpc
