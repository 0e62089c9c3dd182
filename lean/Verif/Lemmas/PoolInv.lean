/-
Invariants of calls through a pool.
-/
import Verif.Lemmas.PoolSystem

namespace Htrpc
open Spec

/-! ### The pool -/

theorem takeIdle_perm {a : Addr} {l l' : List (Addr × Conn)} {c : Conn}
    (h : takeIdle a l = some (c, l')) : l.Perm ((a, c) :: l') := by
  induction l generalizing l' with
  | nil => cases h
  | cons x l ih =>
    obtain ⟨b, d⟩ := x
    rw [takeIdle] at h
    split at h
    · split at h
      · next hb => cases h; subst hb; exact .refl _
      · cases h
    · cases ht : takeIdle a l with
      | none => rw [ht] at h; cases h
      | some r =>
        rw [ht] at h
        cases h
        exact ((ih ht).cons _).trans (.swap _ _ _)

/-- An acquisition. -/
theorem pool_acquire {p : Pool} {size : Nat} {ip : IdlePool} (h : p.Like size ip) (a : Addr)
    (now : Time) :
    ∃ f p' ip', p.step (.acquire a now) = .ok (.reply f, p') ∧ p'.Like size ip' ∧
      (match f with
        | .ready c => ip.idle.Perm ((a, c) :: ip'.idle)
        | .connecting b => b = a ∧ ip'.idle = ip.idle
        | .failed => ip'.idle = ip.idle ∧ ip.suspended a ≠ none) ∧
      ∀ b, ip'.suspended b ≠ none → ip.suspended b ≠ none := by
  obtain ⟨p', h1, h2, -⟩ := step_like' h (.acquire a now) trivial
  rw [IdlePool.step] at h1 h2
  split at h1
  · next hs =>
    rw [if_pos hs] at h2
    refine ⟨_, p', _, h1, h2, ⟨rfl, ?_⟩, fun _ hb => hb⟩
    obtain ⟨u, hu, -⟩ := hs
    rw [hu]
    simp
  · next hs =>
    rw [if_neg hs] at h2
    simp only at h1 h2
    have hsus : ∀ b, (if b = a then none else ip.suspended b) ≠ none → ip.suspended b ≠ none := by
      intro b hb
      split at hb
      · exact absurd rfl hb
      · exact hb
    cases ht : takeIdle a ip.idle with
    | none =>
      rw [ht] at h1 h2
      exact ⟨_, p', _, h1, h2, ⟨rfl, rfl⟩, hsus⟩
    | some r =>
      rw [ht] at h1 h2
      exact ⟨_, p', _, h1, h2, takeIdle_perm ht, hsus⟩

/-- A release. -/
theorem pool_release {p : Pool} {size : Nat} {ip : IdlePool} (h : p.Like size ip) (a : Addr)
    (c : Conn) :
    p.step (.release a c) = .panic ∨
    ∃ xs p' ip', p.step (.release a c) = .ok (.closed (xs.map Prod.snd), p') ∧ p'.Like size ip' ∧
      ip.idle ++ [(a, c)] = xs ++ ip'.idle ∧ ip'.suspended = ip.suspended := by
  by_cases hseq : p.seq + 1 < 2 ^ 64
  · obtain ⟨p', h1, h2, -⟩ := step_like' h (.release a c) hseq
    exact .inr ⟨_, p', _, h1, h2, (List.take_append_drop _ _).symm, rfl⟩
  · left
    rw [Pool.step, Pool.release, if_neg hseq]
    rfl

/-- A failure report. -/
theorem pool_blacklist {p : Pool} {size : Nat} {ip : IdlePool} (h : p.Like size ip) (a : Addr)
    (now : Time) :
    p.step (.blacklist a now) = .panic ∨
    ∃ p' ip', p.step (.blacklist a now) = .ok (.nothing, p') ∧ p'.Like size ip' ∧
      ip'.idle = ip.idle ∧ ∀ b, ip'.suspended b ≠ none → b = a ∨ ip.suspended b ≠ none := by
  by_cases ht : now + p.suspended < timeEnd
  case neg =>
    left
    rw [Pool.step, Pool.handleBlacklist, if_neg ht]
    rfl
  right
  obtain ⟨p', h1, h2, -⟩ := step_like' h (.blacklist a now) ht
  refine ⟨p', _, h1, h2, rfl, ?_⟩
  intro b hb
  simp only [IdlePool.step] at hb
  split at hb
  · next hba => exact .inl hba
  · exact .inr hb

/-- The setter. -/
theorem pool_setSuspended {p : Pool} {size : Nat} {ip : IdlePool} (h : p.Like size ip) (d : Nat) :
    ∃ ip', (p.setSuspended d).Like size ip' ∧ ip'.idle = ip.idle ∧
      ip'.suspended = ip.suspended := by
  obtain ⟨p', h1, h2, -⟩ := step_like' h (.setSuspended d) trivial
  cases h1
  exact ⟨_, h2, rfl, rfl⟩

/-- The connections in the pool. -/
theorem pool_idle {p : Pool} {size : Nat} {ip : IdlePool} (h : p.Like size ip) :
    ∃ xs, xs.map Prod.snd = p.connections.map Prod.snd ∧ ip.idle.Perm xs := by
  obtain ⟨es, hes, hid⟩ := h.holds
  refine ⟨p.connections.map fun e => (e.1.addr, e.2), by simp, ?_⟩
  rw [← hid]
  have := hes.perm.map fun e : ConnId × Conn => (e.1.addr, e.2)
  rw [List.map_map] at this
  exact this.symm

/-! ### Where connections are -/

/-- The connection of a call. -/
def holdOf : PCallSt → Option Conn
  | .replied _ (.ready c) => some c
  | .active c _ => some c
  | _ => none

/-- The connections in commands. -/
def queued : List Cmd → List (Addr × Conn)
  | [] => []
  | .release a c :: q => (a, c) :: queued q
  | _ :: q => queued q

theorem queued_conns (q : List Cmd) : queuedConns q = (queued q).map Prod.snd := by
  induction q with
  | nil => rfl
  | cons x q ih => cases x <;> simp [queued, queuedConns, ih]

theorem queued_append (q q' : List Cmd) : queued (q ++ q') = queued q ++ queued q' := by
  induction q with
  | nil => rfl
  | cons x q ih => cases x <;> simp [queued, ih]

namespace Sys

def hold (s : Sys) (i : Nat) : Option Conn := s.calls[i]?.bind fun y => holdOf y.st
def addrOf (s : Sys) (i : Nat) : Option Addr := s.calls[i]?.map PCall.addr

/-- Calls connect to their address. -/
def Aimed (s : Sys) : Prop :=
  ∀ (i : Nat) (y : PCall) (inner : CallInner) (a : Addr), s.calls[i]? = some y →
    y.st = .replied inner (.connecting a) → a = y.addr

/-- Connections are where the history says. -/
structure Inv (log : List Effect) (s : Sys) : Prop where
  pool : match s.pool with
    | none => s.queue = [] ∧ Places log s.hold [] s.next s.addrOf
    | some p => ∃ size ip, p.Like size ip ∧
        Places log s.hold (ip.idle ++ queued s.queue) s.next s.addrOf
  acquires : ∀ a i, .acquire a i ∈ s.queue → s.addrOf i = some a
  connecting : s.Aimed

/-- The same without the bookkeeping of the pool. -/
def pooled (s : Sys) (xs : List (Addr × Conn)) : Prop :=
  match s.pool with
    | none => s.queue = [] ∧ xs = []
    | some p => ∃ size ip, p.Like size ip ∧ xs = ip.idle ++ queued s.queue

theorem inv_pool {log : List Effect} {s : Sys} :
    (match s.pool with
    | none => s.queue = [] ∧ Places log s.hold [] s.next s.addrOf
    | some p => ∃ size ip, p.Like size ip ∧
        Places log s.hold (ip.idle ++ queued s.queue) s.next s.addrOf) ↔
    ∃ xs, s.pooled xs ∧ Places log s.hold xs s.next s.addrOf := by
  unfold pooled
  cases s.pool with
  | none =>
    constructor
    · rintro ⟨h1, h2⟩; exact ⟨_, ⟨h1, rfl⟩, h2⟩
    · rintro ⟨_, ⟨h1, rfl⟩, h2⟩; exact ⟨h1, h2⟩
  | some p =>
    constructor
    · rintro ⟨size, ip, h1, h2⟩; exact ⟨_, ⟨size, ip, h1, rfl⟩, h2⟩
    · rintro ⟨_, ⟨size, ip, h1, rfl⟩, h2⟩; exact ⟨size, ip, h1, h2⟩

theorem hold_setCall {s : Sys} {i : Nat} {y y' : PCall} (h : s.calls[i]? = some y) :
    (s.setCall i y').hold = upd s.hold i (holdOf y'.st) := by
  funext j
  have hlt : i < s.calls.length := by
    rcases Nat.lt_or_ge i s.calls.length with hl | hl
    · exact hl
    · rw [List.getElem?_eq_none hl] at h; cases h
  simp only [hold, setCall, upd, List.getElem?_set]
  by_cases hj : j = i
  · subst hj; simp [hlt]
  · rw [if_neg (Ne.symm hj), if_neg hj]

theorem addrOf_setCall {s : Sys} {i : Nat} {y y' : PCall} (h : s.calls[i]? = some y)
    (ha : y'.addr = y.addr) : (s.setCall i y').addrOf = s.addrOf := by
  funext j
  have hlt : i < s.calls.length := by
    rcases Nat.lt_or_ge i s.calls.length with hl | hl
    · exact hl
    · rw [List.getElem?_eq_none hl] at h; cases h
  simp only [addrOf, setCall, List.getElem?_set]
  by_cases hj : i = j
  · subst hj; rw [if_pos rfl, if_pos hlt, h]; simp [ha]
  · rw [if_neg hj]

theorem hold_of {s : Sys} {i : Nat} {y : PCall} (h : s.calls[i]? = some y) :
    s.hold i = holdOf y.st := by simp [hold, h]

theorem addr_of {s : Sys} {i : Nat} {y : PCall} (h : s.calls[i]? = some y) :
    s.addrOf i = some y.addr := by simp [addrOf, h]

theorem upd_self {α : Type} (f : Nat → Option α) (i : Nat) : upd f i (f i) = f := by
  funext j
  unfold upd
  split
  · next h => rw [h]
  · rfl

theorem upd_upd {α : Type} (f : Nat → Option α) (i : Nat) (x y : Option α) :
    upd (upd f i x) i y = upd f i y := by
  funext j
  unfold upd
  split <;> rfl

/-- A call changes to a state in which it is not connecting. -/
theorem connecting_setCall {s : Sys} {i : Nat} {y' : PCall}
    (h : s.Aimed) (h' : ∀ inner a, y'.st = .replied inner (.connecting a) → a = y'.addr) :
    (s.setCall i y').Aimed := by
  intro j y inner a hj hy
  simp only [setCall, List.getElem?_set] at hj
  split at hj
  · split at hj
    · cases hj; exact h' _ _ hy
    · cases hj
  · exact h j y inner a hj hy

/-- Sending a command that holds no connection. -/
theorem pooled_send {s : Sys} {xs : List (Addr × Conn)} (h : s.pooled xs) {cmd : Cmd}
    (hc : queued [cmd] = []) : (s.send cmd).pooled xs := by
  unfold send
  cases hp : s.pool with
  | none => simp only; exact h
  | some p =>
    unfold pooled at h ⊢
    rw [hp] at h
    obtain ⟨size, ip, h1, h2⟩ := h
    simp only
    exact ⟨size, ip, h1, by rw [queued_append, hc, List.append_nil]; exact h2⟩

theorem send_calls (s : Sys) (cmd : Cmd) : (s.send cmd).calls = s.calls := by
  unfold send; cases s.pool <;> rfl
theorem send_next (s : Sys) (cmd : Cmd) : (s.send cmd).next = s.next := by
  unfold send; cases s.pool <;> rfl
theorem send_pool (s : Sys) (cmd : Cmd) : (s.send cmd).pool = s.pool := by
  unfold send; cases h : s.pool <;> simp [h]
theorem send_hold (s : Sys) (cmd : Cmd) : (s.send cmd).hold = s.hold := by
  funext i; rw [hold, hold, send_calls]
theorem send_addrOf (s : Sys) (cmd : Cmd) : (s.send cmd).addrOf = s.addrOf := by
  funext i; rw [addrOf, addrOf, send_calls]
theorem mem_send {s : Sys} {cmd x : Cmd} (h : x ∈ (s.send cmd).queue) : x ∈ s.queue ∨ x = cmd := by
  unfold send at h
  cases hp : s.pool with
  | none => rw [hp] at h; exact .inl h
  | some p =>
    rw [hp] at h
    rcases List.mem_append.1 h with h | h
    · exact .inl h
    · exact .inr (List.mem_singleton.1 h)

/-- A call changes its state. -/
theorem inv_setCall {log : List Effect} {s : Sys} {i : Nat} {y : PCall} {st : PCallSt}
    {xs : List (Addr × Conn)} (hy : s.calls[i]? = some y)
    (hp : s.pooled xs) (hpl : Places log (upd s.hold i (holdOf st)) xs s.next s.addrOf)
    (ha : ∀ a i, .acquire a i ∈ s.queue → s.addrOf i = some a) (hc : s.Aimed)
    (hst : ∀ inner a, st = .replied inner (.connecting a) → a = y.addr) :
    Inv log (s.setCall i { y with st := st }) := by
  have e1 : (s.setCall i { y with st := st }).hold = _ := hold_setCall hy
  have e2 : (s.setCall i { y with st := st }).addrOf = s.addrOf := addrOf_setCall hy rfl
  refine ⟨inv_pool.2 ⟨xs, hp, ?_⟩, ?_, connecting_setCall hc hst⟩
  · rw [e1, e2]; exact hpl
  · rw [e2]; exact ha

/-- A command without connection is sent. -/
theorem inv_send {log : List Effect} {s : Sys} (h : Inv log s) {cmd : Cmd}
    (hc : queued [cmd] = []) (ha : ∀ a i, cmd = .acquire a i → s.addrOf i = some a) :
    Inv log (s.send cmd) := by
  obtain ⟨xs, h1, h2⟩ := inv_pool.1 h.pool
  refine ⟨inv_pool.2 ⟨xs, pooled_send h1 hc, ?_⟩, ?_, ?_⟩
  · rw [send_hold, send_addrOf, send_next]; exact h2
  · intro a i hm
    rw [send_addrOf]
    rcases mem_send hm with hm | hm
    · exact h.acquires a i hm
    · exact ha a i hm.symm
  · unfold Aimed; rw [send_calls]; exact h.connecting

/-- A round of `CallInner` with a connection. -/
theorem inv_settle {log : List Effect} {s : Sys} {i : Nat} {y : PCall} {c : Conn}
    {xs : List (Addr × Conn)} (hy : s.calls[i]? = some y)
    (hp : s.pooled xs) (hpl : Places log (upd s.hold i (some c)) xs s.next s.addrOf)
    (ha : ∀ a i, .acquire a i ∈ s.queue → s.addrOf i = some a)
    (hc : s.Aimed) (inner : CallInner) (o : CallOutcome) :
    Inv (log ++ (s.settle i y c inner o).1) (s.settle i y c inner o).2 := by
  have hci : upd s.hold i (some c) i = some c := by simp [upd]
  have hcl := hpl.closedHeld hci
  rw [upd_upd] at hcl
  cases o with
  | pending =>
    rw [settle, List.append_nil]
    exact inv_setCall hy hp hpl ha hc (by intro _ _ h; cases h)
  | next inner' =>
    rw [settle, List.append_nil]
    exact inv_setCall hy hp hpl ha hc (by intro _ _ h; cases h)
  | failed k => exact inv_setCall hy hp hcl ha hc (by intro _ _ h; cases h)
  | panicked => exact inv_setCall hy hp hcl ha hc (by intro _ _ h; cases h)
  | ready v body =>
    have hr := hpl.returned hci (addr_of hy)
    rw [upd_upd] at hr
    unfold pooled at hp
    rw [settle]
    cases hpool : s.pool with
    | none =>
      rw [hpool] at hp
      obtain ⟨h1, rfl⟩ := hp
      have he : (s.setCall i { y with st := .done v body }).send (.release y.addr c) =
          s.setCall i { y with st := .done v body } := by
        unfold send; simp only [setCall, hpool]
      rw [he]
      refine inv_setCall (xs := []) hy ?_ ?_ ha hc (by intro _ _ h; cases h)
      · unfold pooled; rw [hpool]; exact ⟨h1, rfl⟩
      · have := hr.closedIdle
        rw [List.append_assoc] at this
        exact this
    | some p =>
      rw [hpool] at hp
      obtain ⟨size, ip, h1, rfl⟩ := hp
      have e2 : (s.setCall i { y with st := .done v body }).addrOf = s.addrOf :=
        addrOf_setCall hy rfl
      have e1 : (s.setCall i { y with st := .done v body }).hold = _ := hold_setCall hy
      refine ⟨inv_pool.2 ⟨ip.idle ++ queued s.queue ++ [(y.addr, c)], ?_, ?_⟩, ?_, ?_⟩
      · unfold pooled
        rw [send_pool]
        simp only [setCall, hpool, send]
        refine ⟨size, ip, h1, ?_⟩
        rw [queued_append]
        simp [queued]
      · simp only [send_hold, send_addrOf, send_next, e1, e2]
        exact hr
      · intro a j hj
        simp only [send_addrOf, e2]
        rcases mem_send hj with hj | hj
        · exact ha a j hj
        · cases hj
      · unfold Aimed
        simp only [send_calls]
        exact connecting_setCall hc (by intro _ _ h; cases h)

theorem upd_hold_eq {s : Sys} {i : Nat} {x : Option Conn} (h : s.hold i = x) :
    upd s.hold i x = s.hold := by rw [← h, upd_self]

/-- A round of a call. -/
theorem inv_poll [FloatText] {log : List Effect} {s : Sys} (h : Inv log s) (i : Nat)
    (r : IoResult) : Inv (log ++ (s.poll i r).1) (s.poll i r).2 := by
  obtain ⟨xs, hp, hpl⟩ := inv_pool.1 h.pool
  rw [poll]
  cases hy : s.calls[i]? with
  | none => simp only [List.append_nil]; exact h
  | some y =>
    have hh := hold_of hy
    simp only
    cases hst : y.st with
    | waiting inner =>
      rw [hst] at hh
      cases hpool : s.pool with
      | some p => simp only [List.append_nil]; exact h
      | none =>
        simp only [List.append_nil]
        exact inv_setCall hy hp (by rw [upd_hold_eq]; exact hpl; exact hh) h.acquires h.connecting
          (by intro _ _ h; cases h)
    | replied inner f =>
      rw [hst] at hh
      cases f with
      | ready c =>
        simp only
        exact inv_settle hy hp (by rw [upd_hold_eq]; exact hpl; exact hh) h.acquires h.connecting
          _ _
      | failed =>
        simp only [List.append_nil]
        exact inv_setCall hy hp (by rw [upd_hold_eq]; exact hpl; exact hh) h.acquires h.connecting
          (by intro _ _ h; cases h)
      | connecting a =>
        have hya := h.connecting i y inner a hy hst
        subst hya
        cases r with
        | connected =>
          simp only
          have := hpl.opened (i := i) hh (addr_of hy)
          have := inv_settle (s := { s with next := s.next + 1 }) (y := y) (xs := xs) hy hp this
            h.acquires h.connecting inner (callStep y.proc inner .connected)
          simpa using this
        | failed =>
          simp only
          refine inv_send (inv_setCall hy hp ?_ h.acquires h.connecting
            (by intro _ _ h; cases h)) rfl (by intro _ _ h; cases h)
          rw [upd_hold_eq]
          · exact hpl.other rfl
          · exact hh
        | notReady => simp only [List.append_nil]; exact h
        | written => simp only [List.append_nil]; exact h
        | head _ _ => simp only [List.append_nil]; exact h
        | body _ => simp only [List.append_nil]; exact h
    | active c inner =>
      rw [hst] at hh
      simp only
      have := inv_settle (y := y) hy hp (by rw [upd_hold_eq]; exact hpl.io hh; exact hh)
        h.acquires h.connecting inner (callStep y.proc inner r)
      simpa using this
    | done v b => simp only [List.append_nil]; exact h
    | failed k => simp only [List.append_nil]; exact h
    | panicked => simp only [List.append_nil]; exact h
    | dropped => simp only [List.append_nil]; exact h

/-- A call is dropped. -/
theorem inv_dropCall {log : List Effect} {s : Sys} (h : Inv log s) (i : Nat) :
    Inv (log ++ (s.dropCall i).1) (s.dropCall i).2 := by
  obtain ⟨xs, hp, hpl⟩ := inv_pool.1 h.pool
  rw [dropCall]
  cases hy : s.calls[i]? with
  | none => simp only [List.append_nil]; exact h
  | some y =>
    have hh := hold_of hy
    have hno : holdOf y.st = none → Inv log (s.setCall i { y with st := .dropped }) := by
      intro hn
      rw [hn] at hh
      exact inv_setCall hy hp (by rw [upd_hold_eq]; exact hpl; exact hh) h.acquires h.connecting
        (by intro _ _ h; cases h)
    have hyes : ∀ c, holdOf y.st = some c →
        Inv (log ++ [.closed c]) (s.setCall i { y with st := .dropped }) := by
      intro c hn
      rw [hn] at hh
      exact inv_setCall hy hp (hpl.closedHeld hh) h.acquires h.connecting
        (by intro _ _ h; cases h)
    simp only
    cases hst : y.st with
    | waiting inner => simp only [List.append_nil]; exact hno (by rw [hst]; rfl)
    | replied inner f =>
      cases f with
      | ready c => exact hyes c (by rw [hst]; rfl)
      | failed => simp only [List.append_nil]; exact hno (by rw [hst]; rfl)
      | connecting a => simp only [List.append_nil]; exact hno (by rw [hst]; rfl)
    | active c inner => exact hyes c (by rw [hst]; rfl)
    | done v b => simp only [List.append_nil]; exact h
    | failed k => simp only [List.append_nil]; exact h
    | panicked => simp only [List.append_nil]; exact h
    | dropped => simp only [List.append_nil]; exact h

/-- A new call. -/
theorem inv_call {log : List Effect} {s : Sys} (h : Inv log s) (p : Proc) (a : Addr) (v : Val)
    (body : Bytes) : Inv log (s.call p a v body) := by
  obtain ⟨xs, hp, hpl⟩ := inv_pool.1 h.pool
  rw [call]
  have hha : ∀ i b, s.addrOf i = some b →
      addrOf { s with calls := s.calls ++ [⟨p, a, .waiting (.new v body)⟩] } i = some b := by
    intro i b hb
    simp only [addrOf] at hb ⊢
    cases hy : s.calls[i]? with
    | none => rw [hy] at hb; cases hb
    | some y =>
      have hlt : i < s.calls.length := by
        rcases Nat.lt_or_ge i s.calls.length with hl | hl
        · exact hl
        · rw [List.getElem?_eq_none hl] at hy; cases hy
      rw [hy] at hb
      rw [List.getElem?_append_left hlt, hy]
      exact hb
  have hhold : hold { s with calls := s.calls ++ [⟨p, a, .waiting (.new v body)⟩] } = s.hold := by
    funext i
    simp only [hold]
    rcases Nat.lt_or_ge i s.calls.length with hl | hl
    · rw [List.getElem?_append_left hl]
    · rw [List.getElem?_append_right hl, List.getElem?_eq_none hl]
      cases hk : i - s.calls.length with
      | zero => rfl
      | succ n => rfl
  refine inv_send (s := { s with calls := s.calls ++ [⟨p, a, .waiting (.new v body)⟩] })
    (cmd := .acquire a s.calls.length) ⟨inv_pool.2 ⟨xs, hp, ?_⟩, ?_, ?_⟩ rfl ?_
  · rw [hhold]; exact hpl.addCalls hha
  · exact fun b i hm => hha i b (h.acquires b i hm)
  · intro i y inner b hi hy
    simp only at hi
    rcases Nat.lt_or_ge i s.calls.length with hl | hl
    · rw [List.getElem?_append_left hl] at hi
      exact h.connecting i y inner b hi hy
    · rw [List.getElem?_append_right hl] at hi
      cases hk : i - s.calls.length with
      | zero => rw [hk] at hi; cases hi; cases hy
      | succ n => rw [hk] at hi; cases hi
  · intro b i he
    cases he
    simp [addrOf]

/-- The pool is dropped. -/
theorem inv_dropPool {log : List Effect} {s : Sys} (h : Inv log s) :
    Inv (log ++ s.dropPool.1) s.dropPool.2 := by
  have hp := h.pool
  unfold dropPool
  cases hpool : s.pool with
  | none => simp only [List.append_nil]; exact h
  | some p =>
    rw [hpool] at hp
    obtain ⟨size, ip, h1, h2⟩ := hp
    obtain ⟨ys, h3, h4⟩ := pool_idle h1
    simp only
    refine ⟨⟨rfl, ?_⟩, ?_, h.connecting⟩
    · rw [← h3, queued_conns, ← List.map_append]
      exact Places.closedIdles (pooled := []) (by
        rw [List.append_nil]; exact h2.perm (h4.append_right _))
    · intro a i hm; cases hm

/-- A reply. -/
theorem inv_reply {log : List Effect} {s : Sys} {a : Addr} {f : Pooled} {i : Nat}
    {xs : List (Addr × Conn)} (hp : s.pooled xs)
    (hpl : Places log s.hold (match f with | .ready c => (a, c) :: xs | _ => xs) s.next s.addrOf)
    (hf : ∀ b, f = .connecting b → b = a) (hai : s.addrOf i = some a)
    (ha : ∀ a i, .acquire a i ∈ s.queue → s.addrOf i = some a) (hc : s.Aimed) :
    Inv (log ++ (s.reply i a f).1) (s.reply i a f).2 := by
  unfold reply
  split
  · next p b inner hy =>
    have hh := hold_of hy
    have hb : b = a := by
      rw [addr_of hy] at hai
      cases hai
      rfl
    subst hb
    refine inv_setCall (y := ⟨p, b, .waiting inner⟩) (xs := xs) hy hp ?_ ha hc ?_
    · cases f with
      | ready c => exact hpl.took hh hai
      | connecting b => rw [List.append_nil, upd_hold_eq]; exact hpl; exact hh
      | failed => rw [List.append_nil, upd_hold_eq]; exact hpl; exact hh
    · intro inner' b' he
      cases he
      exact hf _ rfl
  · refine ⟨inv_pool.2 ⟨xs, hp, ?_⟩, ha, hc⟩
    cases f with
    | ready c => exact hpl.closedIdle
    | connecting b => rw [List.append_nil]; exact hpl
    | failed => rw [List.append_nil]; exact hpl

/-- A command is handled. -/
theorem inv_handle {log : List Effect} {s : Sys} (h : Inv log s) (now : Time) :
    Inv (log ++ (s.handle now).1) (s.handle now).2 := by
  have hp := h.pool
  unfold handle
  cases hpool : s.pool with
  | none => simp only [List.append_nil]; exact h
  | some p =>
    rw [hpool] at hp
    obtain ⟨size, ip, h1, h2⟩ := hp
    cases hq : s.queue with
    | nil => simp only [List.append_nil]; exact h
    | cons cmd q =>
      have hacq : ∀ a i, .acquire a i ∈ q → s.addrOf i = some a := fun a i hm =>
        h.acquires a i (by rw [hq]; exact List.mem_cons_of_mem _ hm)
      rw [hq] at h2
      cases cmd with
      | acquire a i =>
        obtain ⟨f, p', ip', e1, e2, e3, -⟩ := pool_acquire h1 a now
        simp only [Cmd.event, e1]
        refine inv_reply (xs := ip'.idle ++ queued q) ⟨size, ip', e2, rfl⟩ ?_ ?_
          (h.acquires a i (by rw [hq]; exact List.mem_cons_self)) hacq h.connecting
        · cases f with
          | ready c => exact h2.perm (e3.append_right _)
          | connecting b => simp only at e3 ⊢; rw [e3.2]; exact h2
          | failed => simp only at e3 ⊢; rw [e3.1]; exact h2
        · intro b hb
          subst hb
          exact e3.1
      | release a c =>
        rcases pool_release h1 a c with e1 | ⟨xs, p', ip', e1, e2, e3, -⟩
        · simp only [Cmd.event, e1]
          exact inv_dropPool h
        · simp only [Cmd.event, e1]
          refine ⟨⟨size, ip', e2, ?_⟩, hacq, h.connecting⟩
          refine Places.closedIdles ?_
          rw [← List.append_assoc, ← e3, List.append_assoc]
          exact h2
      | blacklist a =>
        rcases pool_blacklist h1 a now with e1 | ⟨p', ip', e1, e2, e3, -⟩
        · simp only [Cmd.event, e1]
          exact inv_dropPool h
        · simp only [Cmd.event, e1]
          refine ⟨⟨size, ip', e2, ?_⟩, hacq, h.connecting⟩
          rw [e3]
          exact h2.other rfl

theorem inv_step [FloatText] {log : List Effect} {s : Sys} (h : Inv log s) (e : SysEvent) :
    Inv (log ++ (s.step e).1) (s.step e).2 := by
  cases e with
  | call p a v body => rw [step, List.append_nil]; exact inv_call h p a v body
  | handle now => exact inv_handle h now
  | setSuspended d =>
    rw [step, List.append_nil]
    have hp := h.pool
    cases hpool : s.pool with
    | none =>
      rw [hpool] at hp
      exact ⟨hp, h.acquires, h.connecting⟩
    | some p =>
      rw [hpool] at hp
      obtain ⟨size, ip, h1, h2⟩ := hp
      obtain ⟨ip', e1, e2, -⟩ := pool_setSuspended h1 d
      exact ⟨⟨size, ip', e1, by rw [e2]; exact h2⟩, h.acquires, h.connecting⟩
  | dropPool => exact inv_dropPool h
  | poll i r => exact inv_poll h i r
  | dropCall i => exact inv_dropCall h i

theorem inv_run [FloatText] {log : List Effect} {s : Sys} (h : Inv log s) (evs : List SysEvent) :
    Inv (log ++ (run evs s).1) (run evs s).2 := by
  induction evs generalizing log s with
  | nil => rw [run, List.append_nil]; exact h
  | cons e evs ih =>
    have := ih (inv_step h e)
    rw [List.append_assoc] at this
    exact this

theorem inv_new (size : Nat) : Inv [] (new size) := by
  refine ⟨⟨size, .new, new_like size, ?_⟩, (by intro _ _ h; cases h), ?_⟩
  · exact Places.initial
  · intro i y inner a h; simp [new] at h

end Sys

end Htrpc
