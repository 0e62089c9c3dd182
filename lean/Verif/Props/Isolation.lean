/-
C126: a call that has its connection depends on nothing else.
-/
import Verif.Spec.Isolation
import Verif.Lemmas.Turns
import Verif.Props.Progress
import Mathlib.Data.List.Induction

set_option linter.unusedSectionVars false

namespace Htrpc
open Spec Sys

variable [FloatText]

/-- More results for a call that has come so far. -/
def CallEnd.go (p : Proc) : CallEnd → List IoResult → CallEnd
  | .pending st, rs => (callRun p st rs).2
  | e, _ => e

/-- A call after a round. -/
def CallOutcome.end (st : CallInner) : CallOutcome → CallEnd
  | .pending => .pending st
  | .next st => .pending st
  | .ready v b => .ready v b
  | .failed k => .failed k
  | .panicked => .panicked

theorem callRun_cons (p : Proc) (st : CallInner) (r : IoResult) (rs : List IoResult) :
    (callRun p st (r :: rs)).2 = ((callStep p st r).end st).go p rs := by
  rw [callRun]
  cases callStep p st r <;> rfl

theorem go_cons (p : Proc) (st : CallInner) (r : IoResult) (rs : List IoResult) :
    (CallEnd.pending st).go p (r :: rs) = ((callStep p st r).end st).go p rs :=
  callRun_cons p st r rs

/-- A round of a call with a connection. -/
theorem settle_end (i : Nat) (y : PCall) (c : Conn) (inner : CallInner) (s : Sys) (o : CallOutcome)
    (h : i < s.calls.length) :
    (s.settle i y c inner o).2.calls[i]? = some { y with st := asPooled c false (o.end inner) } := by
  cases o with
  | ready v b =>
    rw [Sys.settle, send_calls]
    simp [Sys.setCall, h, CallOutcome.end, asPooled]
  | _ => simp [Sys.settle, Sys.setCall, h, CallOutcome.end, asPooled]

theorem settle_ne (i j : Nat) (y : PCall) (c : Conn) (inner : CallInner) (s : Sys) (o : CallOutcome)
    (h : j ≠ i) : (s.settle j y c inner o).2.calls[i]? = s.calls[i]? := by
  cases o with
  | ready v b => simp [Sys.settle, send_calls, Sys.setCall, List.getElem?_set_ne h]
  | _ => simp [Sys.settle, Sys.setCall, List.getElem?_set_ne h]

theorem poll_ne (i j : Nat) (r : IoResult) (s : Sys) (h : j ≠ i) :
    (s.poll j r).2.calls[i]? = s.calls[i]? := by
  unfold Sys.poll
  split
  · rfl
  · split
    · split
      · rfl
      · simp [Sys.setCall, List.getElem?_set_ne h]
    · exact settle_ne _ _ _ _ _ _ _ h
    · simp [Sys.setCall, List.getElem?_set_ne h]
    · split
      · exact settle_ne i j _ _ _ { s with next := s.next + 1 } _ h
      · rw [send_calls]
        simp [Sys.setCall, List.getElem?_set_ne h]
      · rfl
    · exact settle_ne _ _ _ _ _ _ _ h
    · rfl

theorem dropCall_ne (i j : Nat) (s : Sys) (h : j ≠ i) :
    (s.dropCall j).2.calls[i]? = s.calls[i]? := by
  unfold Sys.dropCall
  split
  · rfl
  · split <;> first | rfl | simp [Sys.setCall, List.getElem?_set_ne h]

/-- Handling a command concerns a call only if that waits. -/
theorem handle_keeps (now : Time) (s : Sys) (i : Nat) (y : PCall) (h : s.calls[i]? = some y) :
    (s.handle now).2.calls[i]? = some y ∨ ∃ inner f, y.st = .waiting inner ∧
      (s.handle now).2.calls[i]? = some { y with st := .replied inner f } := by
  unfold Sys.handle
  split
  · split
    · simp only
      split
      · next a j f _ _ =>
        unfold Sys.reply
        split
        · next p b inner hj =>
          simp only [Sys.setCall]
          by_cases hij : j = i
          · subst hij
            have hj : s.calls[j]? = _ := hj
            rw [h] at hj
            cases hj
            exact .inr ⟨inner, f, rfl, by simp [lt_of_some h]⟩
          · exact .inl (by simpa [List.getElem?_set_ne hij] using h)
        · exact .inl h
      all_goals exact .inl h
    · exact .inl (by rw [dropPool_calls]; exact h)
  · exact .inl h

/-- Other events do not concern a call that has its connection. -/
theorem step_keeps (s : Sys) (e : SysEvent) (i : Nat) (y : PCall) (h : s.calls[i]? = some y)
    (hw : ∀ inner, y.st ≠ .waiting inner) (hp : ∀ r, e ≠ .poll i r) (hd : isDrop i e = false) :
    (s.step e).2.calls[i]? = some y := by
  cases e with
  | call p a v body =>
    rw [Sys.step, Sys.call, send_calls]
    simp only
    rw [List.getElem?_append_left (lt_of_some h)]
    exact h
  | handle now =>
    rcases handle_keeps now s i y h with h | ⟨inner, f, h1, -⟩
    · exact h
    · exact absurd h1 (hw inner)
  | setSuspended d => exact h
  | dropPool => rw [Sys.step, dropPool_calls]; exact h
  | poll j r =>
    rw [Sys.step, poll_ne i j r s (fun hj => hp r (hj ▸ rfl))]
    exact h
  | dropCall j =>
    rw [Sys.step, dropCall_ne i j s (by simpa [isDrop] using hd)]
    exact h

theorem pollsOf_cons (i : Nat) (e : SysEvent) (evs : List SysEvent) :
    pollsOf i (e :: evs) = pollsOf i [e] ++ pollsOf i evs := by
  rw [pollsOf, ← List.singleton_append, List.filterMap_append]
  rfl

/-- A finished call stays as it is. -/
theorem settled_run (evs : List SysEvent) (s : Sys) (i : Nat) (y : PCall) (h : s.calls[i]? = some y)
    (hw : ∀ inner, y.st ≠ .waiting inner) (hr : ∀ inner f, y.st ≠ .replied inner f)
    (ha : ∀ c inner, y.st ≠ .active c inner) : (Sys.run evs s).2.calls[i]? = some y := by
  induction evs generalizing s with
  | nil => exact h
  | cons e evs ih =>
    refine ih _ ?_
    show (s.step e).2.calls[i]? = some y
    by_cases hp : ∃ r, e = .poll i r
    · obtain ⟨r, rfl⟩ := hp
      rw [Sys.step, Sys.poll, h]
      simp only
      split
      · next h' => exact absurd h' (hw _)
      · next h' => exact absurd h' (hr _ _)
      · next h' => exact absurd h' (hr _ _)
      · next h' => exact absurd h' (hr _ _)
      · next h' => exact absurd h' (ha _ _)
      · exact h
    · by_cases hd : isDrop i e = true
      · obtain ⟨rfl⟩ : e = .dropCall i := by
          cases e <;> simp_all [isDrop]
        rw [Sys.step, Sys.dropCall, h]
        simp only
        split
        · next h' => exact absurd h' (hw _)
        · next h' => exact absurd h' (hr _ _)
        · next h' => exact absurd h' (hr _ _)
        · next h' => exact absurd h' (ha _ _)
        · exact h
      · exact step_keeps s e i y h hw (fun r h => hp ⟨r, h⟩) (by simpa using hd)

theorem asPooled_run (evs : List SysEvent) (s : Sys) (i : Nat) (p : Proc) (a : Addr) (c : Conn)
    (e : CallEnd) (h : s.calls[i]? = some ⟨p, a, asPooled c false e⟩) :
    (Sys.run evs s).2.calls[i]? =
      some ⟨p, a, asPooled c (evs.any (isDrop i)) (e.go p (pollsUntilDrop i evs))⟩ := by
  induction evs generalizing s e with
  | nil =>
    cases e <;> exact h
  | cons x evs ih =>
    cases e with
    | pending inner =>
      by_cases hd : isDrop i x = true
      · obtain ⟨rfl⟩ : x = .dropCall i := by
          cases x <;> simp_all [isDrop]
        have h1 : (s.step (.dropCall i)).2.calls[i]? = some ⟨p, a, .dropped⟩ := by
          rw [Sys.step, Sys.dropCall, h]
          simp [asPooled, Sys.setCall, lt_of_some h]
        have h2 := settled_run evs _ i _ h1 (fun _ h => nomatch h) (fun _ _ h => nomatch h)
          (fun _ _ h => nomatch h)
        refine h2.trans ?_
        have h3 : pollsUntilDrop i (SysEvent.dropCall i :: evs) = [] := by
          simp [pollsUntilDrop, pollsOf, isDrop]
        rw [h3]
        simp [isDrop, CallEnd.go, callRun, asPooled]
      · have hd' : isDrop i x = false := by simpa using hd
        have hany : (x :: evs).any (isDrop i) = evs.any (isDrop i) := by simp [hd']
        have hpoll : pollsUntilDrop i (x :: evs) = pollsOf i [x] ++ pollsUntilDrop i evs := by
          rw [pollsUntilDrop, List.takeWhile_cons, hd', pollsUntilDrop]
          exact pollsOf_cons i x _
        rw [hany, hpoll]
        by_cases hp : ∃ r, x = .poll i r
        · obtain ⟨r, rfl⟩ := hp
          have h1 : (s.step (.poll i r)).2.calls[i]? =
              some ⟨p, a, asPooled c false ((callStep p inner r).end inner)⟩ := by
            rw [Sys.step, Sys.poll, h]
            exact settle_end i _ c inner s _ (lt_of_some h)
          have h3 : pollsOf i [SysEvent.poll i r] = [r] := by simp [pollsOf]
          rw [h3, List.singleton_append, go_cons]
          exact ih _ _ h1
        · have h1 := step_keeps s x i _ h (fun _ h => nomatch h) (fun r h => hp ⟨r, h⟩) hd'
          have h3 : pollsOf i [x] = [] := by
            cases x with
            | poll j r =>
              have : j ≠ i := fun h => hp ⟨r, h ▸ rfl⟩
              simp [pollsOf, this]
            | _ => rfl
          rw [h3, List.nil_append]
          exact ih _ _ h1
    | ready v b =>
      exact settled_run (x :: evs) s i _ h (fun _ h => nomatch h) (fun _ _ h => nomatch h)
        (fun _ _ h => nomatch h)
    | failed k =>
      exact settled_run (x :: evs) s i _ h (fun _ h => nomatch h) (fun _ _ h => nomatch h)
        (fun _ _ h => nomatch h)
    | panicked =>
      exact settled_run (x :: evs) s i _ h (fun _ h => nomatch h) (fun _ _ h => nomatch h)
        (fun _ _ h => nomatch h)

/-- **C126.** A call that has its connection goes on as a plain call with the same results, whatever happens
otherwise: to the pool, to other calls and their connections. -/
theorem C126_alone (s : Sys) (evs : List SysEvent) (i : Nat) (p : Proc) (a : Addr) (c : Conn)
    (inner : CallInner) (h : s.calls[i]? = some ⟨p, a, .active c inner⟩) :
    (Sys.run evs s).2.calls[i]? =
      some ⟨p, a, asPooled c (evs.any (isDrop i)) (callRun p inner (pollsUntilDrop i evs)).2⟩ :=
  asPooled_run evs s i p a c (.pending inner) h

/-- **C126.** So two executions in which this call is at the same point and then gets the same results end
in the same way for it. -/
theorem C126_independent (s s' : Sys) (evs evs' : List SysEvent) (i : Nat) (p : Proc) (a : Addr) (c : Conn)
    (inner : CallInner) (h : s.calls[i]? = some ⟨p, a, .active c inner⟩)
    (h' : s'.calls[i]? = some ⟨p, a, .active c inner⟩)
    (hp : pollsUntilDrop i evs = pollsUntilDrop i evs')
    (hd : .dropCall i ∈ evs ↔ .dropCall i ∈ evs') :
    (Sys.run evs s).2.calls[i]? = (Sys.run evs' s').2.calls[i]? := by
  have hany : ∀ l : List SysEvent, l.any (isDrop i) = true ↔ .dropCall i ∈ l := by
    intro l
    rw [List.any_eq_true]
    constructor
    · rintro ⟨x, hx, hd⟩
      cases x <;> simp_all [isDrop]
    · exact fun h => ⟨_, h, by simp [isDrop]⟩
  rw [C126_alone s evs i p a c inner h, C126_alone s' evs' i p a c inner h', hp,
    Bool.eq_iff_iff.2 ((hany evs).trans (hd.trans (hany evs').symm))]

theorem connects_step {s : Sys} {r : IoResult} {i : Nat} {p : Proc} {a : Addr} {v : Val} {b : Bytes} {c : Conn}
    (h : GetsConn s r i p a v b c) : (s.step (.poll i r)).2.calls[i]? =
      some ⟨p, a, asPooled c false (callRun p (.new v b) [.connected]).2⟩ := by
  rw [callRun_cons]
  rcases h with h | ⟨⟨a', h⟩, rfl, rfl⟩
  · rw [Sys.step, Sys.poll, h]
    refine (settle_end i _ c _ s _ (lt_of_some h)).trans ?_
    cases callStep p (.new v b) .connected <;> rfl
  · rw [Sys.step, Sys.poll, h]
    refine (settle_end i _ s.next _ { s with next := s.next + 1 } _ (lt_of_some h)).trans ?_
    cases callStep p (.new v b) .connected <;> rfl

/-- One event for a call without a connection. -/
theorem unconnected_step {s : Sys} {i : Nat} {p : Proc} {a : Addr} {v : Val} {b : Bytes}
    (h : Unconnected s i p a v b) (e : SysEvent) : Unconnected (s.step e).2 i p a v b ∨
      ∃ r c, e = .poll i r ∧ GetsConn s r i p a v b c := by
  obtain ⟨st, h, hst⟩ := h
  by_cases hp : ∃ r, e = .poll i r
  · obtain ⟨r, rfl⟩ := hp
    rcases hst with rfl | ⟨f, rfl⟩ | rfl | rfl
    · left
      cases hpool : s.pool with
      | none =>
        refine ⟨.failed .other, ?_, .inr (.inr (.inr rfl))⟩
        rw [Sys.step, Sys.poll, h]
        simp [hpool, Sys.setCall, lt_of_some h]
      | some q =>
        refine ⟨_, ?_, .inl rfl⟩
        rw [Sys.step, Sys.poll, h]
        simpa [hpool] using h
    · cases f with
      | ready c => exact .inr ⟨r, c, rfl, .inl h⟩
      | failed =>
        refine .inl ⟨.failed .other, ?_, .inr (.inr (.inr rfl))⟩
        rw [Sys.step, Sys.poll, h]
        simp [Sys.setCall, lt_of_some h]
      | connecting a' =>
        cases r with
        | connected => exact .inr ⟨_, s.next, rfl, .inr ⟨⟨a', h⟩, rfl, rfl⟩⟩
        | failed =>
          refine .inl ⟨.failed .other, ?_, .inr (.inr (.inr rfl))⟩
          rw [Sys.step, Sys.poll, h]
          simp only
          rw [send_calls]
          simp [Sys.setCall, lt_of_some h]
        | _ =>
          refine .inl ⟨_, ?_, .inr (.inl ⟨.connecting a', rfl⟩)⟩
          rw [Sys.step, Sys.poll, h]
          exact h
    · refine .inl ⟨_, ?_, .inr (.inr (.inl rfl))⟩
      rw [Sys.step, Sys.poll, h]
      exact h
    · refine .inl ⟨_, ?_, .inr (.inr (.inr rfl))⟩
      rw [Sys.step, Sys.poll, h]
      exact h
  · left
    by_cases hd : isDrop i e = true
    · obtain ⟨rfl⟩ : e = .dropCall i := by
        cases e <;> simp_all [isDrop]
      rw [Sys.step, Sys.dropCall, h]
      rcases hst with rfl | ⟨f, rfl⟩ | rfl | rfl
      · exact ⟨.dropped, by simp [Sys.setCall, lt_of_some h], .inr (.inr (.inl rfl))⟩
      · refine ⟨.dropped, ?_, .inr (.inr (.inl rfl))⟩
        cases f <;> simp [Sys.setCall, lt_of_some h]
      · exact ⟨_, h, .inr (.inr (.inl rfl))⟩
      · exact ⟨_, h, .inr (.inr (.inr rfl))⟩
    · have hd' : isDrop i e = false := by simpa using hd
      rcases hst with rfl | hst
      · by_cases hh : ∃ now, e = .handle now
        · obtain ⟨now, rfl⟩ := hh
          rcases handle_keeps now s i _ h with h1 | ⟨inner, f, h1, h2⟩
          · exact ⟨_, h1, .inl rfl⟩
          · cases h1
            exact ⟨_, h2, .inr (.inl ⟨f, rfl⟩)⟩
        · refine ⟨_, ?_, .inl rfl⟩
          cases e with
          | handle now => exact absurd ⟨now, rfl⟩ hh
          | call p a v body =>
            rw [Sys.step, Sys.call, send_calls]
            simp only
            rw [List.getElem?_append_left (lt_of_some h)]
            exact h
          | setSuspended d => exact h
          | dropPool => rw [Sys.step, dropPool_calls]; exact h
          | poll j r =>
            rw [Sys.step, poll_ne i j r s (fun hj => hp ⟨r, hj ▸ rfl⟩)]
            exact h
          | dropCall j =>
            rw [Sys.step, dropCall_ne i j s (by simpa [isDrop] using hd')]
            exact h
      · refine ⟨st, step_keeps s e i _ h ?_ (fun r h => hp ⟨r, h⟩) hd', .inr hst⟩
        rintro inner hw
        rcases hst with ⟨f, hst⟩ | hst | hst <;> rw [hst] at hw <;> cases hw

/-- **C126.** Every call through a pool either has no connection so far, and has done nothing then, or got
one at some moment, and is from there on a plain call of the same procedure with the same arguments that gets
the results of its polls. -/
theorem C126_plain (size : Nat) (evs : List SysEvent) (i : Nat) (p : Proc) (a : Addr) (v : Val) (b : Bytes)
    (h : (asked evs)[i]? = some (p, a, v, b)) :
    Unconnected (Sys.run evs (.new size)).2 i p a v b ∨
    ∃ before r after c, evs = before ++ .poll i r :: after ∧
      Unconnected (Sys.run before (.new size)).2 i p a v b ∧
      GetsConn (Sys.run before (.new size)).2 r i p a v b c ∧
      (Sys.run evs (.new size)).2.calls[i]? = some ⟨p, a, asPooled c (after.any (isDrop i))
        (callRun p (.new v b) (.connected :: pollsUntilDrop i after)).2⟩ := by
  suffices hs : Unconnected (Sys.run evs (.new size)).2 i p a v b ∨
      ∃ before r after c, evs = before ++ .poll i r :: after ∧
        Unconnected (Sys.run before (.new size)).2 i p a v b ∧
        GetsConn (Sys.run before (.new size)).2 r i p a v b c by
    refine hs.imp_right ?_
    rintro ⟨before, r, after, c, rfl, hu, hc⟩
    refine ⟨before, r, after, c, rfl, hu, hc, ?_⟩
    rw [sys_run_append, Sys.run]
    have := asPooled_run after _ i p a c _ (connects_step hc)
    refine this.trans ?_
    rw [callRun_cons, callRun_cons]
    cases callStep p (.new v b) .connected <;> rfl
  induction evs using List.reverseRecOn with
  | nil => cases h
  | append_singleton evs e ih =>
    have hone : (Sys.run (evs ++ [e]) (.new size)).2 = ((Sys.run evs (.new size)).2.step e).2 := by
      rw [sys_run_append]
      rfl
    rw [asked_append] at h
    by_cases hi : i < (asked evs).length
    · rw [List.getElem?_append_left hi] at h
      rcases ih h with hu | ⟨before, r, after, c, he, hc⟩
      · rcases unconnected_step hu e with h1 | ⟨r, c, rfl, hc⟩
        · exact .inl (hone ▸ h1)
        · exact .inr ⟨evs, r, [], c, rfl, hu, hc⟩
      · exact .inr ⟨before, r, after ++ [e], c, by rw [he]; simp, hc⟩
    · rw [List.getElem?_append_right (by omega)] at h
      left
      cases e with
      | call p' a' v' b' =>
        have hl := (wire_reach size evs).2.len
        obtain ⟨hi', he⟩ : i = (asked evs).length ∧ (p', a', v', b') = (p, a, v, b) := by
          rw [show asked [SysEvent.call p' a' v' b'] = [(p', a', v', b')] from rfl] at h
          obtain ⟨h1, h2⟩ := List.getElem?_eq_some_iff.1 h
          simp at h1
          simp at h2
          exact ⟨by omega, by simpa using h2⟩
        cases he
        refine ⟨_, ?_, .inl rfl⟩
        rw [hone, Sys.step, Sys.call, send_calls, hi', ← hl]
        simp
      | _ => simp [asked] at h

namespace IsolationExamples

/-- `C126_alone`: the pool is dropped, another call is dropped, this one goes on. -/
example (p : Proc) (a : Addr) (c : Conn) (r : Request) (s : Sys)
    (h : s.calls[1]? = some ⟨p, a, .active c ⟨none, .write r⟩⟩) :
    (Sys.run [.dropPool, .poll 1 .written, .dropCall 0, .poll 1 .notReady, .poll 0 .failed] s).2.calls[1]? =
      some ⟨p, a, .active c ⟨none, .readHead⟩⟩ :=
  C126_alone s _ 1 p a c _ h

/-- `C126_alone`: and it may be dropped. -/
example (p : Proc) (a : Addr) (c : Conn) (r : Request) (s : Sys)
    (h : s.calls[1]? = some ⟨p, a, .active c ⟨none, .write r⟩⟩) :
    (Sys.run [.poll 1 .written, .dropCall 1, .poll 1 .failed] s).2.calls[1]? = some ⟨p, a, .dropped⟩ :=
  C126_alone s _ 1 p a c _ h

/-- `C126_independent`: with the pool and without. -/
example (s : Sys) (p : Proc) (a : Addr) (c : Conn) (inner : CallInner)
    (h : s.calls[0]? = some ⟨p, a, .active c inner⟩) (code : Nat) (hs : List Header) (b : Bytes) :
    (Sys.run [.poll 0 (.head code hs), .handle 5, .poll 0 (.body b)] s).2.calls[0]? =
      (Sys.run [.dropPool, .poll 0 (.head code hs), .poll 0 (.body b)] s).2.calls[0]? :=
  C126_independent s s _ _ 0 p a c inner h h rfl (by simp)

/-- `C126_plain`: a call that gets a new connection to which it writes. -/
example (p : Proc) (a : Addr) (v : Val) (b : Bytes) (r : Request)
    (hr : serRequest p.method p.entry v b = .ok r) :
    (Sys.run [.call p a v b, .handle 0, .poll 0 .connected, .dropPool, .poll 0 .written]
      (.new 3)).2.calls[0]? = some ⟨p, a, .active 0 ⟨none, .readHead⟩⟩ ∧
    (callRun p (.new v b) [.connected, .written]).2 = .pending ⟨none, .readHead⟩ := by
  have hc : (callRun p (.new v b) [.connected, .written]).2 = .pending ⟨none, .readHead⟩ := by
    simp [callRun, callStep, CallInner.new, hr]
  refine ⟨?_, hc⟩
  have hs : (Sys.run [.call p a v b, .handle 0] (.new 3)).2.calls[0]? =
      some ⟨p, a, .replied (.new v b) (.connecting a)⟩ ∧
      (Sys.run [.call p a v b, .handle 0] (.new 3)).2.next = 0 := by
    simp [Sys.run, Sys.step, Sys.call, Sys.send, Sys.new, Sys.handle, Cmd.event, Pool.step,
      Pool.handleAcquire, Pool.acquire, Pool.withSize, BTreeMap.firstFrom, Sys.reply, Sys.setCall]
  rcases C126_plain 3 [.call p a v b, .handle 0, .poll 0 .connected, .dropPool, .poll 0 .written] 0 p a v b rfl
    with ⟨st, h, hst⟩ | ⟨before, r', after, c, he, hu, hcon, h⟩
  · have h' := asPooled_run [.dropPool, .poll 0 .written] _ 0 p a 0 _ (connects_step (r := .connected)
      (.inr ⟨⟨a, hs.1⟩, rfl, hs.2.symm⟩))
    have h'' : some (⟨p, a, st⟩ : PCall) = _ := h.symm.trans h'
    simp [callRun, callStep, CallInner.new, hr, CallEnd.go, pollsUntilDrop, pollsOf, isDrop, asPooled] at h''
    rcases hst with rfl | ⟨f, rfl⟩ | rfl | rfl <;> cases h''
  · match before, he with
    | [_, _], he =>
      simp only [List.cons_append, List.nil_append, List.cons.injEq] at he
      obtain ⟨rfl, rfl, hx, rfl⟩ := he
      cases hx
      rcases hcon with hcon | ⟨-, -, rfl⟩
      · rw [hs.1] at hcon; cases hcon
      · rw [h, hs.2]
        have h3 : pollsUntilDrop 0 [SysEvent.dropPool, .poll 0 .written] = [.written] := rfl
        rw [h3, hc]
        rfl
    | [_, _, _, _], he =>
      simp only [List.cons_append, List.nil_append, List.cons.injEq] at he
      obtain ⟨rfl, rfl, rfl, rfl, hx, rfl⟩ := he
      cases hx
      obtain ⟨st, hu, hst⟩ := hu
      have h' := asPooled_run [.dropPool] _ 0 p a 0 _ (connects_step (r := .connected)
        (.inr ⟨⟨a, hs.1⟩, rfl, hs.2.symm⟩))
      have h'' : some (⟨p, a, st⟩ : PCall) = _ := hu.symm.trans h'
      simp [callRun, callStep, CallInner.new, hr, CallEnd.go, pollsUntilDrop, pollsOf, isDrop, asPooled] at h''
      rcases hst with rfl | ⟨f, rfl⟩ | rfl | rfl <;> cases h''
    | [], he => simp at he
    | [_], he => simp at he
    | [_, _, _], he => simp at he
    | _ :: _ :: _ :: _ :: _ :: _, he => simp at he

end IsolationExamples

end Htrpc
