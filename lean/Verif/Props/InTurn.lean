/-
C142: idle connections are used in turn.
-/
import Verif.Spec.InTurn
import Verif.Props.OpenConns

set_option linter.unusedSectionVars false

namespace Htrpc
open Spec

/-- The idle connections to an address, the one put back first in front. -/
def idleFor (a : Addr) (l : List (Addr × Conn)) : List Conn := l.filterMap fun e => if e.1 = a then some e.2 else none

theorem takeIdle_idleFor {b : Addr} {l l' : List (Addr × Conn)} {c : Conn} (h : takeIdle b l = some (c, l')) (a : Addr) :
    idleFor a l = (if b = a then [c] else []) ++ idleFor a l' := by
  induction l generalizing l' with
  | nil => cases h
  | cons e l ih =>
    obtain ⟨x, d⟩ := e
    rw [takeIdle] at h
    split at h
    · split at h
      · rename_i hx
        cases h
        subst hx
        by_cases hxa : x = a <;> simp [idleFor, hxa]
      · cases h
    · rename_i hn
      cases ht : takeIdle b l with
      | none => rw [ht] at h; cases h
      | some r =>
        rw [ht] at h
        cases h
        have := ih (l' := r.2) ht
        by_cases hxa : x = a
        · have hba : b ≠ a := by
            rintro rfl
            exact hn (hxa ▸ ⟨rfl, rfl⟩)
          simp only [idleFor, List.filterMap_cons, hxa, if_true, hba, if_false, List.nil_append] at this ⊢
          rw [this]
        · simp only [idleFor, List.filterMap_cons, hxa, if_false] at this ⊢
          exact this

/-- The connections that were put back are, in this order: those that have left the pool, among them the ones that
were taken, those in the pool, and those on the way to it. -/
def InTurn (a : Addr) (log : List Effect) (s : Sys) : Prop :=
  match s.pool with
  | none => (takenFor a log).Sublist (putBackFor a log)
  | some p => ∃ size ip gone, p.Like size ip ∧ putBackFor a log = gone ++ (idleFor a ip.idle ++ queuedFor a s.queue) ∧
      (takenFor a log).Sublist gone

theorem takenFor_append (a : Addr) (l l' : List Effect) : takenFor a (l ++ l') = takenFor a l ++ takenFor a l' :=
  List.filterMap_append

theorem putBackFor_append (a : Addr) (l l' : List Effect) :
    putBackFor a (l ++ l') = putBackFor a l ++ putBackFor a l' := List.filterMap_append

theorem queuedFor_append (a : Addr) (l l' : List Cmd) : queuedFor a (l ++ l') = queuedFor a l ++ queuedFor a l' :=
  List.filterMap_append

theorem takenFor_closed (a : Addr) (cs : List Conn) : takenFor a (cs.map .closed) = [] := by
  rw [takenFor, List.filterMap_map, List.filterMap_eq_nil_iff]
  intro c _
  rfl

theorem putBackFor_closed (a : Addr) (cs : List Conn) : putBackFor a (cs.map .closed) = [] := by
  rw [putBackFor, List.filterMap_map, List.filterMap_eq_nil_iff]
  intro c _
  rfl

section
variable [FloatText]

/-- What is neither put back nor taken makes no difference. -/
theorem inTurn_same {a : Addr} {log : List Effect} {s s' : Sys} (h : InTurn a log s) (es : List Effect)
    (h1 : takenFor a es = []) (h2 : putBackFor a es = []) (hp : s'.pool = s.pool)
    (hq : queuedFor a s'.queue = queuedFor a s.queue) : InTurn a (log ++ es) s' := by
  rw [InTurn] at h ⊢
  rw [takenFor_append, putBackFor_append, h1, h2, List.append_nil, List.append_nil, hp, hq]
  exact h

theorem inTurn_sublist {a : Addr} {log : List Effect} {s : Sys} (h : InTurn a log s) :
    (takenFor a log).Sublist (putBackFor a log) := by
  rw [InTurn] at h
  split at h
  · exact h
  · obtain ⟨size, ip, gone, -, h1, h2⟩ := h
    rw [h1]
    exact h2.trans (List.sublist_append_left _ _)

theorem inTurn_settle {a : Addr} {log : List Effect} {s : Sys} (h : InTurn a log s) (i : Nat) (y : PCall) (c : Conn)
    (inner : CallInner) (o : CallOutcome) :
    InTurn a (log ++ (s.settle i y c inner o).1) (s.settle i y c inner o).2 := by
  cases o with
  | pending => exact inTurn_same h [] rfl rfl rfl rfl
  | next inner => exact inTurn_same h [] rfl rfl rfl rfl
  | failed k => exact inTurn_same h _ rfl rfl rfl rfl
  | panicked => exact inTurn_same h _ rfl rfl rfl rfl
  | ready v body =>
    have hsub := inTurn_sublist h
    rw [InTurn] at h
    cases hp : s.pool with
    | none =>
      simp only [Sys.settle, Sys.send, Sys.setCall, hp, InTurn]
      rw [takenFor_append, putBackFor_append]
      exact hsub.append (List.nil_sublist _)
    | some p =>
      rw [hp] at h
      obtain ⟨size, ip, gone, h1, h2, h3⟩ := h
      simp only [Sys.settle, Sys.send, Sys.setCall, hp, InTurn]
      refine ⟨size, ip, gone, h1, ?_, ?_⟩
      · rw [putBackFor_append, queuedFor_append, h2, List.append_assoc, List.append_assoc]
        congr 2
      · rw [takenFor_append]
        simpa [takenFor] using h3

theorem inTurn_dropPool {a : Addr} {log : List Effect} {s : Sys} (h : InTurn a log s) :
    InTurn a (log ++ s.dropPool.1) s.dropPool.2 := by
  have hsub := inTurn_sublist h
  rw [Sys.dropPool]
  split
  · exact inTurn_same h [] rfl rfl rfl rfl
  · simp only [InTurn]
    rw [takenFor_append, putBackFor_append, takenFor_closed, putBackFor_closed, List.append_nil, List.append_nil]
    exact hsub

theorem inTurn_handle {a : Addr} {log : List Effect} {s : Sys} (h : InTurn a log s) (now : Time) :
    InTurn a (log ++ (s.handle now).1) (s.handle now).2 := by
  rw [Sys.handle]
  cases hp : s.pool with
  | none => exact inTurn_same h [] rfl rfl rfl rfl
  | some p =>
    cases hq : s.queue with
    | nil => exact inTurn_same h [] rfl rfl rfl rfl
    | cons cmd q =>
      dsimp only
      cases hs : p.step (cmd.event now) with
      | err k => exact inTurn_dropPool h
      | panic => exact inTurn_dropPool h
      | ok r =>
        obtain ⟨o, p'⟩ := r
        rw [InTurn, hp] at h
        obtain ⟨size, ip, gone, h1, h2, h3⟩ := h
        obtain ⟨p'', h4, h5, -⟩ := step_like' h1 (cmd.event now) (room_of_step hs)
        rw [hs] at h4
        cases h4
        cases cmd with
        | blacklist b =>
          refine ⟨size, _, gone, h5, ?_, ?_⟩
          · rw [putBackFor_append, h2, hq]
            simp [putBackFor, Cmd.event, IdlePool.step, queuedFor]
          · rw [takenFor_append]
            simpa [takenFor] using h3
        | release b c =>
          refine ⟨size, _, gone ++ idleFor a ((ip.idle ++ [(b, c)]).take ((ip.idle ++ [(b, c)]).length - size)), h5, ?_, ?_⟩
          · have e : ∀ k, idleFor a ((ip.idle ++ [(b, c)]).take k) ++ idleFor a ((ip.idle ++ [(b, c)]).drop k) =
                idleFor a (ip.idle ++ [(b, c)]) := by
              intro k
              rw [idleFor, idleFor, idleFor, ← List.filterMap_append, List.take_append_drop]
            simp only [Cmd.event, IdlePool.step]
            rw [putBackFor_append, putBackFor_closed, h2, hq, List.append_nil, List.append_assoc, ← List.append_assoc (idleFor a _),
              e, idleFor, idleFor, List.filterMap_append, List.append_assoc]
            congr 2
            simp only [queuedFor, List.filterMap_cons, List.filterMap_nil]
            by_cases hb : b = a <;> simp [hb]
          · simp only [Cmd.event, IdlePool.step]
            rw [takenFor_append, takenFor_closed, List.append_nil]
            exact h3.trans (List.sublist_append_left _ _)
        | acquire b i =>
          have hqq : queuedFor a s.queue = queuedFor a q := by rw [hq]; rfl
          rw [hqq] at h2
          -- whatever the answer is, `gone'` is what has left the pool
          have key : ∀ (gone' : List Conn) (f : Pooled),
              putBackFor a log = gone' ++ (idleFor a (ip.step size (.acquire b now)).2.idle ++ queuedFor a q) →
              (takenFor a log ++ (match f with | .ready c => if b = a then [c] else [] | _ => [])).Sublist gone' →
              InTurn a (log ++ (Sys.reply i b f { s with pool := some p', queue := q }).1)
                (Sys.reply i b f { s with pool := some p', queue := q }).2 := by
            intro gone' f h6 h7
            have h8 : (takenFor a log).Sublist gone' := (List.sublist_append_left _ _).trans h7
            unfold Sys.reply
            split
            · refine ⟨size, _, gone', h5, ?_, ?_⟩
              · rw [putBackFor_append, h6]
                cases f <;> simp [putBackFor, Sys.setCall, Cmd.event]
              · rw [takenFor_append]
                cases f with
                | ready c =>
                  by_cases hb : b = a
                  · simpa [takenFor, hb] using h7
                  · simpa [takenFor, hb] using h8
                | connecting x => simpa [takenFor] using h8
                | failed => simpa [takenFor] using h8
            · refine ⟨size, _, gone', h5, ?_, ?_⟩
              · rw [putBackFor_append, h6]
                cases f <;> simp [putBackFor, Cmd.event]
              · rw [takenFor_append]
                cases f <;> simpa [takenFor] using h8
          by_cases hsus : ∃ u, ip.suspended b = some u ∧ now < u
          · simp only [Cmd.event, IdlePool.step, if_pos hsus] at key ⊢
            exact key gone .failed h2 (by simpa using h3)
          · simp only [Cmd.event, IdlePool.step, if_neg hsus] at key ⊢
            cases ht : takeIdle b ip.idle with
            | none =>
              simp only [ht] at key ⊢
              exact key gone _ h2 (by simpa using h3)
            | some r =>
              simp only [ht] at key ⊢
              refine key (gone ++ if b = a then [r.1] else []) (.ready r.1) ?_ ?_
              · rw [h2, takeIdle_idleFor (l' := r.2) ht a, List.append_assoc, List.append_assoc]
              · exact h3.append (List.Sublist.refl _)

theorem inTurn_step {a : Addr} {log : List Effect} {s : Sys} (h : InTurn a log s) (e : SysEvent) :
    InTurn a (log ++ (s.step e).1) (s.step e).2 := by
  cases e with
  | call p b v body =>
    refine inTurn_same h [] rfl rfl (by simp [Sys.step, Sys.call, Sys.send_pool]) ?_
    simp only [Sys.step, Sys.call, Sys.send]
    split
    · rfl
    · rw [queuedFor_append]
      exact List.append_nil _
  | handle now => exact inTurn_handle h now
  | setSuspended d =>
    rw [InTurn] at h ⊢
    cases hp : s.pool with
    | none =>
      rw [hp] at h
      simpa [Sys.step, hp] using h
    | some p =>
      rw [hp] at h
      obtain ⟨size, ip, gone, h1, h2, h3⟩ := h
      obtain ⟨ip', h4, h5, -⟩ := pool_setSuspended h1 d
      simp only [Sys.step, hp, Option.map_some, List.append_nil]
      exact ⟨size, ip', gone, h4, by rw [h5]; exact h2, h3⟩
  | dropPool => exact inTurn_dropPool h
  | poll i r =>
    rw [Sys.step, Sys.poll]
    split
    · exact inTurn_same h [] rfl rfl rfl rfl
    · rename_i y hy
      split
      · split
        · exact inTurn_same h [] rfl rfl rfl rfl
        · exact inTurn_same h [] rfl rfl rfl rfl
      · exact inTurn_settle h i y _ _ _
      · exact inTurn_same h [] rfl rfl rfl rfl
      · rename_i inner b hst
        split
        · have h' : InTurn a (log ++ [.opened i b s.next]) { s with next := s.next + 1 } :=
            inTurn_same h _ rfl rfl rfl rfl
          have := inTurn_settle h' i y s.next inner (callStep y.proc inner .connected)
          rw [List.append_assoc] at this
          exact this
        · refine inTurn_same h _ rfl rfl (by simp [Sys.send_pool, Sys.setCall]) ?_
          simp only [Sys.send, Sys.setCall]
          split
          · rfl
          · rw [queuedFor_append]
            exact List.append_nil _
        · exact inTurn_same h [] rfl rfl rfl rfl
      · rename_i c inner hst
        have h' : InTurn a (log ++ [.io i c]) s := inTurn_same h _ rfl rfl rfl rfl
        have := inTurn_settle h' i y c inner (callStep y.proc inner r)
        rw [List.append_assoc] at this
        exact this
      · exact inTurn_same h [] rfl rfl rfl rfl
  | dropCall i =>
    rw [Sys.step, Sys.dropCall]
    split
    · exact inTurn_same h [] rfl rfl rfl rfl
    · split <;> exact inTurn_same h _ rfl rfl rfl rfl

theorem inTurn_run {a : Addr} (evs : List SysEvent) {log : List Effect} {s : Sys} (h : InTurn a log s) :
    InTurn a (log ++ (Sys.run evs s).1) (Sys.run evs s).2 := by
  induction evs generalizing log s with
  | nil => exact inTurn_same h [] rfl rfl rfl rfl
  | cons e evs ih =>
    have := ih (inTurn_step h e)
    rw [List.append_assoc] at this
    exact this

theorem inTurn_reach (size : Nat) (a : Addr) (evs : List SysEvent) :
    InTurn a (Sys.run evs (.new size)).1 (Sys.run evs (.new size)).2 := by
  have : InTurn a [] (.new size) := ⟨size, .new, [], new_like size, rfl, List.Sublist.refl _⟩
  simpa using inTurn_run evs this

/-- **C142.** Idle connections are used in turn: the connections given to the calls to an address are among those that
calls to it have put back, in the same order, each as often as it was put back at most. -/
theorem C142_in_turn (size : Nat) (a : Addr) (evs : List SysEvent) :
    (takenFor a (Sys.run evs (.new size)).1).Sublist (putBackFor a (Sys.run evs (.new size)).1) :=
  inTurn_sublist (inTurn_reach size a evs)

/-- **C142.** And the connections that wait to be used again are always those that were put back last: all that were
put back before them have left the pool, given to a call or closed. -/
theorem C142_oldest_first (size : Nat) (a : Addr) (evs : List SysEvent) (p : Pool)
    (hp : (Sys.run evs (.new size)).2.pool = some p) :
    ∃ gone kept, putBackFor a (Sys.run evs (.new size)).1 =
        gone ++ kept ++ queuedFor a (Sys.run evs (.new size)).2.queue ∧
      (takenFor a (Sys.run evs (.new size)).1).Sublist gone ∧ kept.Perm (keptFor a p) := by
  have h := inTurn_reach size a evs
  rw [InTurn, hp] at h
  obtain ⟨_, ip, gone, h1, h2, h3⟩ := h
  refine ⟨gone, _, by rw [h2, List.append_assoc], h3, ?_⟩
  obtain ⟨es, hes, hid⟩ := h1.holds
  rw [idleFor, ← hid, Pool.idleOf, keptFor, List.filterMap_map]
  have := (hes.perm.filterMap fun e : ConnId × Conn => if e.1.addr = a then some e.2 else none).symm
  rw [List.filterMap_map] at this
  exact this

end

namespace InTurnExamples

/-- Two calls at the same time; the second one ends first. Then two calls more. -/
def exTurn : List SysEvent :=
  [.call exProc exA exCallArgs [1], .call exProc exA exCallArgs [1], .handle 0, .handle 0, .poll 0 .connected,
   .poll 1 .connected, .poll 0 .written, .poll 1 .written, .poll 1 (.head 404 []), .poll 1 (.body [7]),
   .poll 0 (.head 404 []), .poll 0 (.body [7]), .handle 0, .handle 0,
   .call exProc exA exCallArgs [1], .handle 0, .call exProc exA exCallArgs [1], .handle 0]

theorem exTurn_run : letI := toyFloat
    ∃ s, Sys.run exTurn (.new 3) = ([.opened 0 exA 0, .opened 1 exA 1, .io 0 0, .io 1 1, .io 1 1, .io 1 1, .returned 1 exA 1,
      .io 0 0, .io 0 0, .returned 0 exA 0, .took 2 exA 1, .took 3 exA 0], s) := by
  let := toyFloat
  obtain ⟨r, hr⟩ := exCall_sent [1]
  have hd : deResponse exProc.resTy 404 [] = .ok (.unitVariant "NotFound".toList) := rfl
  have hm : exProc.method ≠ .head := by decide
  simp [exTurn, Sys.run, Sys.step, Sys.call, Sys.send, Sys.new, Sys.poll, Sys.handle,
    Cmd.event, Pool.step, Pool.handleAcquire, Pool.acquire, Pool.withSize, BTreeMap.firstFrom,
    Sys.reply, Sys.setCall, CallInner.new, hr, Sys.settle, callStep, callDecode, hd, hm, Pool.release,
    BTreeMap.insert, BTreeMap.remove, Pool.dropExceeded, ConnId.lt, natLt, exA]

/-- `C142_in_turn`: connection 1 was put back before connection 0, and is taken before it. -/
example : letI := toyFloat; takenFor exA (Sys.run exTurn (.new 3)).1 = [1, 0] ∧
    putBackFor exA (Sys.run exTurn (.new 3)).1 = [1, 0] := by
  let := toyFloat
  obtain ⟨s, h⟩ := exTurn_run
  rw [h]
  exact ⟨rfl, rfl⟩

end InTurnExamples

end Htrpc
