/-
C151: how many commands calls send to their pool.
-/
import Verif.Spec.Work
import Verif.Lemmas.PoolSystem

namespace Htrpc
open Spec

/-- Commands sent by calls after they were made. -/
def laterCommands (es : List Effect) : Nat := putsBack es + refusedCount es

theorem laterCommands_append (es es' : List Effect) :
    laterCommands (es ++ es') = laterCommands es + laterCommands es' := by
  simp only [laterCommands, putsBack, refusedCount, List.countP_append]
  omega

theorem laterCommands_closed (cs : List Conn) : laterCommands (cs.map .closed) = 0 := by
  simp [laterCommands, putsBack, refusedCount, List.countP_map]

theorem pending_set {s : Sys} {i : Nat} {y : PCall} (h : s.calls[i]? = some y) (y' : PCall) :
    pendingCalls (s.setCall i y') + (if Pending y.st then 1 else 0) =
      pendingCalls s + (if Pending y'.st then 1 else 0) := by
  simp only [pendingCalls, Sys.setCall]
  have key : ∀ (l : List PCall) (i : Nat), l[i]? = some y →
      (l.set i y').countP (fun y => Pending y.st) + (if Pending y.st then 1 else 0) =
        l.countP (fun y => Pending y.st) + (if Pending y'.st then 1 else 0) := by
    intro l
    induction l with
    | nil => intro i h; simp at h
    | cons z l ih =>
      intro i h
      cases i with
      | zero =>
        simp only [List.getElem?_cons_zero, Option.some.injEq] at h
        subst h
        simp only [List.set_cons_zero, List.countP_cons]
        omega
      | succ i =>
        simp only [List.getElem?_cons_succ] at h
        have := ih i h
        simp only [List.set_cons_succ, List.countP_cons]
        omega
  exact key s.calls i h

/-- What a step adds: `n` calls, `t` commands taken by the pool. -/
structure Worked (s : Sys) (n t : Nat) (r : List Effect × Sys) : Prop where
  calls : r.2.calls.length = s.calls.length + n
  pending : laterCommands r.1 + pendingCalls r.2 ≤ pendingCalls s + n
  queue : r.2.queue.length + t ≤ s.queue.length + n + laterCommands r.1
  alive : r.2.pool ≠ none → s.pool ≠ none ∧ r.2.queue.length + t = s.queue.length + n + laterCommands r.1

theorem worked_effects (s : Sys) {es : List Effect} (he : laterCommands es = 0) : Worked s 0 0 (es, s) :=
  ⟨rfl, by simp [he], by simp [he], fun h => ⟨h, by simp [he]⟩⟩

theorem worked_same (s : Sys) : Worked s 0 0 ([], s) := worked_effects s rfl

/-- A call changes its state and sends nothing. -/
theorem worked_set {s : Sys} {i : Nat} {y y' : PCall} (h : s.calls[i]? = some y)
    (hp : Pending y'.st = true → Pending y.st = true) {es : List Effect} (he : laterCommands es = 0) :
    Worked s 0 0 (es, s.setCall i y') := by
  refine ⟨by simp [Sys.setCall], ?_, ?_, fun hx => ⟨hx, ?_⟩⟩
  · have := pending_set h y'
    simp only [he]
    revert this
    split <;> split <;> intro this
    · omega
    · omega
    · rename_i h1 h2; exact absurd (hp h2) h1
    · omega
  · simp [he, Sys.setCall]
  · simp [he, Sys.setCall]

/-- A call ends and sends a command. -/
theorem worked_send {s : Sys} {i : Nat} {y y' : PCall} (h : s.calls[i]? = some y) (hp : Pending y.st = true)
    (hp' : Pending y'.st = false) {es : List Effect} (he : laterCommands es = 1) (cmd : Cmd) :
    Worked s 0 0 (es, (s.setCall i y').send cmd) := by
  have h1 := pending_set h y'
  rw [if_pos hp, if_neg (by simp [hp'])] at h1
  cases hpool : s.pool with
  | none =>
    have e : (s.setCall i y').send cmd = s.setCall i y' := by simp [Sys.send, Sys.setCall, hpool]
    rw [e]
    refine ⟨by simp [Sys.setCall], ?_, ?_, fun hx => absurd hpool hx⟩
    · simp only [he]; omega
    · simp only [he, Sys.setCall]; omega
  | some p =>
    have e : (s.setCall i y').send cmd = { s.setCall i y' with queue := s.queue ++ [cmd] } := by
      simp [Sys.send, Sys.setCall, hpool]
    rw [e]
    refine ⟨by simp [Sys.setCall], ?_, ?_, fun hx => ⟨by simp [hpool], ?_⟩⟩
    · simp only [he]
      change 1 + pendingCalls (s.setCall i y') ≤ _
      omega
    · simp [he]
    · simp [he]

theorem worked_settle {s : Sys} {i : Nat} {y : PCall} (h : s.calls[i]? = some y) (hp : Pending y.st = true)
    (c : Conn) (inner : CallInner) (o : CallOutcome) {pre : List Effect}
    (hpre : laterCommands pre = 0) :
    Worked s 0 0 (pre ++ (s.settle i y c inner o).1, (s.settle i y c inner o).2) := by
  cases o with
  | ready v body =>
    refine worked_send h hp rfl ?_ _
    rw [laterCommands_append, hpre]
    simp only [Sys.settle]
    cases s.pool <;> rfl
  | pending => exact worked_set h (fun _ => hp) (by rw [laterCommands_append, hpre]; rfl)
  | next inner' => exact worked_set h (fun _ => hp) (by rw [laterCommands_append, hpre]; rfl)
  | failed k => exact worked_set h (fun _ => hp) (by rw [laterCommands_append, hpre]; rfl)
  | panicked => exact worked_set h (fun _ => hp) (by rw [laterCommands_append, hpre]; rfl)

theorem worked_reply (i : Nat) (a : Addr) (f : Pooled) (s : Sys) : Worked s 0 0 (s.reply i a f) := by
  have h0 : ∀ f : Pooled, laterCommands (match f with | .ready c => [Effect.took i a c] | _ => []) = 0 := by
    intro f; cases f <;> rfl
  have h1 : ∀ f : Pooled, laterCommands (match f with | .ready c => [Effect.closed c] | _ => []) = 0 := by
    intro f; cases f <;> rfl
  unfold Sys.reply
  split
  · rename_i p b inner hy
    exact worked_set hy (fun _ => rfl) (h0 f)
  · exact worked_effects s (h1 f)

theorem worked_dropPool (s : Sys) (t : Nat) (ht : t ≤ s.queue.length) (hp : s.pool ≠ none) :
    Worked s 0 t s.dropPool := by
  cases hq : s.pool with
  | none => exact absurd hq hp
  | some p =>
    simp only [Sys.dropPool, hq]
    refine ⟨rfl, ?_, ?_, fun hx => absurd rfl hx⟩
    · simp only [laterCommands_closed]; simp [pendingCalls]
    · simpa using Nat.le_add_right_of_le ht

theorem worked_handle (now : Time) (s : Sys) :
    Worked s 0 (if finds s (.handle now) then 1 else 0) (s.handle now) := by
  obtain ⟨pool, queue, calls, next⟩ := s
  cases pool with
  | none => exact worked_same _
  | some p =>
    cases queue with
    | nil => exact worked_same _
    | cons cmd q =>
      have hf : finds ⟨some p, cmd :: q, calls, next⟩ (.handle now) = true := rfl
      rw [if_pos hf]
      have shift : ∀ (p' : Pool) (r : List Effect × Sys), Worked ⟨some p', q, calls, next⟩ 0 0 r →
          Worked ⟨some p, cmd :: q, calls, next⟩ 0 1 r := by
        rintro p' r ⟨h1, h2, h3, h4⟩
        refine ⟨h1, h2, ?_, fun hx => ⟨by simp, ?_⟩⟩
        · simp only [List.length_cons] at h3 ⊢; omega
        · have := (h4 hx).2
          simp only [List.length_cons] at this ⊢; omega
      have none : ∀ (p' : Pool) (es : List Effect), laterCommands es = 0 →
          Worked ⟨some p, cmd :: q, calls, next⟩ 0 1 (es, ⟨some p', q, calls, next⟩) := by
        intro p' es he
        exact shift p' _ (worked_effects _ he)
      cases hs : p.step (cmd.event now) with
      | ok x =>
        obtain ⟨out, p'⟩ := x
        simp only [Sys.handle, hs]
        split
        · exact shift p' _ (worked_reply _ _ _ _)
        · exact none p' _ (laterCommands_closed _)
        · exact none p' _ rfl
        · exact none p' _ rfl
      | _ =>
        simp only [Sys.handle, hs]
        exact worked_dropPool _ 1 (by simp) (by simp)

variable [FloatText]

theorem worked_poll (i : Nat) (r : IoResult) (s : Sys) : Worked s 0 0 (s.poll i r) := by
  unfold Sys.poll
  split
  · exact worked_same s
  · rename_i y hy
    split
    · rename_i hst
      split
      · exact worked_same s
      · exact worked_set hy (fun h => by cases h) rfl
    · rename_i inner c hst
      exact worked_settle (pre := []) hy (by rw [hst]; rfl) c inner _ rfl
    · exact worked_set hy (fun h => by cases h) rfl
    · rename_i inner a hst
      split
      · have := worked_settle (s := { s with next := s.next + 1 }) (pre := [.opened i a s.next]) (i := i)
          hy (by rw [hst]; rfl) s.next inner (callStep y.proc inner .connected) rfl
        exact ⟨this.calls, this.pending, this.queue, this.alive⟩
      · exact worked_send hy (by rw [hst]; rfl) rfl rfl _
      · exact worked_same s
    · rename_i c inner hst
      exact worked_settle (pre := [.io i c]) hy (by rw [hst]; rfl) c inner _ rfl
    · exact worked_same s

omit [FloatText] in
theorem worked_dropCall (i : Nat) (s : Sys) : Worked s 0 0 (s.dropCall i) := by
  unfold Sys.dropCall
  split
  · exact worked_same s
  · rename_i y hy
    split
    · exact worked_set hy (fun h => by cases h) rfl
    · exact worked_set hy (fun h => by cases h) rfl
    · exact worked_set hy (fun h => by cases h) rfl
    · exact worked_set hy (fun h => by cases h) rfl
    · exact worked_same s

omit [FloatText] in
theorem worked_call (p : Proc) (a : Addr) (v : Val) (body : Bytes) (s : Sys) :
    Worked s 1 0 ([], s.call p a v body) := by
  obtain ⟨pool, queue, calls, next⟩ := s
  have hl : laterCommands [] = 0 := rfl
  cases pool with
  | none =>
    refine ⟨by simp [Sys.call, Sys.send], ?_, ?_, fun hx => absurd rfl hx⟩
    · rw [hl]
      simp [Sys.call, Sys.send, pendingCalls, List.countP_append, Pending]
    · simp [Sys.call, Sys.send, hl]
  | some q =>
    refine ⟨by simp [Sys.call, Sys.send], ?_, ?_, fun hx => ⟨by simp, ?_⟩⟩
    · rw [hl]
      simp [Sys.call, Sys.send, pendingCalls, List.countP_append, Pending]
    · simp [Sys.call, Sys.send, hl]
    · simp [Sys.call, Sys.send, hl]

theorem worked_step (s : Sys) (e : SysEvent) :
    Worked s (callTotal [e]) (if finds s e then 1 else 0) (s.step e) := by
  cases e with
  | call p a v body => exact worked_call p a v body s
  | handle now => exact worked_handle now s
  | setSuspended d =>
    refine ⟨rfl, ?_, Nat.le_refl _, fun hx => ⟨fun h => hx (by simp [Sys.step, h]), rfl⟩⟩
    exact Nat.le_of_eq (Nat.zero_add _)
  | dropPool =>
    cases hp : s.pool with
    | none =>
      have : s.step .dropPool = ([], s) := by simp [Sys.step, Sys.dropPool, hp]
      rw [this]
      exact worked_same s
    | some p => exact worked_dropPool s 0 (Nat.zero_le _) (by simp [hp])
  | poll i r => exact worked_poll i r s
  | dropCall i => exact worked_dropCall i s

theorem worked_run (evs : List SysEvent) (s : Sys) :
    Worked s (callTotal evs) (commandsTaken evs s) (Sys.run evs s) := by
  induction evs generalizing s with
  | nil => exact worked_same s
  | cons e evs ih =>
    obtain ⟨a1, a2, a3, a4⟩ := worked_step s e
    obtain ⟨b1, b2, b3, b4⟩ := ih (s.step e).2
    have hm : callTotal (e :: evs) = callTotal [e] + callTotal evs := by
      rw [callTotal, callTotal, callTotal, ← List.countP_append]; rfl
    have hrun : Sys.run (e :: evs) s = ((s.step e).1 ++ (Sys.run evs (s.step e).2).1, (Sys.run evs (s.step e).2).2) := rfl
    have ht : commandsTaken (e :: evs) s = (if finds s e then 1 else 0) + commandsTaken evs (s.step e).2 := rfl
    rw [hm, hrun, ht]
    refine ⟨?_, ?_, ?_, fun hx => ?_⟩
    · simp only; omega
    · simp only [laterCommands_append]; omega
    · simp only [laterCommands_append]; omega
    · obtain ⟨c1, c2⟩ := b4 hx
      obtain ⟨d1, d2⟩ := a4 c1
      refine ⟨d1, ?_⟩
      simp only [laterCommands_append]
      omega

/-- **C151.** As long as the pool lives, the commands it has taken and those that wait for it are exactly these: one for
each call made, one for each connection put back, one for each failure to connect. -/
theorem C151_balance (size : Nat) (evs : List SysEvent) (h : (Sys.run evs (.new size)).2.pool ≠ none) :
    commandsTaken evs (.new size) + (Sys.run evs (.new size)).2.queue.length =
      callTotal evs + putsBack (Sys.run evs (.new size)).1 + refusedCount (Sys.run evs (.new size)).1 := by
  have := ((worked_run evs (.new size)).alive h).2
  simp only [laterCommands, Sys.new, List.length_nil] at this ⊢
  omega

/-- **C151.** A call puts back a connection or reports a failure at most once, and only when it ends. -/
theorem C151_once (size : Nat) (evs : List SysEvent) :
    putsBack (Sys.run evs (.new size)).1 + refusedCount (Sys.run evs (.new size)).1 +
      pendingCalls (Sys.run evs (.new size)).2 ≤ callTotal evs := by
  have := (worked_run evs (.new size)).pending
  have h0 : pendingCalls (.new size) = 0 := rfl
  simp only [laterCommands, h0] at this
  omega

/-- **C151.** So the pool never has more to do than two commands for each call, of which at most one if the call is in
progress. -/
theorem C151_work (size : Nat) (evs : List SysEvent) :
    commandsTaken evs (.new size) + (Sys.run evs (.new size)).2.queue.length +
      pendingCalls (Sys.run evs (.new size)).2 ≤ 2 * callTotal evs := by
  have h1 := (worked_run evs (.new size)).queue
  have h2 := C151_once size evs
  simp only [laterCommands, Sys.new, List.length_nil] at h1 h2 ⊢
  omega

namespace WorkExamples

private def x : Addr := ⟨1, 80, 0⟩

/-- A call cannot connect, and another one is dropped while it waits. -/
private def evs (p : Proc) (v : Val) : List SysEvent :=
  [.call p x v [], .handle 5, .poll 0 .failed, .call p x v [], .dropCall 1, .handle 6, .handle 7]

/-- Three commands: two requests for a connection, and a report.  The bound of two for each call is reached by calls
that cannot connect. -/
example (p : Proc) (v : Val) : commandsTaken (evs p v) (.new 1) = 3 ∧ callTotal (evs p v) = 2 ∧
    refusedCount (Sys.run (evs p v) (.new 1)).1 = 1 ∧ (Sys.run (evs p v) (.new 1)).2.queue = [] ∧
    pendingCalls (Sys.run (evs p v) (.new 1)).2 = 0 := by
  have h1 : callTotal (evs p v) = 2 := rfl
  have h2 : refusedCount (Sys.run (evs p v) (.new 1)).1 = 1 := rfl
  have h3 : putsBack (Sys.run (evs p v) (.new 1)).1 = 0 := rfl
  have h4 : (Sys.run (evs p v) (.new 1)).2.queue = [] := rfl
  have h := C151_balance 1 (evs p v) (fun h => nomatch h)
  rw [h1, h2, h3, h4] at h
  refine ⟨?_, h1, h2, h4, rfl⟩
  simpa only [List.length_nil, Nat.add_zero, Nat.reduceAdd] using h

example (p : Proc) (v : Val) : commandsTaken [.call p x v [], .handle 5, .poll 0 .failed, .handle 6] (.new 1) =
    2 * callTotal [.call p x v [], .handle 5, .poll 0 .failed, .handle 6] := rfl

/-- The pool of the example lives. -/
example (p : Proc) (v : Val) : (Sys.run (evs p v) (.new 1)).2.pool ≠ none := by
  intro h
  cases h

end WorkExamples

end Htrpc
