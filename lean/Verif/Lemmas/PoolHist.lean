/-
What a call has done so far, failure reports and waiting calls.
-/
import Verif.Lemmas.PoolInv

namespace Htrpc
open Spec

/-- The call that an effect is about. -/
def callOf : Effect → Option Nat
  | .opened i _ _ | .refused i _ | .took i _ _ | .io i _ | .returned i _ _ => some i
  | .closed _ | .reported _ => none

theorem got_append (i : Nat) (l l' : List Effect) : got i (l ++ l') = got i l ++ got i l' := by
  simp [got]
theorem returns_append (i : Nat) (l l' : List Effect) :
    returns i (l ++ l') = returns i l ++ returns i l' := by simp [returns]
theorem refusals_append (i : Nat) (l l' : List Effect) :
    refusals i (l ++ l') = refusals i l ++ refusals i l' := by simp [refusals]

theorem other_nil {i : Nat} {l : List Effect} (h : ∀ e ∈ l, callOf e ≠ some i) :
    got i l = [] ∧ returns i l = [] ∧ refusals i l = [] := by
  induction l with
  | nil => exact ⟨rfl, rfl, rfl⟩
  | cons e l ih =>
    obtain ⟨h1, h2, h3⟩ := ih fun e he => h e (List.mem_cons_of_mem _ he)
    have he := h e List.mem_cons_self
    have e1 : got i (e :: l) = got i [e] ++ got i l := got_append i [e] l
    have e2 : returns i (e :: l) = returns i [e] ++ returns i l := returns_append i [e] l
    have e3 : refusals i (e :: l) = refusals i [e] ++ refusals i l := refusals_append i [e] l
    rw [e1, e2, e3, h1, h2, h3]
    cases e <;> simp_all [got, returns, refusals, callOf]

/-- What a call for address `a` in this state has done so far. -/
def Hist (log : List Effect) (i : Nat) (a : Addr) : PCallSt → Prop
  | .waiting _ => got i log = [] ∧ returns i log = [] ∧ refusals i log = []
  | .replied _ (.ready c) => got i log = [c] ∧ returns i log = [] ∧ refusals i log = []
  | .replied _ _ => got i log = [] ∧ returns i log = [] ∧ refusals i log = []
  | .active c _ => got i log = [c] ∧ returns i log = [] ∧ refusals i log = []
  | .done _ _ => ∃ c, got i log = [c] ∧ returns i log = [(a, c)] ∧ refusals i log = []
  | .failed k => returns i log = [] ∧ (got i log = [] ∨ ∃ c, got i log = [c]) ∧
      (refusals i log = [] ∨ refusals i log = [a] ∧ got i log = [] ∧ k = .other)
  | .panicked => ∃ c, got i log = [c] ∧ returns i log = [] ∧ refusals i log = []
  | .dropped => (got i log = [] ∨ ∃ c, got i log = [c]) ∧ returns i log = [] ∧ refusals i log = []

theorem Hist.congr {log log' : List Effect} {i : Nat} {a : Addr} {st : PCallSt}
    (h : Hist log i a st) (h1 : got i log' = got i log) (h2 : returns i log' = returns i log)
    (h3 : refusals i log' = refusals i log) : Hist log' i a st := by
  cases st with
  | replied inner f => cases f <;> simpa [Hist, h1, h2, h3] using h
  | _ => simpa [Hist, h1, h2, h3] using h

namespace Sys

structure Done (log : List Effect) (s : Sys) : Prop where
  hist : ∀ i y, s.calls[i]? = some y → Hist log i y.addr y.st
  fresh : ∀ i, s.calls.length ≤ i →
    got i log = [] ∧ returns i log = [] ∧ refusals i log = []

theorem lt_of_some {s : Sys} {i : Nat} {y : PCall} (h : s.calls[i]? = some y) :
    i < s.calls.length := by
  rcases Nat.lt_or_ge i s.calls.length with hl | hl
  · exact hl
  · rw [List.getElem?_eq_none hl] at h; cases h

theorem other_eq {log es : List Effect} {j : Nat} (h : ∀ e ∈ es, callOf e ≠ some j) :
    got j (log ++ es) = got j log ∧ returns j (log ++ es) = returns j log ∧
      refusals j (log ++ es) = refusals j log := by
  obtain ⟨h1, h2, h3⟩ := other_nil h
  rw [got_append, returns_append, refusals_append, h1, h2, h3]
  simp

/-- The state of a call changes together with its history. -/
theorem done_setCall {log es : List Effect} {s : Sys} (h : Done log s) {i : Nat} {y : PCall}
    {st : PCallSt} (hy : s.calls[i]? = some y)
    (he : ∀ e ∈ es, callOf e = none ∨ callOf e = some i)
    (hst : Hist (log ++ es) i y.addr st) :
    Done (log ++ es) (s.setCall i { y with st := st }) := by
  have ho : ∀ j, j ≠ i → ∀ e ∈ es, callOf e ≠ some j := by
    intro j hj e hm hc
    rcases he e hm with h1 | h1
    · rw [h1] at hc; cases hc
    · rw [h1] at hc; cases hc; exact hj rfl
  constructor
  · intro j z hz
    simp only [setCall, List.getElem?_set] at hz
    by_cases hj : i = j
    · subst hj
      rw [if_pos rfl, if_pos (lt_of_some hy)] at hz
      cases hz
      exact hst
    · rw [if_neg hj] at hz
      obtain ⟨h1, h2, h3⟩ := other_eq (log := log) (ho j (Ne.symm hj))
      exact (h.hist j z hz).congr h1 h2 h3
  · intro j hj
    simp only [setCall, List.length_set] at hj
    have := lt_of_some hy
    obtain ⟨h1, h2, h3⟩ := other_eq (log := log) (ho j (by omega))
    rw [h1, h2, h3]
    exact h.fresh j hj

/-- Effects on no call. -/
theorem done_other {log es : List Effect} {s s' : Sys} (h : Done log s)
    (hs : s'.calls = s.calls) (he : ∀ e ∈ es, callOf e = none) : Done (log ++ es) s' := by
  have ho : ∀ j, ∀ e ∈ es, callOf e ≠ some j := by
    intro j e hm hc
    rw [he e hm] at hc
    cases hc
  constructor
  · intro j z hz
    rw [hs] at hz
    obtain ⟨h1, h2, h3⟩ := other_eq (log := log) (ho j)
    exact (h.hist j z hz).congr h1 h2 h3
  · intro j hj
    rw [hs] at hj
    obtain ⟨h1, h2, h3⟩ := other_eq (log := log) (ho j)
    rw [h1, h2, h3]
    exact h.fresh j hj

theorem done_send {log : List Effect} {s : Sys} (h : Done log s) (cmd : Cmd) :
    Done log (s.send cmd) := by
  have := done_other (es := []) h (send_calls s cmd) (by simp)
  rwa [List.append_nil] at this

/-- A round of `CallInner`; `pre` are the effects before it in the same round. -/
theorem done_settle {log pre : List Effect} {s : Sys} {i : Nat} {y : PCall} {c : Conn}
    (h : Done log s) (hy : s.calls[i]? = some y)
    (hpre : ∀ e ∈ pre, callOf e = none ∨ callOf e = some i)
    (h1 : got i (log ++ pre) = [c]) (h2 : returns i (log ++ pre) = [])
    (h3 : refusals i (log ++ pre) = []) (inner : CallInner) (o : CallOutcome) :
    Done (log ++ (pre ++ (s.settle i y c inner o).1)) (s.settle i y c inner o).2 := by
  have hcl : got i (log ++ (pre ++ [.closed c])) = [c] ∧
      returns i (log ++ (pre ++ [.closed c])) = [] ∧
      refusals i (log ++ (pre ++ [.closed c])) = [] := by
    rw [← List.append_assoc]
    obtain ⟨e1, e2, e3⟩ := other_eq (log := log ++ pre) (es := [.closed c]) (j := i)
      (by simp [callOf])
    rw [e1, e2, e3]
    exact ⟨h1, h2, h3⟩
  have hpre' : ∀ e ∈ pre ++ [.closed c], callOf e = none ∨ callOf e = some i := by
    intro e he
    rcases List.mem_append.1 he with he | he
    · exact hpre e he
    · rw [List.mem_singleton] at he; subst he; exact .inl rfl
  cases o with
  | pending =>
    rw [settle, List.append_nil]
    exact done_setCall h hy hpre ⟨h1, h2, h3⟩
  | next inner' =>
    rw [settle, List.append_nil]
    exact done_setCall h hy hpre ⟨h1, h2, h3⟩
  | failed k =>
    exact done_setCall h hy hpre' ⟨hcl.2.1, .inr ⟨c, hcl.1⟩, .inl hcl.2.2⟩
  | panicked => exact done_setCall h hy hpre' ⟨c, hcl.1, hcl.2.1, hcl.2.2⟩
  | ready v body =>
    rw [settle]
    refine done_send (done_setCall h hy ?_ ?_) _
    · intro e he
      rcases List.mem_append.1 he with he | he
      · exact hpre e he
      · rcases List.mem_cons.1 he with he | he
        · subst he; exact .inr rfl
        · split at he
          · rw [List.mem_singleton] at he; subst he; exact .inl rfl
          · cases he
    · refine ⟨c, ?_, ?_, ?_⟩
      · rw [← List.append_assoc, got_append, h1]
        cases s.pool <;> simp [got]
      · rw [← List.append_assoc, returns_append, h2]
        cases s.pool <;> simp [returns]
      · rw [← List.append_assoc, refusals_append, h3]
        cases s.pool <;> simp [refusals]

theorem done_same {log : List Effect} {s : Sys} (h : Done log s) {i : Nat} {y : PCall}
    {st : PCallSt} (hy : s.calls[i]? = some y) (hst : Hist log i y.addr st) :
    Done (log ++ []) (s.setCall i { y with st := st }) :=
  done_setCall h hy (by simp) (by rw [List.append_nil]; exact hst)

/-- A round of a call. -/
theorem done_poll [FloatText] {log : List Effect} {s : Sys} (h : Done log s) (ha : s.Aimed)
    (i : Nat) (r : IoResult) : Done (log ++ (s.poll i r).1) (s.poll i r).2 := by
  rw [poll]
  cases hy : s.calls[i]? with
  | none => simp only [List.append_nil]; exact h
  | some y =>
    have hh := h.hist i y hy
    simp only
    cases hst : y.st with
    | waiting inner =>
      rw [hst] at hh
      cases hpool : s.pool with
      | some p => simp only [List.append_nil]; exact h
      | none =>
        exact done_same h hy ⟨hh.2.1, .inl hh.1, .inl hh.2.2⟩
    | replied inner f =>
      rw [hst] at hh
      cases f with
      | ready c =>
        simp only
        exact done_settle (pre := []) h hy (by simp) (by simpa using hh.1) (by simpa using hh.2.1)
          (by simpa using hh.2.2) _ _
      | failed =>
        exact done_same h hy ⟨hh.2.1, .inl hh.1, .inl hh.2.2⟩
      | connecting a =>
        have hya := ha i y inner a hy hst
        subst hya
        cases r with
        | connected =>
          simp only
          refine done_settle (s := { s with next := s.next + 1 }) (pre := [.opened i y.addr s.next])
            ⟨h.hist, h.fresh⟩ hy (by simp [callOf]) ?_ ?_ ?_ _ _
          · rw [got_append, hh.1]; simp [got]
          · rw [returns_append, hh.2.1]; simp [returns]
          · rw [refusals_append, hh.2.2]; simp [refusals]
        | failed =>
          simp only
          refine done_send (done_setCall h hy (by simp [callOf]) ?_) _
          have e1 : got i (log ++ [.refused i y.addr]) = [] := by
            rw [got_append, hh.1]; simp [got]
          refine ⟨?_, .inl e1, .inr ⟨?_, e1, rfl⟩⟩
          · rw [returns_append, hh.2.1]; simp [returns]
          · rw [refusals_append, hh.2.2]; simp [refusals]
        | notReady => simp only [List.append_nil]; exact h
        | written => simp only [List.append_nil]; exact h
        | head _ _ => simp only [List.append_nil]; exact h
        | body _ => simp only [List.append_nil]; exact h
    | active c inner =>
      rw [hst] at hh
      simp only
      refine done_settle (pre := [.io i c]) h hy (by simp [callOf]) ?_ ?_ ?_ _ _
      · rw [got_append, hh.1]; simp [got]
      · rw [returns_append, hh.2.1]; simp [returns]
      · rw [refusals_append, hh.2.2]; simp [refusals]
    | done v b => simp only [List.append_nil]; exact h
    | failed k => simp only [List.append_nil]; exact h
    | panicked => simp only [List.append_nil]; exact h
    | dropped => simp only [List.append_nil]; exact h

theorem done_dropCall {log : List Effect} {s : Sys} (h : Done log s) (i : Nat) :
    Done (log ++ (s.dropCall i).1) (s.dropCall i).2 := by
  rw [dropCall]
  cases hy : s.calls[i]? with
  | none => simp only [List.append_nil]; exact h
  | some y =>
    have hh := h.hist i y hy
    have hcl : ∀ c, got i log = [c] ∧ returns i log = [] ∧ refusals i log = [] →
        Done (log ++ [.closed c]) (s.setCall i { y with st := .dropped }) := by
      intro c hh
      refine done_setCall h hy (by simp [callOf]) ?_
      obtain ⟨e1, e2, e3⟩ := other_eq (log := log) (es := [.closed c]) (j := i) (by simp [callOf])
      exact ⟨.inr ⟨c, e1.trans hh.1⟩, e2.trans hh.2.1, e3.trans hh.2.2⟩
    simp only
    cases hst : y.st with
    | waiting inner =>
      rw [hst] at hh
      exact done_same h hy ⟨.inl hh.1, hh.2.1, hh.2.2⟩
    | replied inner f =>
      rw [hst] at hh
      cases f with
      | ready c => exact hcl c hh
      | failed => exact done_same h hy ⟨.inl hh.1, hh.2.1, hh.2.2⟩
      | connecting a => exact done_same h hy ⟨.inl hh.1, hh.2.1, hh.2.2⟩
    | active c inner => rw [hst] at hh; exact hcl c hh
    | done v b => simp only [List.append_nil]; exact h
    | failed k => simp only [List.append_nil]; exact h
    | panicked => simp only [List.append_nil]; exact h
    | dropped => simp only [List.append_nil]; exact h

theorem done_call {log : List Effect} {s : Sys} (h : Done log s) (p : Proc) (a : Addr) (v : Val)
    (body : Bytes) : Done log (s.call p a v body) := by
  rw [call]
  refine done_send (s := { s with calls := s.calls ++ [⟨p, a, .waiting (.new v body)⟩] }) ⟨?_, ?_⟩ _
  · intro i y hi
    simp only at hi
    rcases Nat.lt_or_ge i s.calls.length with hl | hl
    · rw [List.getElem?_append_left hl] at hi
      exact h.hist i y hi
    · have hf := h.fresh i hl
      rw [List.getElem?_append_right hl] at hi
      cases hk : i - s.calls.length with
      | zero => rw [hk] at hi; cases hi; exact hf
      | succ n => rw [hk] at hi; cases hi
  · intro i hi
    simp only [List.length_append] at hi
    exact h.fresh i (by omega)

theorem done_reply {log : List Effect} {s : Sys} (h : Done log s) (i : Nat) (a : Addr)
    (f : Pooled) : Done (log ++ (s.reply i a f).1) (s.reply i a f).2 := by
  unfold reply
  split
  · next p b inner hy =>
    have hh := h.hist i _ hy
    refine done_setCall (y := ⟨p, b, .waiting inner⟩) h hy ?_ ?_
    · cases f <;> simp [callOf]
    · cases f with
      | ready c =>
        refine ⟨?_, ?_, ?_⟩
        · rw [got_append, hh.1]; simp [got]
        · rw [returns_append, hh.2.1]; simp [returns]
        · rw [refusals_append, hh.2.2]; simp [refusals]
      | connecting b => simpa [Hist] using hh
      | failed => simpa [Hist] using hh
  · refine done_other h rfl ?_
    cases f <;> simp [callOf]

theorem done_dropPool {log : List Effect} {s : Sys} (h : Done log s) :
    Done (log ++ s.dropPool.1) s.dropPool.2 := by
  unfold dropPool
  cases s.pool with
  | none => simp only [List.append_nil]; exact h
  | some p =>
    refine done_other h rfl ?_
    intro e he
    simp only [List.mem_map] at he
    obtain ⟨c, -, rfl⟩ := he
    rfl

theorem done_handle {log : List Effect} {s : Sys} (h : Done log s) (now : Time) :
    Done (log ++ (s.handle now).1) (s.handle now).2 := by
  unfold handle
  split
  · split
    · simp only
      split
      · exact done_reply (s := { s with pool := some _, queue := _ }) ⟨h.hist, h.fresh⟩ _ _ _
      · refine done_other h rfl ?_
        intro e he
        simp only [List.mem_map] at he
        obtain ⟨c, -, rfl⟩ := he
        rfl
      · exact done_other h rfl (by simp [callOf])
      · exact done_other h rfl (by simp)
    · exact done_dropPool h
  · simp only [List.append_nil]; exact h

theorem done_step [FloatText] {log : List Effect} {s : Sys} (h : Done log s) (ha : s.Aimed)
    (e : SysEvent) : Done (log ++ (s.step e).1) (s.step e).2 := by
  cases e with
  | call p a v body => rw [step, List.append_nil]; exact done_call h p a v body
  | handle now => exact done_handle h now
  | setSuspended d => exact done_other h rfl (by simp [step])
  | dropPool => exact done_dropPool h
  | poll i r => exact done_poll h ha i r
  | dropCall i => exact done_dropCall h i

theorem done_run [FloatText] {log : List Effect} {s : Sys} (h : Inv log s) (hd : Done log s)
    (evs : List SysEvent) : Done (log ++ (run evs s).1) (run evs s).2 := by
  induction evs generalizing log s with
  | nil => rw [run, List.append_nil]; exact hd
  | cons e evs ih =>
    have := ih (inv_step h e) (done_step hd h.connecting e)
    rw [List.append_assoc] at this
    exact this

theorem done_new (size : Nat) : Done [] (new size) :=
  ⟨fun i y h => by simp [new] at h, fun _ _ => ⟨rfl, rfl, rfl⟩⟩

/-! ### Failure reports -/

theorem refusedTo_append (a : Addr) (l l' : List Effect) :
    refusedTo a (l ++ l') = refusedTo a l + refusedTo a l' := by simp [refusedTo]
theorem reportsOf_append (a : Addr) (l l' : List Effect) :
    reportsOf a (l ++ l') = reportsOf a l + reportsOf a l' := by simp [reportsOf]

/-- No report and no failed attempt among the effects. -/
def Calm (es : List Effect) : Prop := ∀ a, refusedTo a es = 0 ∧ reportsOf a es = 0

theorem calm_closed (cs : List Conn) : Calm (cs.map .closed) := by
  intro a
  induction cs with
  | nil => exact ⟨rfl, rfl⟩
  | cons c cs ih => simp [refusedTo, reportsOf]

/-- The reports in the queue. -/
def pendingReports (a : Addr) (q : List Cmd) : Nat := q.count (.blacklist a)

structure Reports (log : List Effect) (s : Sys) : Prop where
  atMost : ∀ a, reportsOf a log + pendingReports a s.queue ≤ refusedTo a log
  exact : s.pool ≠ none → ∀ a, reportsOf a log + pendingReports a s.queue = refusedTo a log
  suspended : ∀ p, s.pool = some p → ∀ a, p.blacklist.lookup a ≠ none → 0 < reportsOf a log

/-- Nothing about reports changes. -/
theorem reports_calm {log es : List Effect} {s s' : Sys} (h : Reports log s) (he : Calm es)
    (hp : s'.pool = s.pool) (hq : ∀ a, pendingReports a s'.queue = pendingReports a s.queue) :
    Reports (log ++ es) s' := by
  constructor
  · intro a
    rw [refusedTo_append, reportsOf_append, (he a).1, (he a).2, hq]
    exact h.atMost a
  · intro hn a
    rw [refusedTo_append, reportsOf_append, (he a).1, (he a).2, hq]
    exact h.exact (hp ▸ hn) a
  · intro p hpp a ha
    rw [reportsOf_append, (he a).2]
    exact h.suspended p (hp ▸ hpp) a ha

theorem pending_send {s : Sys} {cmd : Cmd} (hc : ∀ a, cmd ≠ .blacklist a) (a : Addr) :
    pendingReports a (s.send cmd).queue = pendingReports a s.queue := by
  unfold send pendingReports
  cases s.pool with
  | none => rfl
  | some p =>
    simp only [List.count_append]
    rw [List.count_eq_zero_of_not_mem (l := [cmd]) (by simpa using fun h => hc a h.symm)]
    rfl

theorem calm_nil : Calm [] := fun _ => ⟨rfl, rfl⟩
theorem calm_append {l l' : List Effect} (h : Calm l) (h' : Calm l') : Calm (l ++ l') := by
  intro a
  rw [refusedTo_append, reportsOf_append, (h a).1, (h a).2, (h' a).1, (h' a).2]
  exact ⟨rfl, rfl⟩

theorem settle_calm (i : Nat) (y : PCall) (c : Conn) (inner : CallInner) (s : Sys)
    (o : CallOutcome) : Calm (s.settle i y c inner o).1 ∧
      (s.settle i y c inner o).2.pool = s.pool ∧
      ∀ a, pendingReports a (s.settle i y c inner o).2.queue = pendingReports a s.queue := by
  cases o with
  | pending => exact ⟨calm_nil, rfl, fun _ => rfl⟩
  | next inner' => exact ⟨calm_nil, rfl, fun _ => rfl⟩
  | failed k => exact ⟨fun _ => ⟨rfl, rfl⟩, rfl, fun _ => rfl⟩
  | panicked => exact ⟨fun _ => ⟨rfl, rfl⟩, rfl, fun _ => rfl⟩
  | ready v body =>
    refine ⟨?_, ?_, ?_⟩
    · rw [settle]
      cases s.pool <;> exact fun _ => ⟨rfl, rfl⟩
    · rw [settle]; exact send_pool _ _
    · intro a
      rw [settle]
      exact pending_send (by simp) a

theorem reports_poll [FloatText] {log : List Effect} {s : Sys} (h : Reports log s) (i : Nat)
    (r : IoResult) : Reports (log ++ (s.poll i r).1) (s.poll i r).2 := by
  have hsame : Reports (log ++ []) s := reports_calm h calm_nil rfl fun _ => rfl
  have hset : ∀ j y, Reports (log ++ []) (s.setCall j y) := fun j y =>
    reports_calm h calm_nil rfl fun _ => rfl
  rw [poll]
  cases hy : s.calls[i]? with
  | none => exact hsame
  | some y =>
    simp only
    cases hst : y.st with
    | waiting inner =>
      cases hpool : s.pool with
      | some p => exact hsame
      | none => exact hset _ _
    | replied inner f =>
      cases f with
      | ready c =>
        obtain ⟨h1, h2, h3⟩ := settle_calm i y c inner s (callStep y.proc inner .connected)
        exact reports_calm h h1 h2 h3
      | failed => exact hset _ _
      | connecting a =>
        cases r with
        | connected =>
          obtain ⟨h1, h2, h3⟩ := settle_calm i y s.next inner { s with next := s.next + 1 }
            (callStep y.proc inner .connected)
          exact reports_calm h (calm_append (l := [.opened i a s.next])
            (fun _ => ⟨rfl, rfl⟩) h1) h2 h3
        | failed =>
          simp only
          have hpool : (s.setCall i { y with st := .failed .other }).pool = s.pool := rfl
          have hrep : ∀ b, reportsOf b (log ++ [.refused i a]) = reportsOf b log := by
            intro b; rw [reportsOf_append]; rfl
          have hq : ∀ b, pendingReports b
              ((s.setCall i { y with st := .failed .other }).send (.blacklist a)).queue =
              pendingReports b s.queue + (if s.pool ≠ none ∧ a = b then 1 else 0) := by
            intro b
            unfold send
            cases hp : s.pool with
            | none => simp [setCall, hp]
            | some p => simp [setCall, hp, pendingReports, List.count_append, List.count_singleton]
          have href : ∀ b, refusedTo b (log ++ [.refused i a]) =
              refusedTo b log + (if a = b then 1 else 0) := by
            intro b
            rw [refusedTo_append]
            by_cases hb : a = b <;> simp [refusedTo, hb]
          constructor
          · intro b
            rw [hrep, hq, href]
            have := h.atMost b
            by_cases hb : a = b
            · rw [if_pos hb]; split <;> omega
            · rw [if_neg (by simp [hb]), if_neg hb]; omega
          · intro hn b
            rw [send_pool, hpool] at hn
            rw [hrep, hq, href]
            have := h.exact hn b
            by_cases hb : a = b
            · rw [if_pos ⟨hn, hb⟩, if_pos hb]; omega
            · rw [if_neg (by simp [hb]), if_neg hb]; omega
          · intro p hp b hb
            rw [send_pool, hpool] at hp
            rw [hrep]
            exact h.suspended p hp b hb
        | notReady => exact hsame
        | written => exact hsame
        | head _ _ => exact hsame
        | body _ => exact hsame
    | active c inner =>
      obtain ⟨h1, h2, h3⟩ := settle_calm i y c inner s (callStep y.proc inner r)
      exact reports_calm h (calm_append (l := [.io i c]) (fun _ => ⟨rfl, rfl⟩) h1) h2 h3
    | done v b => exact hsame
    | failed k => exact hsame
    | panicked => exact hsame
    | dropped => exact hsame

theorem reports_dropPool {log : List Effect} {s : Sys} (h : Reports log s) :
    Reports (log ++ s.dropPool.1) s.dropPool.2 := by
  unfold dropPool
  cases s.pool with
  | none => exact reports_calm h calm_nil rfl fun _ => rfl
  | some p =>
    simp only
    have hc := calm_closed (p.connections.map Prod.snd ++ queuedConns s.queue)
    constructor
    · intro a
      rw [refusedTo_append, reportsOf_append, (hc a).1, (hc a).2]
      have := h.atMost a
      simp only [pendingReports, List.count_nil]
      omega
    · intro hn; exact absurd rfl hn
    · intro p hp; cases hp

theorem reply_calm (i : Nat) (a : Addr) (f : Pooled) (s : Sys) :
    Calm (s.reply i a f).1 ∧ (s.reply i a f).2.pool = s.pool ∧
      (s.reply i a f).2.queue = s.queue := by
  unfold reply
  split
  · refine ⟨?_, rfl, rfl⟩
    cases f <;> exact fun _ => ⟨rfl, rfl⟩
  · refine ⟨?_, rfl, rfl⟩
    cases f <;> exact fun _ => ⟨rfl, rfl⟩

theorem reports_handle {log : List Effect} {s : Sys} (hi : Inv log s) (h : Reports log s)
    (now : Time) : Reports (log ++ (s.handle now).1) (s.handle now).2 := by
  have hp := hi.pool
  unfold handle
  cases hpool : s.pool with
  | none => exact reports_calm h calm_nil rfl fun _ => rfl
  | some p =>
    rw [hpool] at hp
    obtain ⟨size, ip, h1, -⟩ := hp
    have hsus : ∀ a, ip.suspended a ≠ none → 0 < reportsOf a log := fun a ha =>
      h.suspended p hpool a (by rw [h1.blacklist]; exact ha)
    have hex := h.exact (by rw [hpool]; simp)
    cases hq : s.queue with
    | nil => exact reports_calm h calm_nil rfl fun _ => rfl
    | cons cmd q =>
      rw [hq] at hex
      have hquiet : ∀ (p' : Pool) (ip' : IdlePool) (es : List Effect) (s' : Sys),
          (∀ a, cmd ≠ .blacklist a) → p'.Like size ip' →
          (∀ b, ip'.suspended b ≠ none → ip.suspended b ≠ none) → Calm es →
          s'.pool = some p' → s'.queue = q → Reports (log ++ es) s' := by
        intro p' ip' es s' hc hl hs he hsp hsq
        have hcnt : ∀ a, pendingReports a (cmd :: q) = pendingReports a q := by
          intro a
          exact List.count_cons_of_ne (hc a)
        have hexa : ∀ a, reportsOf a (log ++ es) + pendingReports a s'.queue =
            refusedTo a (log ++ es) := by
          intro a
          rw [refusedTo_append, reportsOf_append, (he a).1, (he a).2, hsq, ← hcnt]
          exact hex a
        refine ⟨fun a => Nat.le_of_eq (hexa a), fun _ => hexa, ?_⟩
        intro p1 hp1 a ha
        rw [hsp] at hp1
        cases hp1
        rw [hl.blacklist] at ha
        rw [reportsOf_append]
        exact Nat.lt_of_lt_of_le (hsus a (hs a ha)) (Nat.le_add_right _ _)
      cases cmd with
      | acquire a i =>
        obtain ⟨f, p', ip', e1, e2, -, e4⟩ := pool_acquire h1 a now
        simp only [Cmd.event, e1]
        obtain ⟨c1, c2, c3⟩ := reply_calm i a f { s with pool := some p', queue := q }
        exact hquiet p' ip' _ _ (by simp) e2 e4 c1 c2 c3
      | release a c =>
        rcases pool_release h1 a c with e1 | ⟨xs, p', ip', e1, e2, -, e4⟩
        · simp only [Cmd.event, e1]
          exact reports_dropPool h
        · simp only [Cmd.event, e1]
          exact hquiet p' ip' _ _ (by simp) e2 (by rw [e4]; exact fun _ h => h)
            (calm_closed _) rfl rfl
      | blacklist a =>
        rcases pool_blacklist h1 a now with e1 | ⟨p', ip', e1, e2, -, e4⟩
        case inl =>
          simp only [Cmd.event, e1]
          exact reports_dropPool h
        simp only [Cmd.event, e1]
        have hrep : ∀ b, reportsOf b (log ++ [.reported a]) =
            reportsOf b log + (if a = b then 1 else 0) := by
          intro b
          rw [reportsOf_append]
          by_cases hb : a = b <;> simp [reportsOf, hb]
        have href : ∀ b, refusedTo b (log ++ [.reported a]) = refusedTo b log := by
          intro b; rw [refusedTo_append]; rfl
        have hexa : ∀ b, reportsOf b (log ++ [.reported a]) + pendingReports b q =
            refusedTo b (log ++ [.reported a]) := by
          intro b
          rw [hrep, href, ← hex b, pendingReports, pendingReports, List.count_cons]
          by_cases hb : a = b
          · simp [hb]; omega
          · simp [hb]
        refine ⟨fun b => Nat.le_of_eq (hexa b), fun _ => hexa, ?_⟩
        intro p1 hp1 b hb
        cases hp1
        rw [e2.blacklist] at hb
        rw [hrep]
        rcases e4 b hb with rfl | hb
        · rw [if_pos rfl]; omega
        · have := hsus b hb; omega

theorem reports_step [FloatText] {log : List Effect} {s : Sys} (hi : Inv log s)
    (h : Reports log s) (e : SysEvent) : Reports (log ++ (s.step e).1) (s.step e).2 := by
  cases e with
  | call p a v body =>
    rw [step, call]
    exact reports_calm h calm_nil (send_pool _ _) (pending_send (by simp))
  | handle now => exact reports_handle hi h now
  | setSuspended d =>
    rw [step, List.append_nil]
    refine ⟨h.atMost, fun hn => h.exact ?_, ?_⟩
    · intro hp; simp [hp] at hn
    · intro p hp a ha
      cases hpool : s.pool with
      | none => simp [hpool] at hp
      | some p0 =>
        simp only [hpool, Option.map_some] at hp
        cases hp
        exact h.suspended p0 hpool a ha
  | dropPool => exact reports_dropPool h
  | poll i r => exact reports_poll h i r
  | dropCall i =>
    rw [step, dropCall]
    cases s.calls[i]? with
    | none => exact reports_calm h calm_nil rfl fun _ => rfl
    | some y =>
      simp only
      split <;> exact reports_calm h (fun _ => ⟨rfl, rfl⟩) rfl fun _ => rfl

theorem reports_run [FloatText] {log : List Effect} {s : Sys} (h : Inv log s)
    (hd : Reports log s) (evs : List SysEvent) :
    Reports (log ++ (run evs s).1) (run evs s).2 := by
  induction evs generalizing log s with
  | nil => rw [run, List.append_nil]; exact hd
  | cons e evs ih =>
    have := ih (inv_step h e) (reports_step h hd e)
    rw [List.append_assoc] at this
    exact this

theorem reports_new (size : Nat) : Reports [] (new size) := by
  refine ⟨fun _ => Nat.le_refl _, fun _ _ => rfl, ?_⟩
  intro p hp a ha
  cases hp
  exact absurd rfl ha

/-! ### Waiting calls -/

/-- Call `i` has no reply so far. -/
def Waiting (s : Sys) (i : Nat) : Prop := ∃ y inner, s.calls[i]? = some y ∧ y.st = .waiting inner

/-- If call `i` waits its command is among the first `n` in the queue. -/
def Served (n : Nat) (s : Sys) (i : Nat) : Prop :=
  i < s.calls.length ∧ (s.pool = none ∨ ¬ s.Waiting i ∨ ∃ a, .acquire a i ∈ s.queue.take n)

theorem waiting_setCall {s : Sys} {i j : Nat} {y : PCall} (h : (s.setCall j y).Waiting i)
    (hy : ∀ inner, y.st ≠ .waiting inner) : s.Waiting i := by
  obtain ⟨z, inner, hz, hst⟩ := h
  simp only [setCall, List.getElem?_set] at hz
  split at hz
  · split at hz
    · cases hz; exact absurd hst (hy _)
    · cases hz
  · exact ⟨z, inner, hz, hst⟩

/-- The queue grows at the end. -/
theorem served_grow {n : Nat} {s s' : Sys} {i : Nat} (h : Served n s i)
    (hl : s.calls.length ≤ s'.calls.length) (hp : s.pool = none → s'.pool = none)
    (hw : s'.Waiting i → s.Waiting i) (hq : ∃ q, s'.queue = s.queue ++ q) : Served n s' i := by
  refine ⟨Nat.lt_of_lt_of_le h.1 hl, ?_⟩
  rcases h.2 with h | h | ⟨a, h⟩
  · exact .inl (hp h)
  · exact .inr (.inl fun hx => h (hw hx))
  · obtain ⟨q, hq⟩ := hq
    refine .inr (.inr ⟨a, ?_⟩)
    rw [hq, List.take_append]
    exact List.mem_append_left _ h

theorem send_grow (s : Sys) (cmd : Cmd) : ∃ q, (s.send cmd).queue = s.queue ++ q := by
  unfold send
  cases s.pool with
  | none => exact ⟨[], by simp⟩
  | some p => exact ⟨[cmd], rfl⟩

theorem send_waiting {s : Sys} {cmd : Cmd} {i : Nat} (h : (s.send cmd).Waiting i) :
    s.Waiting i := by
  unfold Waiting at h
  rw [send_calls] at h
  exact h

theorem settle_grow (i : Nat) (y : PCall) (c : Conn) (inner : CallInner) (s : Sys)
    (o : CallOutcome) (n j : Nat) (h : Served n s j) :
    Served n (s.settle i y c inner o).2 j := by
  cases o with
  | pending =>
    exact served_grow h (by simp [settle, setCall]) id
      (fun h => waiting_setCall h (by simp)) ⟨[], by simp [settle, setCall]⟩
  | next inner' =>
    exact served_grow h (by simp [settle, setCall]) id
      (fun h => waiting_setCall h (by simp)) ⟨[], by simp [settle, setCall]⟩
  | failed k =>
    exact served_grow h (by simp [settle, setCall]) id
      (fun h => waiting_setCall h (by simp)) ⟨[], by simp [settle, setCall]⟩
  | panicked =>
    exact served_grow h (by simp [settle, setCall]) id
      (fun h => waiting_setCall h (by simp)) ⟨[], by simp [settle, setCall]⟩
  | ready v body =>
    refine served_grow h (by simp [settle, setCall, send_calls]) ?_
      (fun h => waiting_setCall (send_waiting h) (by simp)) ?_
    · intro hp; rw [settle, send_pool]; exact hp
    · exact send_grow _ _

theorem served_poll [FloatText] {n : Nat} {s : Sys} {j : Nat} (h : Served n s j) (i : Nat)
    (r : IoResult) : Served n (s.poll i r).2 j := by
  have hset : ∀ (y : PCall) (st : PCallSt), (∀ inner, st ≠ .waiting inner) →
      Served n (s.setCall i { y with st := st }) j := fun y st hst =>
    served_grow h (by simp [setCall]) id (fun hw => waiting_setCall hw (by simpa using hst))
      ⟨[], by simp [setCall]⟩
  rw [poll]
  cases hy : s.calls[i]? with
  | none => exact h
  | some y =>
    simp only
    cases hst : y.st with
    | waiting inner =>
      cases hpool : s.pool with
      | some p => exact h
      | none => exact hset _ _ (by simp)
    | replied inner f =>
      cases f with
      | ready c => exact settle_grow _ _ _ _ _ _ _ _ h
      | failed => exact hset _ _ (by simp)
      | connecting a =>
        cases r with
        | connected => exact settle_grow _ _ _ _ { s with next := s.next + 1 } _ _ _ h
        | failed =>
          have := hset y (.failed .other) (by simp)
          refine served_grow this (by rw [send_calls]; exact Nat.le_refl _) ?_ send_waiting
            (send_grow _ _)
          intro hp
          rw [send_pool]
          exact hp
        | notReady => exact h
        | written => exact h
        | head _ _ => exact h
        | body _ => exact h
    | active c inner => exact settle_grow _ _ _ _ _ _ _ _ h
    | done v b => exact h
    | failed k => exact h
    | panicked => exact h
    | dropped => exact h

theorem dropPool_pool (s : Sys) : s.dropPool.2.pool = none := by
  unfold dropPool
  cases h : s.pool <;> simp [h]

theorem dropPool_calls (s : Sys) : s.dropPool.2.calls = s.calls := by
  unfold dropPool
  cases h : s.pool <;> simp

/-- A command is handled: one less in front. -/
theorem served_handle {n : Nat} {s : Sys} {j : Nat} (h : Served (n + 1) s j) (now : Time)
    (log : List Effect) (hi : Inv log s) : Served n (s.handle now).2 j := by
  have hp := hi.pool
  unfold handle
  cases hpool : s.pool with
  | none => exact ⟨h.1, .inl hpool⟩
  | some p =>
    rw [hpool] at hp
    obtain ⟨size, ip, h1, -⟩ := hp
    cases hq : s.queue with
    | nil =>
      refine ⟨h.1, ?_⟩
      rcases h.2 with h | h | ⟨a, h⟩
      · exact .inl h
      · exact .inr (.inl h)
      · rw [hq] at h; cases h
    | cons cmd q =>
      have hkeep : ∀ (s' : Sys), s'.calls.length = s.calls.length →
          (s'.Waiting j → s.Waiting j) → s'.queue = q → (∀ a, cmd ≠ .acquire a j) →
          Served n s' j := by
        intro s' hl hw hsq hc
        refine ⟨hl ▸ h.1, ?_⟩
        rcases h.2 with h | h | ⟨a, h⟩
        · rw [hpool] at h; cases h
        · exact .inr (.inl fun hx => h (hw hx))
        · rw [hq, List.take_succ_cons] at h
          rcases List.mem_cons.1 h with h | h
          · exact absurd h.symm (hc a)
          · exact .inr (.inr ⟨a, by rw [hsq]; exact h⟩)
      cases cmd with
      | acquire a i =>
        obtain ⟨f, p', ip', e1, -, -, -⟩ := pool_acquire h1 a now
        simp only [Cmd.event, e1]
        unfold reply
        split
        · next pr b inner hy =>
          by_cases hij : i = j
          · subst hij
            refine ⟨by simpa [setCall] using h.1, .inr (.inl ?_)⟩
            rintro ⟨z, inner', hz, hst⟩
            have hlt := h.1
            simp only [setCall, List.getElem?_set, hlt, if_true] at hz
            cases hz
            cases hst
          · refine hkeep _ (by simp [setCall]) (fun hw => ?_) rfl (by simp [hij])
            exact waiting_setCall (s := { s with pool := some p', queue := q }) hw (by simp)
        · next hy =>
          by_cases hij : i = j
          · subst hij
            refine ⟨h.1, .inr (.inl ?_)⟩
            rintro ⟨⟨pr, b, st⟩, inner', hz, hst⟩
            cases hst
            exact hy _ _ _ hz
          · exact hkeep _ rfl id rfl (by simp [hij])
      | release a c =>
        rcases pool_release h1 a c with e1 | ⟨xs, p', ip', e1, -, -, -⟩
        · simp only [Cmd.event, e1]
          exact ⟨by rw [dropPool_calls]; exact h.1, .inl (dropPool_pool s)⟩
        · simp only [Cmd.event, e1]
          exact hkeep _ rfl id rfl (by simp)
      | blacklist a =>
        rcases pool_blacklist h1 a now with e1 | ⟨p', ip', e1, -, -, -⟩
        · simp only [Cmd.event, e1]
          exact ⟨by rw [dropPool_calls]; exact h.1, .inl (dropPool_pool s)⟩
        · simp only [Cmd.event, e1]
          exact hkeep _ rfl id rfl (by simp)

/-- How many commands an event handles. -/
def handleCount : SysEvent → Nat
  | .handle _ => 1
  | _ => 0

theorem served_step [FloatText] {n : Nat} {s : Sys} {j : Nat} (h : Served n s j) (e : SysEvent)
    (log : List Effect) (hi : Inv log s) : Served (n - handleCount e) (s.step e).2 j := by
  cases e with
  | call p a v body =>
    refine served_grow h ?_ ?_ ?_ ?_
    · rw [step, call, send_calls]; simp
    · intro hp; rw [step, call, send_pool]; exact hp
    · intro hw
      obtain ⟨y, inner, hy, hst⟩ := send_waiting hw
      simp only at hy
      rw [List.getElem?_append_left h.1] at hy
      exact ⟨y, inner, hy, hst⟩
    · exact send_grow _ _
  | handle now =>
    cases n with
    | succ n => exact served_handle h now log hi
    | zero =>
      refine served_handle ⟨h.1, ?_⟩ now log hi
      rcases h.2 with h | h | ⟨a, h⟩
      · exact .inl h
      · exact .inr (.inl h)
      · cases h
  | setSuspended d =>
    exact served_grow h (Nat.le_refl _) (by intro hp; simp [step, hp]) id ⟨[], by simp [step]⟩
  | dropPool => exact ⟨by rw [step, dropPool_calls]; exact h.1, .inl (dropPool_pool s)⟩
  | poll i r => exact served_poll h i r
  | dropCall i =>
    rw [step, dropCall]
    cases s.calls[i]? with
    | none => exact h
    | some y =>
      simp only
      split <;> first
        | exact h
        | exact served_grow h (by simp [setCall]) id
            (fun hw => waiting_setCall hw (by simp)) ⟨[], by simp [setCall]⟩

theorem handles_cons (e : SysEvent) (evs : List SysEvent) :
    handles (e :: evs) = handleCount e + handles evs := by
  cases e <;> simp [handles, handleCount, Nat.add_comm]

theorem served_run [FloatText] {n : Nat} {s : Sys} {j : Nat} (h : Served n s j)
    (evs : List SysEvent) (log : List Effect) (hi : Inv log s) :
    Served (n - handles evs) (run evs s).2 j := by
  induction evs generalizing n s log with
  | nil => exact h
  | cons e evs ih =>
    have := ih (served_step h e log hi) _ (inv_step hi e)
    rw [handles_cons, Nat.sub_add_eq]
    exact this

/-- Every waiting call has its command in the queue. -/
def AllServed (s : Sys) : Prop := ∀ j, j < s.calls.length → Served s.queue.length s j

theorem served_all {n : Nat} {s : Sys} {j : Nat} (h : Served n s j) :
    Served s.queue.length s j := by
  refine ⟨h.1, ?_⟩
  rcases h.2 with h | h | ⟨a, h⟩
  · exact .inl h
  · exact .inr (.inl h)
  · exact .inr (.inr ⟨a, by rw [List.take_length]; exact List.mem_of_mem_take h⟩)

theorem settle_length (i : Nat) (y : PCall) (c : Conn) (inner : CallInner) (s : Sys)
    (o : CallOutcome) : (s.settle i y c inner o).2.calls.length = s.calls.length := by
  cases o <;> simp [settle, setCall, send_calls]

theorem step_length [FloatText] (s : Sys) (e : SysEvent)
    (he : ∀ p a v b, e ≠ .call p a v b) : (s.step e).2.calls.length = s.calls.length := by
  cases e with
  | call p a v body => exact absurd rfl (he p a v body)
  | handle now =>
    rw [step]
    unfold handle
    split
    · split
      · simp only
        split
        · unfold reply
          split <;> simp [setCall]
        · rfl
        · rfl
        · rfl
      · rw [dropPool_calls]
    · rfl
  | setSuspended d => rfl
  | dropPool => rw [step, dropPool_calls]
  | poll i r =>
    rw [step, poll]
    cases s.calls[i]? with
    | none => rfl
    | some y =>
      simp only
      split
      · split <;> simp [setCall]
      · exact settle_length _ _ _ _ _ _
      · simp [setCall]
      · split
        · exact settle_length _ _ _ _ _ _
        · simp [setCall, send_calls]
        · rfl
      · exact settle_length _ _ _ _ _ _
      · rfl
  | dropCall i =>
    rw [step, dropCall]
    cases s.calls[i]? with
    | none => rfl
    | some y =>
      simp only
      split <;> simp [setCall]

theorem allServed_step [FloatText] {s : Sys} (h : s.AllServed) (e : SysEvent)
    (log : List Effect) (hi : Inv log s) : (s.step e).2.AllServed := by
  intro j hj
  by_cases hl : j < s.calls.length
  · exact served_all (served_step (h j hl) e log hi)
  · cases e with
    | call p a v body =>
      rw [step, call, send_calls, List.length_append, List.length_singleton] at hj
      have : j = s.calls.length := by omega
      subst this
      refine ⟨by rw [step, call, send_calls]; simp, ?_⟩
      rw [step, call, List.take_length]
      unfold send
      cases hp : s.pool with
      | none => exact .inl rfl
      | some p => exact .inr (.inr ⟨a, by simp⟩)
    | _ => rw [step_length _ _ (by simp)] at hj; exact absurd hj hl

theorem allServed_run [FloatText] {s : Sys} (h : s.AllServed) (evs : List SysEvent)
    (log : List Effect) (hi : Inv log s) : (run evs s).2.AllServed := by
  induction evs generalizing s log with
  | nil => exact h
  | cons e evs ih => exact ih (allServed_step h e log hi) _ (inv_step hi e)

theorem allServed_new (size : Nat) : (new size).AllServed := by
  intro j hj
  cases hj

end Sys

end Htrpc
