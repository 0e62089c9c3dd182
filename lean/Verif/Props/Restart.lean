/-
C123: what the failure of connections costs, such as when a server is restarted.
-/
import Mathlib.Data.List.Induction
import Verif.Spec.Restart
import Verif.Props.OpenConns
import Mathlib.Data.List.Perm.Subperm

namespace Htrpc
open Spec

section
variable [FloatText]

omit [FloatText] in
theorem got_by {i : Nat} {c : Conn} {log : List Effect} (h : c ∈ got i log) :
    ∃ e ∈ log, By i c e ∧ connOf e = some c := by
  obtain ⟨e, he, hc⟩ := List.mem_filterMap.1 h
  refine ⟨e, he, ?_⟩
  cases e <;> simp only [reduceCtorEq] at hc
  all_goals
    split at hc
    · cases hc; exact ⟨⟨by assumption, rfl⟩, rfl⟩
    · cases hc

/-- **C123.** No connection lets down two calls: different calls without a response have never had the
same connection. -/
theorem C123_each_once (size : Nat) (evs : List SysEvent) (i j : Nat) (hij : i ≠ j)
    (hi : WithoutResponse (Sys.run evs (.new size)).2 i) (hj : WithoutResponse (Sys.run evs (.new size)).2 j)
    (c : Conn) (hc : c ∈ got i (Sys.run evs (.new size)).1) :
    c ∉ got j (Sys.run evs (.new size)).1 := by
  intro hc'
  obtain ⟨e, he, hb, -⟩ := got_by hc
  obtain ⟨e', he', hb', -⟩ := got_by hc'
  have ri := C52_not_completed size evs i hi
  have rj := C52_not_completed size evs j hj
  have no : ∀ k, returns k (Sys.run evs (.new size)).1 = [] → ∀ a c,
      .returned k a c ∉ (Sys.run evs (.new size)).1 := by
    intro k hk a c hm
    have : (a, c) ∈ returns k (Sys.run evs (.new size)).1 :=
      List.mem_filterMap.2 ⟨_, hm, by simp⟩
    rw [hk] at this
    cases this
  obtain ⟨l, l', hl⟩ := List.append_of_mem he
  rw [hl] at he'
  rcases List.mem_append.1 he' with h | h
  · obtain ⟨m, m', rfl⟩ := List.append_of_mem h
    obtain ⟨a, ha⟩ := C46_handover size evs c j i e' e m m' l' (by rw [hl]; simp) hb' hb (Ne.symm hij)
    refine no j rj a c ?_
    rw [hl]
    rcases List.mem_cons.1 ha with h | h <;> simp [h]
  · rcases List.mem_cons.1 h with rfl | h
    · have : i = j := by
        cases e' <;> simp only [By] at hb hb'
        all_goals exact hb.1.symm.trans hb'.1
      exact hij this
    · obtain ⟨m, m', rfl⟩ := List.append_of_mem h
      obtain ⟨a, ha⟩ := C46_handover size evs c i j e e' l m m' hl hb hb' hij
      refine no i ri a c ?_
      rw [hl]
      rcases List.mem_cons.1 ha with h | h <;> simp [h]

/-- The connections of calls without a response, one for each. -/
theorem each_one (size : Nat) (evs : List SysEvent) (P : Nat → Conn → Prop) (is : List Nat)
    (hn : is.Nodup) (h : ∀ i ∈ is, WithoutResponse (Sys.run evs (.new size)).2 i ∧
      ∃ c, P i c ∧ c ∈ got i (Sys.run evs (.new size)).1) :
    ∃ cs : List Conn, cs.length = is.length ∧ cs.Nodup ∧ ∀ c ∈ cs, ∃ i ∈ is,
      P i c ∧ c ∈ got i (Sys.run evs (.new size)).1 := by
  induction is with
  | nil => exact ⟨[], rfl, .nil, nofun⟩
  | cons i is ih =>
    obtain ⟨hni, hn⟩ := List.nodup_cons.1 hn
    obtain ⟨cs, h1, h2, h3⟩ := ih hn fun j hj => h j (List.mem_cons_of_mem _ hj)
    obtain ⟨hu, c, hp, hc⟩ := h i List.mem_cons_self
    refine ⟨c :: cs, by simp [h1], List.nodup_cons.2 ⟨fun hm => ?_, h2⟩, fun d hd => ?_⟩
    · obtain ⟨j, hj, -, hcj⟩ := h3 c hm
      exact C123_each_once size evs i j (fun e => hni (e ▸ hj)) hu
        (h j (List.mem_cons_of_mem _ hj)).1 c hc hcj
    · rcases List.mem_cons.1 hd with rfl | hd
      · exact ⟨i, List.mem_cons_self, hp, hc⟩
      · obtain ⟨j, hj, hx⟩ := h3 d hd
        exact ⟨j, List.mem_cons_of_mem _ hj, hx⟩

/-- **C123.** So whatever happens to some connections, it costs at most as many calls as these are. -/
theorem C123_costs (size : Nat) (evs : List SysEvent) (old : List Conn) (is : List Nat) (hn : is.Nodup)
    (h : ∀ i ∈ is, WithoutResponse (Sys.run evs (.new size)).2 i ∧
      ∃ c ∈ old, c ∈ got i (Sys.run evs (.new size)).1) : is.length ≤ old.length := by
  obtain ⟨cs, h1, h2, h3⟩ := each_one size evs (fun _ c => c ∈ old) is hn h
  rw [← h1]
  exact (List.subperm_of_subset h2 fun c hc => (h3 c hc).elim fun _ hx => hx.2.1).length_le

/-- A call that is made later has nothing to do with a connection that is closed already. -/
theorem later_open (size : Nat) (before after : List SysEvent) (i : Nat) (c : Conn)
    (hi : (Sys.run before (.new size)).2.calls.length ≤ i)
    (hc : c ∈ got i (Sys.run (before ++ after) (.new size)).1) :
    .closed c ∉ (Sys.run before (.new size)).1 := by
  intro hcl
  obtain ⟨e, he, hb, hce⟩ := got_by hc
  rw [sys_run_append] at he
  rcases List.mem_append.1 he with he | he
  · obtain ⟨y, hy, -⟩ := C47_own_address size before i c e he hb
    have := (List.getElem?_eq_some_iff.1 hy).1
    omega
  · obtain ⟨l, l', hl⟩ := List.append_of_mem hcl
    refine C46_closed_is_final size (before ++ after) c l
      (l' ++ (Sys.run after (Sys.run before (.new size)).2).1) ?_ e (List.mem_append_right _ he) hce
    rw [sys_run_append, hl]
    simp

/-- **C123.** Let all connections fail at some moment. Of the calls that are made afterwards at most so many
fail because of it: as many as the pool may keep, one for each call that was in progress, and one for each
connection that was put back and not taken over yet. -/
theorem C123_restart (size : Nat) (before after : List SysEvent) (is : List Nat) (hn : is.Nodup)
    (h : ∀ i ∈ is, (Sys.run before (.new size)).2.calls.length ≤ i ∧
      WithoutResponse (Sys.run (before ++ after) (.new size)).2 i ∧
      ∃ c, (∃ j a, .opened j a c ∈ (Sys.run before (.new size)).1) ∧
        c ∈ got i (Sys.run (before ++ after) (.new size)).1) :
    is.length ≤ size + ((Sys.run before (.new size)).2.calls.filter (fun y => InProgress y)).length +
      (queuedConns (Sys.run before (.new size)).2.queue).length := by
  obtain ⟨cs, h1, h2, h3⟩ := each_one size (before ++ after)
    (fun i c => (Sys.run before (.new size)).2.calls.length ≤ i ∧
      ∃ j a, .opened j a c ∈ (Sys.run before (.new size)).1) is hn fun i hi => by
        obtain ⟨k1, k2, c, k3, k4⟩ := h i hi
        exact ⟨k2, c, ⟨k1, k3⟩, k4⟩
  rw [← h1]
  refine C97_open_connections size before cs h2 fun c hc => ?_
  obtain ⟨i, -, ⟨hi, ho⟩, hg⟩ := h3 c hc
  exact ⟨ho, later_open size before after i c hi hg⟩

/-- **C123.** If this happens when no call is in progress and no command waits, then at most as many as the
pool may keep. -/
theorem C123_restart_quiet (size : Nat) (before after : List SysEvent) (is : List Nat) (hn : is.Nodup)
    (hidle : ∀ y ∈ (Sys.run before (.new size)).2.calls, ¬ InProgress y)
    (hq : (Sys.run before (.new size)).2.queue = [])
    (h : ∀ i ∈ is, (Sys.run before (.new size)).2.calls.length ≤ i ∧
      WithoutResponse (Sys.run (before ++ after) (.new size)).2 i ∧
      ∃ c, (∃ j a, .opened j a c ∈ (Sys.run before (.new size)).1) ∧
        c ∈ got i (Sys.run (before ++ after) (.new size)).1) :
    is.length ≤ size := by
  have := C123_restart size before after is hn h
  rw [hq, List.filter_eq_nil_iff.2 fun y hy => by simpa using hidle y hy] at this
  simpa [queuedConns] using this

omit [FloatText] in
theorem pooled_returned {c : Conn} {l : List Effect} (h : life c l = some .pool) :
    ∃ j a, .returned j a c ∈ l := by
  induction l using List.reverseRecOn with
  | nil => cases h
  | append_singleton l e ih =>
    have up : life c l = some .pool → ∃ j a, .returned j a c ∈ l ++ [e] := fun h => by
      obtain ⟨j, a, hm⟩ := ih h
      exact ⟨j, a, List.mem_append_left _ hm⟩
    rw [life_snoc] at h
    cases e with
    | returned j a d =>
      rw [Place.after] at h
      split at h
      · subst d; exact ⟨j, a, by simp⟩
      · exact up h
    | closed d =>
      simp only [Place.after] at h
      split at h
      · rcases hl : life c l with _ | _ | _ | _ <;> rw [hl] at h <;> cases h
      · exact up h
    | refused => exact up h
    | reported => exact up h
    | _ =>
      rw [Place.after] at h
      split at h
      · split at h
        · first | cases h | exact up h
        · cases h
      · exact up h

omit [FloatText] in
theorem held_got {c : Conn} {i : Nat} {l : List Effect} (h : life c l = some (.call i)) : c ∈ got i l := by
  induction l using List.reverseRecOn with
  | nil => cases h
  | append_singleton l e ih =>
    have up : life c l = some (.call i) → c ∈ got i (l ++ [e]) := fun h => by
      rw [got, List.filterMap_append]
      exact List.mem_append_left _ (ih h)
    have here : ∀ e, (∃ a, e = .opened i a c ∨ e = .took i a c) → c ∈ got i (l ++ [e]) := by
      rintro e ⟨a, rfl | rfl⟩ <;> simp [got]
    rw [life_snoc] at h
    cases e with
    | opened j a d =>
      rw [Place.after] at h
      split at h
      · split at h
        · cases h; subst d; exact here _ ⟨a, .inl rfl⟩
        · cases h
      · exact up h
    | took j a d =>
      rw [Place.after] at h
      split at h
      · split at h
        · cases h; subst d; exact here _ ⟨a, .inr rfl⟩
        · cases h
      · exact up h
    | io j d =>
      rw [Place.after] at h
      split at h
      · split at h
        · exact up h
        · cases h
      · exact up h
    | returned j a d =>
      rw [Place.after] at h
      split at h
      · split at h <;> cases h
      · exact up h
    | closed d =>
      simp only [Place.after] at h
      split at h
      · rcases hl : life c l with _ | _ | _ | _ <;> rw [hl] at h <;> cases h
      · exact up h
    | refused => exact up h
    | reported => exact up h

/-- **C123.** An idle connection that is given to a call has served before: another call to the same address
has completed with a response on it and put it back. -/
theorem C123_served (size : Nat) (evs : List SysEvent) (i : Nat) (a : Addr) (c : Conn)
    (l l' : List Effect) (h : (Sys.run evs (.new size)).1 = l ++ .took i a c :: l') :
    ∃ x j y v body, (Sys.run evs (.new size)).2.calls[i]? = some x ∧
      (Sys.run evs (.new size)).2.calls[j]? = some y ∧ j ≠ i ∧ y.addr = x.addr ∧ y.st = .done v body ∧
      .returned j y.addr c ∈ l := by
  have hl := C46_lives size evs c
  rw [h] at hl
  have hp : life c l = some .pool := by
    by_cases hp : life c l = some .pool
    · exact hp
    · exfalso
      apply hl
      rw [life_append, List.foldl_cons, Place.after, if_pos rfl, if_neg hp, after_none]
  obtain ⟨j, b, hm⟩ := pooled_returned hp
  have hlog : .returned j b c ∈ (Sys.run evs (.new size)).1 := by rw [h]; exact List.mem_append_left _ hm
  have htook : .took i a c ∈ (Sys.run evs (.new size)).1 := by rw [h]; simp
  have hret : (b, c) ∈ returns j (Sys.run evs (.new size)).1 := List.mem_filterMap.2 ⟨_, hlog, by simp⟩
  obtain ⟨x, hx, k, hk⟩ := C47_own_address size evs i c _ htook ⟨rfl, rfl⟩
  obtain ⟨y, hy, k', hk'⟩ := C47_own_address size evs j c _ hlog ⟨rfl, rfl⟩
  have haddr := (C47_one_peer size evs _ _ _ _ c hk' hk).2
  have hdone : ∃ v body, y.st = .done v body := by
    by_contra hno
    have : WithoutResponse (Sys.run evs (.new size)).2 j := by
      intro y' v body hy' hst
      rw [hy] at hy'
      cases hy'
      exact hno ⟨v, body, hst⟩
    rw [C52_not_completed size evs j this] at hret
    cases hret
  obtain ⟨v, body, hst⟩ := hdone
  obtain ⟨d, hd1, hd2⟩ := C52_completed size evs j y v body hy hst
  rw [hd2] at hret
  cases List.mem_singleton.1 hret
  refine ⟨x, j, y, v, body, hx, hy, fun hij => ?_, haddr, hst, hm⟩
  subst hij
  obtain ⟨m, m', rfl⟩ := List.append_of_mem hm
  have hcall : life c m = some (.call j) := by
    by_cases hc : life c m = some (.call j)
    · exact hc
    · exfalso
      apply hl
      rw [List.append_assoc, life_append, List.cons_append, List.foldl_cons, Place.after, if_pos rfl, if_neg hc,
        after_none]
  have h1 := held_got hcall
  have hlen := congrArg List.length hd1
  rw [h] at hlen
  have : 0 < (got j m).length := List.length_pos_of_mem h1
  have e : got j (m ++ .returned j y.addr c :: m' ++ .took j a c :: l') =
      got j m ++ got j m' ++ c :: got j l' := by
    simp [got]
  rw [e] at hlen
  simp only [List.length_append, List.length_cons, List.length_nil] at hlen
  omega

end

/-! ### Examples -/

namespace RestartExamples

/-- A call leaves its connection to the pool. The server is restarted. The next call gets the connection
and fails, the one after it gets a new one. -/
def before : List SysEvent :=
  [.call exProc exA exCallArgs [1], .handle 0, .poll 0 .notReady, .poll 0 .connected, .poll 0 .written,
   .poll 0 (.head 404 []), .poll 0 (.body [7]), .handle 1]

def after : List SysEvent :=
  [.call exProc exA exCallArgs [1], .handle 2, .poll 1 .notReady, .poll 1 .failed,
   .call exProc exA exCallArgs [1], .handle 3, .poll 2 .notReady, .poll 2 .connected]

def log : List Effect := [.opened 0 exA 0, .io 0 0, .io 0 0, .io 0 0, .returned 0 exA 0]

theorem before_run : letI := toyFloat
    ∃ s, Sys.run before (.new 1) = (log, s) ∧ s.queue = [] ∧ s.calls = [
      ⟨exProc, exA, .done (.unitVariant "NotFound".toList) [7]⟩] := by
  let := toyFloat
  obtain ⟨r, hr⟩ := exCall_sent [1]
  have hd : deResponse exProc.resTy 404 [] = .ok (.unitVariant "NotFound".toList) := rfl
  have hm : exProc.method ≠ .head := by decide
  simp [before, log, Sys.run, Sys.step, Sys.call, Sys.send, Sys.new, Sys.poll, Sys.handle,
    Cmd.event, Pool.step, Pool.handleAcquire, Pool.acquire, Pool.withSize, BTreeMap.firstFrom,
    Sys.reply, Sys.setCall, CallInner.new, hr, Sys.settle, callStep, callDecode, hd, hm, Pool.release,
    BTreeMap.insert, Pool.dropExceeded, ConnId.lt, exA]

theorem all_run : letI := toyFloat
    ∃ s inner, Sys.run (before ++ after) (.new 1) =
        (log ++ [.took 1 exA 0, .io 1 0, .closed 0, .opened 2 exA 1], s) ∧ s.calls = [
      ⟨exProc, exA, .done (.unitVariant "NotFound".toList) [7]⟩,
      ⟨exProc, exA, .failed .other⟩, ⟨exProc, exA, .active 1 inner⟩] := by
  let := toyFloat
  obtain ⟨r, hr⟩ := exCall_sent [1]
  have hd : deResponse exProc.resTy 404 [] = .ok (.unitVariant "NotFound".toList) := rfl
  have hm : exProc.method ≠ .head := by decide
  simp [before, after, log, Sys.run, Sys.step, Sys.call, Sys.send, Sys.new, Sys.poll, Sys.handle,
    Cmd.event, Pool.step, Pool.handleAcquire, Pool.acquire, Pool.withSize, BTreeMap.firstFrom,
    Sys.reply, Sys.setCall, CallInner.new, hr, Sys.settle, callStep, callDecode, hd, hm, Pool.release,
    BTreeMap.insert, BTreeMap.remove, Pool.dropExceeded, ConnId.lt, natLt, exA]

/-- `C123_restart_quiet`: the bound is attained, by call 1. -/
example : letI := toyFloat; ∃ is : List Nat, is.Nodup ∧ is.length = 1 ∧
    (∀ i ∈ is, (Sys.run before (.new 1)).2.calls.length ≤ i ∧
      WithoutResponse (Sys.run (before ++ after) (.new 1)).2 i ∧
      ∃ c, (∃ j a, .opened j a c ∈ (Sys.run before (.new 1)).1) ∧
        c ∈ got i (Sys.run (before ++ after) (.new 1)).1) := by
  let := toyFloat
  obtain ⟨s, h, -, hc⟩ := before_run
  obtain ⟨s', inner, h', hc'⟩ := all_run
  refine ⟨[1], by simp, rfl, fun i hi => ?_⟩
  cases List.mem_singleton.1 hi
  rw [h, h']
  refine ⟨by rw [hc]; exact Nat.le_refl 1, fun y v body hy hst => ?_, 0, ⟨0, exA, by simp [log]⟩,
    by simp [got, log]⟩
  rw [hc'] at hy
  cases hy
  cases hst

/-- `C123_restart_quiet`: nothing is in progress at that moment. -/
example : letI := toyFloat; (∀ y ∈ (Sys.run before (.new 1)).2.calls, ¬ InProgress y) ∧
    (Sys.run before (.new 1)).2.queue = [] := by
  let := toyFloat
  obtain ⟨s, h, hq, hc⟩ := before_run
  rw [h]
  refine ⟨fun y hy => ?_, hq⟩
  rw [hc] at hy
  cases List.mem_singleton.1 hy
  exact id

/-- `C123_served`: call 1 takes the connection over from call 0. -/
example : letI := toyFloat; ∃ j y v body, (Sys.run (before ++ after) (.new 1)).2.calls[j]? = some y ∧
    j ≠ 1 ∧ y.st = .done v body ∧ .returned j y.addr 0 ∈ log := by
  let := toyFloat
  obtain ⟨s, inner, h, hc⟩ := all_run
  obtain ⟨x, j, y, v, body, -, h2, h3, -, h5, h6⟩ := C123_served 1 (before ++ after) 1 exA 0 log
    [.io 1 0, .closed 0, .opened 2 exA 1] (by rw [h])
  exact ⟨j, y, v, body, h2, h3, h5, h6⟩

end RestartExamples

end Htrpc
