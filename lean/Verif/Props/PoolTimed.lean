/-
How long connecting takes (C115).
-/
import Mathlib.Data.List.Forall2
import Mathlib.Data.List.Induction
import Verif.Spec.PoolTimed
import Verif.Props.Progress

namespace Htrpc
open Spec

section
variable [FloatText]

/-! ### Timed and untimed executions -/

/-- The event that takes place. -/
def TimedSys.actual (s : TimedSys) : TimedEvent → List SysEvent
  | .setConnectTimeout _ => []
  | .event t (.poll i r) => [.poll i (s.timed t i r)]
  | .event _ e => [e]

theorem timed_step_eq (s : TimedSys) (e : TimedEvent) :
    (s.step e).1 = (Sys.run (s.actual e) s.sys).1 ∧
      (s.step e).2.sys = (Sys.run (s.actual e) s.sys).2 := by
  cases e with
  | setConnectTimeout d => exact ⟨rfl, rfl⟩
  | event t e => cases e <;> simp [TimedSys.step, TimedSys.actual, Sys.run]

theorem timed_run_append (evs evs' : List TimedEvent) (s : TimedSys) :
    TimedSys.run (evs ++ evs') s =
      ((TimedSys.run evs s).1 ++ (TimedSys.run evs' (TimedSys.run evs s).2).1,
        (TimedSys.run evs' (TimedSys.run evs s).2).2) := by
  induction evs generalizing s with
  | nil => rfl
  | cons e es ih => simp only [List.cons_append, TimedSys.run, ih, List.append_assoc]

theorem timed_run_snoc (evs : List TimedEvent) (e : TimedEvent) (s : TimedSys) :
    (TimedSys.run (evs ++ [e]) s).2 = ((TimedSys.run evs s).2.step e).2 := by
  rw [timed_run_append]; rfl

omit [FloatText] in
theorem actual_givenUp (s : TimedSys) (e : TimedEvent) :
    List.Forall₂ GivenUp (untimed [e]) (s.actual e) := by
  cases e with
  | setConnectTimeout d => exact .nil
  | event t e =>
    cases e with
    | poll i r =>
      refine .cons ?_ .nil
      unfold TimedSys.timed
      split
      · split
        · exact .inl rfl
        · exact .inl rfl
        · next r h1 h2 =>
          split
          · split
            · exact .inr ⟨i, _, rfl, fun e => h1 (by rw [e]), rfl⟩
            · exact .inl rfl
          · exact .inl rfl
      · exact .inl rfl
    | _ => exact .cons (.inl rfl) .nil

/-- **C115.** A pool with a timeout for connecting does nothing that it could not do without: some
attempts fail.  So all that is shown of calls through a pool holds for it. -/
theorem C115_untimed (s : TimedSys) (evs : List TimedEvent) :
    ∃ evs', List.Forall₂ GivenUp (untimed evs) evs' ∧
      (TimedSys.run evs s).1 = (Sys.run evs' s.sys).1 ∧
      (TimedSys.run evs s).2.sys = (Sys.run evs' s.sys).2 := by
  induction evs generalizing s with
  | nil => exact ⟨[], .nil, rfl, rfl⟩
  | cons e es ih =>
    obtain ⟨evs', h1, h2, h3⟩ := ih (s.step e).2
    obtain ⟨g1, g2⟩ := timed_step_eq s e
    refine ⟨s.actual e ++ evs', ?_, ?_, ?_⟩
    · have : untimed (e :: es) = untimed [e] ++ untimed es := by
        simp only [untimed, List.filterMap_cons]
        cases e <;> rfl
      rw [this]
      exact List.rel_append (actual_givenUp s e) h1
    · rw [sys_run_append, ← g2, ← g1, ← h2]; rfl
    · rw [sys_run_append, ← g2, ← h3]; rfl

/-! ### When a call connects -/

omit [FloatText] in
theorem settled_connecting {c : Conn} {inner inner' : CallInner} {o : CallOutcome} {a : Addr} :
    settled c inner o ≠ .replied inner' (.connecting a) := by
  cases o <;> simp [settled]

theorem polled_connecting {alive : Bool} {next : Conn} {p : Proc} {r : IoResult} {st : PCallSt}
    {inner : CallInner} {a : Addr} (h : polled alive next p r st = .replied inner (.connecting a)) :
    st = .replied inner (.connecting a) := by
  unfold polled at h
  split at h
  · split at h <;> cases h
  · exact absurd h settled_connecting
  · cases h
  · split at h
    · exact absurd h settled_connecting
    · cases h
    · exact h
  · exact absurd h settled_connecting
  · exact h

/-- A call that connects did so before, or has waited for the reply which it has just got. -/
theorem connecting_back {s : Sys} {e : SysEvent} {i : Nat} {y' : PCall} {inner : CallInner} {a : Addr}
    (hy : (s.step e).2.calls[i]? = some y') (hst : y'.st = .replied inner (.connecting a)) :
    ∃ y, s.calls[i]? = some y ∧ (y.st = .replied inner (.connecting a) ∨
      (∃ now, e = .handle now) ∧ ∃ inner', y.st = .waiting inner') := by
  cases hy0 : s.calls[i]? with
  | none =>
    exfalso
    have hl : ¬ i < s.calls.length := by
      intro hl; rw [List.getElem?_eq_getElem hl] at hy0; cases hy0
    have hl' := (List.getElem?_eq_some_iff.1 hy).1
    cases e with
    | call p b v bs =>
      simp only [Sys.step, Sys.call, Sys.send_calls] at hy hl'
      rw [List.getElem?_append_right (by omega)] at hy
      have : i - s.calls.length = 0 := by
        simp only [List.length_append, List.length_cons, List.length_nil] at hl'; omega
      rw [this] at hy
      cases hy
      cases hst
    | _ => rw [step_length s _ (by simp)] at hl'; exact hl hl'
  | some y =>
    refine ⟨y, rfl, ?_⟩
    obtain ⟨y'', h1, -, h3⟩ := step_changes s e i y hy0
    rw [hy] at h1
    cases h1
    rw [hst] at h3
    generalize y.st = st at h3 ⊢
    generalize hf : PCallSt.replied inner (.connecting a) = st' at h3
    cases h3 with
    | same => exact .inl rfl
    | reply => exact .inr ⟨⟨_, rfl⟩, _, rfl⟩
    | poll alive next => exact .inl (hf ▸ polled_connecting hf.symm)
    | dropped => cases hf
    | late => exact .inl rfl

omit [FloatText] in
/-- If a waiting call gets the reply to connect, this is where connecting begins. -/
theorem beginning_of {s : Sys} {now : Time} {i : Nat} {y y' : PCall} {inner inner' : CallInner}
    {a : Addr} (hy : s.calls[i]? = some y) (hst : y.st = .waiting inner)
    (hy' : (s.handle now).2.calls[i]? = some y') (hst' : y'.st = .replied inner' (.connecting a)) :
    TimedSys.beginning now s = some i := by
  have no : s.calls[i]? ≠ some y' := by
    rw [hy]; rintro ⟨⟩; rw [hst] at hst'; cases hst'
  unfold Sys.handle at hy'
  split at hy'
  · next p cmd q hp hq =>
    split at hy'
    · next out p' hstep =>
      dsimp only at hy'
      split at hy'
      · next b j f =>
        unfold Sys.reply at hy'
        split at hy'
        · next pr b' inner'' hj =>
          have hj : s.calls[j]? = some ⟨pr, b', .waiting inner''⟩ := hj
          by_cases e : j = i
          · subst e
            have hg : (s.calls.set j ⟨pr, b', .replied inner'' f⟩)[j]? = some y' := hy'
            rw [set_get_self hj] at hg
            cases hg
            cases hst'
            have hstep : p.step (.acquire b now) = .ok (.reply (.connecting a), p') := hstep
            simp only [TimedSys.beginning, hp, hq, hstep, hj]
          · have hg : (s.calls.set j ⟨pr, b', .replied inner'' f⟩)[i]? = some y' := hy'
            rw [set_get hy e] at hg
            exact absurd (hy.trans hg) no
        · exact absurd hy' no
      · exact absurd hy' no
      · exact absurd hy' no
      · exact absurd hy' no
    · rw [dropPool_calls] at hy'
      exact absurd hy' no
  · exact absurd hy' no

omit [FloatText] in
theorem waiting_of_beginning {s : Sys} {now : Time} {i : Nat} (h : TimedSys.beginning now s = some i) :
    ∃ y inner, s.calls[i]? = some y ∧ y.st = .waiting inner := by
  unfold TimedSys.beginning at h
  split at h
  · split at h
    · next hj => cases h; exact ⟨_, _, hj, rfl⟩
    · cases h
  · cases h

omit [FloatText] in
theorem timeoutAfter_snoc (evs : List TimedEvent) (e : TimedEvent) :
    timeoutAfter (evs ++ [e]) = match e with | .setConnectTimeout d => d | _ => timeoutAfter evs := by
  cases e <;> simp [timeoutAfter, List.filterMap_append]

theorem timed_timeout (size : Nat) (evs : List TimedEvent) :
    (TimedSys.run evs (.new size)).2.connectTimeout = timeoutAfter evs := by
  have step : ∀ (s : TimedSys) e, (s.step e).2.connectTimeout =
      match e with | .setConnectTimeout d => d | _ => s.connectTimeout := by
    intro s e
    cases e with
    | setConnectTimeout d => rfl
    | event t e => cases e <;> rfl
  induction evs using List.reverseRecOn with
  | nil => rfl
  | append_singleton es e ih => rw [timed_run_snoc, step, timeoutAfter_snoc, ih]

theorem began_snoc {size : Nat} {evs : List TimedEvent} {i : Nat} {t : Time} {d : Nat}
    (h : Began size evs i t d) (e : TimedEvent) : Began size (evs ++ [e]) i t d := by
  obtain ⟨pre, now, post, rfl, hd, h1, h2⟩ := h
  exact ⟨pre, now, post ++ [e], by simp, hd, h1, h2⟩

/-- Every call that connects has begun to, and has a timer since then. -/
theorem deadline_of (size : Nat) (evs : List TimedEvent) : ∀ i a, Connects size evs i a →
    ∃ t d, Began size evs i t d ∧ (TimedSys.run evs (.new size)).2.deadlines.lookup i = some (t + d) := by
  induction evs using List.reverseRecOn with
  | nil =>
    rintro i a ⟨y, inner, hy, -⟩
    simp [TimedSys.run, TimedSys.new, Sys.new] at hy
  | append_singleton es e ih =>
    intro i a hc
    have hc' := hc
    obtain ⟨y', inner, hy', hst'⟩ := hc'
    rw [timed_run_snoc] at hy' ⊢
    generalize hs : (TimedSys.run es (.new size)).2 = s at hy' ih
    -- an event which leaves the timers alone
    have keep : ∀ e', (s.step e).2.sys = (s.sys.step e').2 → (∀ now, e' ≠ .handle now) →
        (s.step e).2.deadlines = s.deadlines → ∃ t d, Began size (es ++ [e]) i t d ∧
          (s.step e).2.deadlines.lookup i = some (t + d) := by
      intro e' h1 h2 h3
      rw [h1] at hy'
      obtain ⟨y, hy, h | ⟨⟨now, h⟩, -⟩⟩ := connecting_back hy' hst'
      · obtain ⟨t, d, h4, h5⟩ := ih i a ⟨y, inner, by rw [hs]; exact hy, h⟩
        exact ⟨t, d, began_snoc h4 e, by rw [h3]; exact h5⟩
      · exact absurd h (h2 now)
    cases e with
    | setConnectTimeout d =>
      obtain ⟨t, d', h4, h5⟩ := ih i a ⟨y', inner, by rw [hs]; exact hy', hst'⟩
      exact ⟨t, d', began_snoc h4 _, h5⟩
    | event t e =>
      cases e with
      | handle now =>
        have hy'' : (s.sys.step (.handle now)).2.calls[i]? = some y' := hy'
        have hd : (s.step (.event t (.handle now))).2.deadlines = s.timers t now := rfl
        rw [hd, TimedSys.timers]
        obtain ⟨y, hy, h | ⟨-, inner', h⟩⟩ := connecting_back hy'' hst'
        · obtain ⟨t', d, h4, h5⟩ := ih i a ⟨y, inner, by rw [hs]; exact hy, h⟩
          refine ⟨t', d, began_snoc h4 _, ?_⟩
          split
          · next j hj =>
            obtain ⟨z, inner2, hz, hz'⟩ := waiting_of_beginning hj
            have hne : i ≠ j := by
              rintro rfl
              rw [hy] at hz
              cases hz
              rw [h] at hz'
              cases hz'
            rw [List.lookup_cons, show (i == j) = false from by simpa using hne]
            exact h5
          · exact h5
        · rw [beginning_of hy h hy'' hst']
          refine ⟨t, s.connectTimeout, ⟨es, now, [], rfl, ?_, ?_, ⟨a, hc⟩⟩, by simp⟩
          · rw [← hs, timed_timeout]
          · rintro b ⟨z, inner2, hz, hz'⟩
            rw [hs, hy] at hz
            cases hz
            rw [h] at hz'
            cases hz'
      | poll j r => exact keep (.poll j (s.timed t j r)) rfl (by simp) rfl
      | call p b v bs => exact keep (.call p b v bs) rfl (by simp) rfl
      | setSuspended d => exact keep (.setSuspended d) rfl (by simp) rfl
      | dropPool => exact keep .dropPool rfl (by simp) rfl
      | dropCall j => exact keep (.dropCall j) rfl (by simp) rfl

/-! ### A call connects once -/

theorem timed_reached_run {s : TimedSys} {i n : Nat} (h : s.sys.Reached i n) (evs : List TimedEvent) :
    (TimedSys.run evs s).2.sys.Reached i n := by
  obtain ⟨evs', -, -, h3⟩ := C115_untimed s evs
  rw [h3]
  exact reached_run h evs'

theorem timed_reached_new (size : Nat) (evs : List TimedEvent) (i : Nat)
    (hi : i < (TimedSys.run evs (.new size)).2.sys.calls.length) :
    (TimedSys.run evs (.new size)).2.sys.Reached i 0 := by
  obtain ⟨evs', -, -, h3⟩ := C115_untimed (.new size) evs
  rw [h3] at hi ⊢
  exact reached_new size evs' i hi

theorem connects_reached {size : Nat} {evs : List TimedEvent} {i : Nat} {a : Addr}
    (h : Connects size evs i a) : (TimedSys.run evs (.new size)).2.sys.Reached i 1 := by
  obtain ⟨y, inner, hy, hst⟩ := h
  obtain ⟨y', m, hy', hm, -⟩ := timed_reached_new size evs i (List.getElem?_eq_some_iff.1 hy).1
  rw [hy] at hy'
  cases hy'
  refine ⟨y, 1, hy, ?_, Nat.le_refl _⟩
  rw [hst] at hm ⊢
  simp only [stage] at hm ⊢
  split at hm
  · next h => simp [h]
  · cases hm

/-- A call does not begin twice to connect. -/
theorem began_last {size : Nat} {pre : List TimedEvent} {t : Time} {now : Time} {i : Nat} {a : Addr}
    (h0 : ∀ a, ¬ Connects size pre i a) (h1 : Connects size (pre ++ [.event t (.handle now)]) i a)
    {evs evs' : List TimedEvent} (he : pre = evs ++ evs') (b : Addr) : ¬ Connects size evs i b := by
  intro hc
  subst he
  have hr : (TimedSys.run (evs ++ evs') (.new size)).2.sys.Reached i 1 := by
    rw [timed_run_append]; exact timed_reached_run (connects_reached hc) evs'
  obtain ⟨y', inner, hy', hst'⟩ := h1
  rw [timed_run_snoc] at hy'
  have hy'' : ((TimedSys.run (evs ++ evs') (.new size)).2.sys.step (.handle now)).2.calls[i]? = some y' :=
    hy'
  obtain ⟨y, hy, h | ⟨-, inner', h⟩⟩ := connecting_back hy'' hst'
  · exact h0 a ⟨y, inner, hy, h⟩
  · obtain ⟨z, m, hz, hm, hl⟩ := hr
    rw [hy] at hz
    cases hz
    rw [h] at hm
    simp only [stage] at hm
    split at hm <;> cases hm
    omega

theorem began_unique {size : Nat} {evs : List TimedEvent} {i : Nat} {t t' : Time} {d d' : Nat}
    (h : Began size evs i t d) (h' : Began size evs i t' d') : t = t' ∧ d = d' := by
  obtain ⟨pre, now, post, rfl, rfl, h0, a, h1⟩ := h
  obtain ⟨pre', now', post', he, rfl, h0', a', h1'⟩ := h'
  rcases List.append_eq_append_iff.1 he with ⟨x, h2, h3⟩ | ⟨x, h2, h3⟩
  · cases x with
    | nil =>
      rw [List.append_nil] at h2
      subst h2
      cases h3
      exact ⟨rfl, rfl⟩
    | cons e x =>
      rw [List.cons_append] at h3
      injection h3 with h3 h4
      subst h3
      exact absurd h1 (began_last h0' h1' (evs' := x) (by rw [h2]; simp) a)
  · cases x with
    | nil =>
      rw [List.append_nil] at h2
      subst h2
      cases h3
      exact ⟨rfl, rfl⟩
    | cons e x =>
      rw [List.cons_append] at h3
      injection h3 with h3 h4
      subst h3
      exact absurd h1' (began_last h0 h1 (evs' := x) (by rw [h2]; simp) a')

/-! ### The timeout -/

/-- **C115.** A call that connects has begun to do so at one time, with the timeout that was in force
then.  When it is polled and the network has neither connected it nor failed, then it goes on if the
timeout is not over, and nothing happens; if it is over the call fails with `Other`, and the address is
reported to the pool, as if the network had failed. -/
theorem C115_connecting (size : Nat) (evs : List TimedEvent) (i : Nat) (a : Addr)
    (hc : Connects size evs i a) :
    ∃ t₀ d, Began size evs i t₀ d ∧ (∀ t₀' d', Began size evs i t₀' d' → t₀' = t₀ ∧ d' = d) ∧
      ∀ t r, r ≠ .connected → r ≠ .failed →
        let before := (TimedSys.run evs (.new size)).2
        let after := before.step (.event t (.poll i r))
        if t₀ + d ≤ t then
          after.1 = [.refused i a] ∧ (∃ y, after.2.sys.calls[i]? = some y ∧ y.st = .failed .other) ∧
            (before.sys.pool ≠ none → after.2.sys.queue = before.sys.queue ++ [.blacklist a])
        else after = ([], before) := by
  obtain ⟨t₀, d, hb, hl⟩ := deadline_of size evs i a hc
  refine ⟨t₀, d, hb, fun _ _ h => began_unique h hb, ?_⟩
  intro t r h1 h2
  obtain ⟨⟨p, b, st⟩, inner, hy, rfl⟩ := hc
  generalize (TimedSys.run evs (.new size)).2 = s at hy hl
  have ht : s.timed t i r = if t₀ + d ≤ t then .failed else r := by
    simp only [TimedSys.timed, hy]
    cases r <;> first | exact absurd rfl h1 | exact absurd rfl h2 | simp only [hl]
  dsimp only
  split
  · next h =>
    rw [if_pos h] at ht
    have hs : (s.step (.event t (.poll i r))) =
        ([.refused i a], { s with sys := (s.sys.setCall i ⟨p, b, .failed .other⟩).send (.blacklist a) }) := by
      simp only [TimedSys.step, ht, Sys.step, Sys.poll, hy]
    rw [hs]
    refine ⟨rfl, ⟨⟨p, b, .failed .other⟩, ?_, rfl⟩, fun hp => ?_⟩
    · simp only [Sys.send_calls]
      exact set_get_self hy
    · dsimp only
      unfold Sys.send
      split
      · next hn => exact absurd hn hp
      · rfl
  · next h =>
    rw [if_neg h] at ht
    simp only [TimedSys.step, ht, Sys.step, Sys.poll, hy]

/-- A call that is polled does not connect any more when its time is over. -/
theorem polled_late {size : Nat} {evs : List TimedEvent} {i : Nat} {t : Time} {r : IoResult}
    (hlate : ∀ t₀ d, Began size evs i t₀ d → t₀ + d ≤ t)
    (h : (TimedSys.run evs (.new size)).2.sys.Reached i 1) :
    ((TimedSys.run evs (.new size)).2.step (.event t (.poll i r))).2.sys.Reached i 2 := by
  have hd := deadline_of size evs i
  generalize hs : (TimedSys.run evs (.new size)).2 = s at h hd
  obtain ⟨⟨p, b, st⟩, m, hy, hm, hn⟩ := h
  have hm : stage st = some m := hm
  have hst : (s.step (.event t (.poll i r))).2.sys = (s.sys.poll i (s.timed t i r)).2 := rfl
  refine ⟨⟨p, b, polled s.sys.pool.isSome s.sys.next p (s.timed t i r) st⟩, ?_⟩
  have hy' : (s.step (.event t (.poll i r))).2.sys.calls[i]? =
      some ⟨p, b, polled s.sys.pool.isSome s.sys.next p (s.timed t i r) st⟩ := by
    rw [hst, poll_calls _ _ _ _ hy]
    exact set_get_self hy
  by_cases h2 : 2 ≤ m
  · obtain ⟨k, h3, h4⟩ := polled_stage s.sys.pool.isSome s.sys.next p (s.timed t i r) st m hm
    exact ⟨k, hy', h3, Nat.le_trans h2 (Nat.le_trans (goal_mono _ _) h4)⟩
  · have : m = 1 := by omega
    subst this
    cases st with
    | waiting inner => simp only [stage] at hm; split at hm <;> cases hm
    | active c inner =>
      simp only [stage] at hm
      split at hm <;> cases hm
    | replied inner f =>
      simp only [stage] at hm
      split at hm
      · next hph =>
        cases f with
        | ready c =>
          obtain ⟨k, h3, h4⟩ := connected_stage p c inner hph
          exact ⟨k, hy', h3, h4⟩
        | failed => exact ⟨5, hy', rfl, by omega⟩
        | connecting a =>
          by_cases hr : r = .connected
          · subst hr
            obtain ⟨k, h3, h4⟩ := connected_stage p s.sys.next inner hph
            refine ⟨k, hy', ?_, h4⟩
            simp only [TimedSys.timed, hy, polled]
            exact h3
          · obtain ⟨t₀, d, hb, hl⟩ := hd a ⟨_, inner, by rw [hs]; exact hy, rfl⟩
            have ht : s.timed t i r = .failed := by
              simp only [TimedSys.timed, hy]
              cases r <;> first
                | exact absurd rfl hr
                | rfl
                | simp only [hl, if_pos (hlate _ _ hb)]
            refine ⟨5, hy', ?_, by omega⟩
            rw [ht]
            rfl
      · cases hm
    | done v b => cases hm
    | failed k => cases hm
    | panicked => cases hm
    | dropped => cases hm

/-- **C115.** No call connects for longer: if it is polled when its time is over, then it does not
connect any more, whatever the network does, and it never does again. -/
theorem C115_in_time (size : Nat) (evs evs' : List TimedEvent) (i : Nat) (a : Addr)
    (hc : Connects size evs i a) (t₀ d : Nat) (hb : Began size evs i t₀ d) (t : Time) (r : IoResult)
    (ht : t₀ + d ≤ t) (b : Addr) : ¬ Connects size (evs ++ .event t (.poll i r) :: evs') i b := by
  rintro ⟨y, inner, hy, hst⟩
  have h := polled_late (t := t) (r := r)
    (fun t' d' h' => by obtain ⟨rfl, rfl⟩ := began_unique h' hb; exact ht) (connects_reached hc)
  have h' := timed_reached_run h evs'
  rw [show evs ++ .event t (.poll i r) :: evs' = evs ++ ([.event t (.poll i r)] ++ evs') by simp,
    timed_run_append] at hy
  obtain ⟨z, m, hz, hm, hl⟩ := h'
  have : some z = some y := hz.symm.trans hy
  cases this
  rw [hst] at hm
  simp only [stage] at hm
  split at hm <;> cases hm
  omega

/-! ### The end of a call -/

omit [FloatText] in
theorem givenUp_handles {evs evs' : List SysEvent} (h : List.Forall₂ GivenUp evs evs') :
    handles evs = handles evs' := by
  induction h with
  | nil => rfl
  | cons h _ ih =>
    rw [Sys.handles_cons, Sys.handles_cons, ih]
    rcases h with rfl | ⟨i, r, rfl, -, rfl⟩ <;> rfl

theorem timed_reached_poll {s : TimedSys} {i n : Nat} (h : s.sys.Reached i n) (hn : 2 ≤ n) (t : Time)
    (r : IoResult) : (s.step (.event t (.poll i r))).2.sys.Reached i (goal r n) := by
  have ht : s.timed t i r = r := by
    obtain ⟨y, m, hy, hm, hl⟩ := h
    unfold TimedSys.timed
    split
    · next hy' =>
      rw [hy] at hy'
      cases hy'
      simp only [stage] at hm
      split at hm <;> cases hm
      omega
    · rfl
  have := reached_poll h r
  show (s.sys.step (.poll i (s.timed t i r))).2.Reached i (goal r n)
  rw [ht]
  exact this

/-- **C115.** So every call ends, whatever becomes of its attempt to connect: once the pool has handled
the commands in its queue, the time for connecting is over, and, if the call is connected, the network
has taken its request and delivered head and body of a response. -/
theorem C115_finishes (size : Nat) (evs e₀ e₁ e₂ e₃ e₄ : List TimedEvent) (i : Nat)
    (t₁ t₂ t₃ t₄ : Time) (r : IoResult) (code : Nat) (hs : List Header) (b : Bytes)
    (hi : i < (TimedSys.run evs (.new size)).2.sys.calls.length)
    (hn : (TimedSys.run evs (.new size)).2.sys.queue.length ≤ handles (untimed e₀))
    (ht : ∀ t₀ d, Began size (evs ++ e₀) i t₀ d → t₀ + d ≤ t₁) :
    ∃ y, (TimedSys.run (evs ++ e₀ ++ .event t₁ (.poll i r) :: (e₁ ++ .event t₂ (.poll i .written) ::
        (e₂ ++ .event t₃ (.poll i (.head code hs)) :: (e₃ ++ .event t₄ (.poll i (.body b)) :: e₄))))
          (.new size)).2.sys.calls[i]? = some y ∧ Finished y.st := by
  have then_ : ∀ (l : List TimedEvent) e l' (s : TimedSys), (TimedSys.run (l ++ e :: l') s).2 =
      (TimedSys.run l' ((TimedSys.run l s).2.step e).2).2 := by
    intro l e l' s; rw [timed_run_append]; rfl
  rw [then_]
  have h1 : ((TimedSys.run (evs ++ e₀) (.new size)).2.step (.event t₁ (.poll i r))).2.sys.Reached i 2 := by
    obtain ⟨evs', -, -, g3⟩ := C115_untimed (.new size) evs
    obtain ⟨e₀', k1, -, k3⟩ := C115_untimed (TimedSys.run evs (.new size)).2 e₀
    have hq : (TimedSys.run (evs ++ e₀) (.new size)).2.sys =
        (Sys.run e₀' (Sys.run evs' (.new size)).2).2 := by
      rw [timed_run_append]
      show (TimedSys.run e₀ (TimedSys.run evs (.new size)).2).2.sys = _
      rw [k3, g3]; rfl
    have hr : (TimedSys.run (evs ++ e₀) (.new size)).2.sys.Reached i 0 := by
      rw [timed_run_append]; exact timed_reached_run (timed_reached_new size evs i hi) e₀
    obtain ⟨y, m, hy, hm, -⟩ := hr
    by_cases h0 : 1 ≤ m
    · exact polled_late ht ⟨y, m, hy, hm, h0⟩
    · obtain ⟨p, a, st⟩ := y
      have hst : ∃ inner, st = .waiting inner := by
        cases st with
        | waiting inner => exact ⟨inner, rfl⟩
        | replied inner f =>
          simp only [stage] at hm
          split at hm <;> cases hm
          omega
        | active c inner =>
          simp only [stage] at hm
          split at hm <;> cases hm <;> omega
        | done v b => cases hm; omega
        | failed k => cases hm; omega
        | panicked => cases hm; omega
        | dropped => cases hm; omega
      obtain ⟨inner, rfl⟩ := hst
      have hp : (TimedSys.run (evs ++ e₀) (.new size)).2.sys.pool = none := by
        rw [hq] at hy ⊢
        rw [g3] at hi hn
        exact C53_answered size evs' e₀' i _ inner hi (by rw [← givenUp_handles k1]; exact hn) hy rfl
      refine ⟨⟨p, a, .failed .other⟩, 5, ?_, rfl, by omega⟩
      show ((TimedSys.run (evs ++ e₀) (.new size)).2.sys.poll i _).2.calls[i]? = _
      rw [poll_calls _ i _ _ hy, hp]
      exact set_get_self hy
  have h2 := timed_reached_poll (timed_reached_run h1 e₁) (by omega) t₂ .written
  rw [then_]
  have h3 := timed_reached_poll (timed_reached_run h2 e₂) (by simp [goal]) t₃ (.head code hs)
  rw [then_]
  have h4 := timed_reached_poll (timed_reached_run h3 e₃) (by simp [goal]) t₄ (.body b)
  rw [then_]
  obtain ⟨y, m, hy, hm, hl⟩ := timed_reached_run h4 e₄
  refine ⟨y, hy, ?_⟩
  have hl : 5 ≤ m := hl
  generalize y.st = st at hm
  cases st with
  | waiting inner =>
    simp only [stage] at hm
    split at hm <;> cases hm
    omega
  | replied inner f =>
    simp only [stage] at hm
    split at hm <;> cases hm
    omega
  | active c inner =>
    simp only [stage] at hm
    split at hm <;> cases hm <;> omega
  | _ => trivial

/-- **C115.** This is the only timeout: a call that has its connection waits for the network for as long
as this gives no result, whatever the time is and whatever else happens. -/
theorem C115_patient (s : TimedSys) (evs : List TimedEvent) (i : Nat) (y : PCall) (c : Conn)
    (inner : CallInner) (hy : s.sys.calls[i]? = some y) (hst : y.st = .active c inner)
    (hq : Undisturbed i (untimed evs)) :
    ∃ y', (TimedSys.run evs s).2.sys.calls[i]? = some y' ∧ y'.st = .active c inner := by
  induction evs generalizing s y with
  | nil => exact ⟨y, hy, hst⟩
  | cons e es ih =>
    have hq' : Undisturbed i (untimed es) := by
      intro x hx
      refine hq x ?_
      simp only [untimed, List.filterMap_cons]
      cases e
      · exact List.mem_cons_of_mem _ hx
      · exact hx
    show ∃ y', (TimedSys.run es (s.step e).2).2.sys.calls[i]? = some y' ∧ _
    have go : ∀ e', (s.step e).2.sys = (s.sys.step e').2 → (∀ r, e' = .poll i r → r = .notReady) →
        e' ≠ .dropCall i → ∃ y', (s.step e).2.sys.calls[i]? = some y' ∧ y'.st = .active c inner := by
      intro e' h1 h2 h3
      rw [h1]
      obtain ⟨y', g1, -, g3⟩ := step_changes s.sys e' i y hy
      refine ⟨y', g1, ?_⟩
      rw [hst] at g3
      generalize y'.st = st' at g3
      cases g3 with
      | same => rfl
      | poll alive next =>
        rw [h2 _ rfl]
        simp [polled, callStep, settled]
      | dropped => exact absurd rfl h3
      | late => exact absurd rfl h3
    have key : ∃ y', (s.step e).2.sys.calls[i]? = some y' ∧ y'.st = .active c inner := by
      cases e with
      | setConnectTimeout d => exact ⟨y, hy, hst⟩
      | event t e =>
        have he := hq e (by simp [untimed])
        cases e with
        | poll j r =>
          refine go (.poll j (s.timed t j r)) rfl ?_ (by simp)
          intro r' h'
          injection h' with h1 h2
          subst h1
          have hr := he.1 r rfl
          have : s.timed t j r = r := by
            unfold TimedSys.timed
            split
            · next hz => rw [hy] at hz; cases hz; cases hst
            · rfl
          rw [← h2, this, hr]
        | handle now => exact go (.handle now) rfl (by simp) (by simp)
        | call p b v bs => exact go (.call p b v bs) rfl (by simp) (by simp)
        | setSuspended d => exact go (.setSuspended d) rfl (by simp) (by simp)
        | dropPool => exact go .dropPool rfl (by simp) (by simp)
        | dropCall j => exact go (.dropCall j) rfl (by simp) he.2
    obtain ⟨y', k1, k2⟩ := key
    exact ih _ y' k1 k2 hq'

end

namespace PoolTimedExamples

attribute [local instance] toyFloat

/-- A call connects from the time 5 on; the timeout is the default of one second, though another one is
set afterwards. -/
def exBegin : List TimedEvent :=
  [.event 3 (.call exProc exA exCallArgs [1]), .event 5 (.handle 0), .setConnectTimeout 7,
   .event 6 (.poll 0 .notReady)]

theorem exBegin_run : (TimedSys.run exBegin (.new 3)).1 = [] ∧ Connects 3 exBegin 0 exA := by
  refine ⟨?_, ⟨⟨exProc, exA, .replied (.new exCallArgs [1]) (.connecting exA)⟩, .new exCallArgs [1], ?_, rfl⟩⟩ <;>
  simp [exBegin, TimedSys.run, TimedSys.step, TimedSys.new, TimedSys.timers, TimedSys.timed,
    TimedSys.beginning, Sys.step, Sys.call, Sys.send, Sys.new, Sys.poll, Sys.handle,
    Cmd.event, Pool.step, Pool.handleAcquire, Pool.acquire, Pool.withSize, BTreeMap.firstFrom,
    Sys.reply, Sys.setCall, exA]

theorem exBegin_began : Began 3 exBegin 0 5 1000000000 := by
  refine ⟨[.event 3 (.call exProc exA exCallArgs [1])], 0,
    [.setConnectTimeout 7, .event 6 (.poll 0 .notReady)], rfl, rfl, ?_, exA,
    ⟨⟨exProc, exA, .replied (.new exCallArgs [1]) (.connecting exA)⟩, .new exCallArgs [1], ?_, rfl⟩⟩
  · rintro a ⟨y, inner, hy, hst⟩
    simp [TimedSys.run, TimedSys.step, TimedSys.new, Sys.step, Sys.call, Sys.send, Sys.new] at hy
    subst hy
    cases hst
  · simp [TimedSys.run, TimedSys.step, TimedSys.new, TimedSys.timers,
      TimedSys.beginning, Sys.step, Sys.call, Sys.send, Sys.new, Sys.handle,
      Cmd.event, Pool.step, Pool.handleAcquire, Pool.acquire, Pool.withSize, BTreeMap.firstFrom,
      Sys.reply, Sys.setCall, exA]

/-- At the last nanosecond of the second nothing happens, and after it the call fails. -/
example : ((TimedSys.run exBegin (.new 3)).2.step (.event 1000000004 (.poll 0 .notReady))).1 = [] ∧
    ((TimedSys.run exBegin (.new 3)).2.step (.event 1000000005 (.poll 0 .notReady))).1 =
      [.refused 0 exA] := by
  obtain ⟨t₀, d, -, hu, h⟩ := C115_connecting 3 exBegin 0 exA exBegin_run.2
  obtain ⟨rfl, rfl⟩ := hu _ _ exBegin_began
  have h1 := h 1000000004 .notReady (by simp) (by simp)
  have h2 := h 1000000005 .notReady (by simp) (by simp)
  dsimp only at h1 h2
  rw [if_neg (by decide)] at h1
  rw [if_pos (by decide)] at h2
  exact ⟨by rw [h1], h2.1⟩

/-- `C115_in_time`: whatever happens after that, it does not connect. -/
example (evs : List TimedEvent) (b : Addr) :
    ¬ Connects 3 (exBegin ++ .event 1000000005 (.poll 0 .notReady) :: evs) 0 b :=
  C115_in_time 3 exBegin evs 0 exA exBegin_run.2 5 1000000000 exBegin_began _ _ (by decide) b

/-- `C115_finishes` applies. -/
example (evs : List TimedEvent) :
    ∃ y, (TimedSys.run ([.event 3 (.call exProc exA exCallArgs [1])] ++ exBegin.tail ++
      .event 1000000005 (.poll 0 .notReady) :: ([] ++ .event 0 (.poll 0 .written) ::
        ([] ++ .event 0 (.poll 0 (.head 404 [])) :: ([] ++ .event 0 (.poll 0 (.body [])) :: evs))))
          (.new 3)).2.sys.calls[0]? = some y ∧ Finished y.st := by
  refine C115_finishes 3 [.event 3 (.call exProc exA exCallArgs [1])] exBegin.tail [] [] [] evs 0
    1000000005 0 0 0 .notReady 404 [] [] ?_ ?_ ?_
  · simp [TimedSys.run, TimedSys.step, TimedSys.new, Sys.step, Sys.call, Sys.send, Sys.new]
  · simp [TimedSys.run, TimedSys.step, TimedSys.new, Sys.step, Sys.call, Sys.send, Sys.new, exBegin,
      untimed, handles]
  · intro t₀ d h
    obtain ⟨rfl, rfl⟩ := began_unique h exBegin_began
    decide

/-- `C115_patient`: a call that has been connected waits, here for more than a year. -/
example : ∃ (evs : List TimedEvent) (y y' : PCall) (inner : CallInner),
    (TimedSys.run evs (.new 3)).2.sys.calls[0]? = some y ∧ y.st = .active 0 inner ∧
    (TimedSys.run [.event 40000000000000000 (.poll 0 .notReady)]
      (TimedSys.run evs (.new 3)).2).2.sys.calls[0]? = some y' ∧ y'.st = .active 0 inner := by
  obtain ⟨r, hr⟩ := exCall_sent [1]
  have h : (TimedSys.run (exBegin ++ [.event 7 (.poll 0 .connected)]) (.new 3)).2.sys.calls[0]? =
      some ⟨exProc, exA, .active 0 ⟨none, .write r⟩⟩ := by
    simp [exBegin, TimedSys.run, TimedSys.step, TimedSys.new, TimedSys.timers, TimedSys.timed,
      TimedSys.beginning, Sys.step, Sys.call, Sys.send, Sys.new, Sys.poll, Sys.handle,
      Cmd.event, Pool.step, Pool.handleAcquire, Pool.acquire, Pool.withSize, BTreeMap.firstFrom,
      Sys.reply, Sys.setCall, Sys.settle, callStep, CallInner.new, hr, exA]
  obtain ⟨y', h1, h2⟩ := C115_patient _ [.event 40000000000000000 (.poll 0 .notReady)] 0 _ 0 _ h rfl
    (by intro e he; simp [untimed] at he; subst he; simp)
  exact ⟨_, _, y', _, h, rfl, h1, h2⟩

end PoolTimedExamples

end Htrpc
