/-
How many connections are open (C97).
-/
import Verif.Spec.OpenConns
import Verif.Props.Progress
import Mathlib.Data.List.Perm.Subperm

set_option linter.unusedSectionVars false

namespace Htrpc
open Spec

/-! ### The pool -/

/-- The pool has at most `size` connections. -/
def Within (size : Nat) (s : Sys) : Prop :=
  ∀ p, s.pool = some p → ∃ ip, p.Like size ip ∧ ip.idle.length ≤ size

theorem within_pool {size : Nat} {p p' : Pool} {ip : IdlePool} {e : PoolEvent} {o : PoolOutput}
    (h : p.Like size ip) (hl : ip.idle.length ≤ size) (hs : p.step e = .ok (o, p')) :
    ∃ ip', p'.Like size ip' ∧ ip'.idle.length ≤ size := by
  obtain ⟨p'', h1, h2, -⟩ := step_like' h e (room_of_step hs)
  rw [h1] at hs
  cases hs
  exact ⟨_, h2, idle_step_length size ip e hl⟩

section
variable [FloatText]

theorem within_of_pool {size : Nat} {s s' : Sys} (h : Within size s) (hp : s'.pool = s.pool) :
    Within size s' := by
  intro p h1
  exact h p (hp ▸ h1)

theorem settle_pool (i : Nat) (y : PCall) (c : Conn) (inner : CallInner) (s : Sys) (o : CallOutcome) :
    (s.settle i y c inner o).2.pool = s.pool := by
  cases o <;> simp [Sys.settle, Sys.setCall, Sys.send_pool]

theorem reply_pool (i : Nat) (a : Addr) (f : Pooled) (s : Sys) : (s.reply i a f).2.pool = s.pool := by
  unfold Sys.reply
  split <;> split <;> rfl

theorem within_step {size : Nat} {s : Sys} (h : Within size s) (e : SysEvent) :
    Within size (s.step e).2 := by
  have hnone : ∀ s' : Sys, s'.pool = none → Within size s' := by
    intro s' h1 p h2
    rw [h1] at h2
    cases h2
  have hdrop : Within size s.dropPool.2 := by
    rw [Sys.dropPool]
    split
    · exact h
    · exact hnone _ rfl
  cases e with
  | call p a v b => exact within_of_pool h (by simp [Sys.step, Sys.call, Sys.send_pool])
  | handle now =>
    rw [Sys.step, Sys.handle]
    split
    · rename_i p cmd q hp hq
      obtain ⟨ip, h1, h2⟩ := h p hp
      split
      · rename_i o p' hs
        have hw : ∀ s' : Sys, s'.pool = some p' → Within size s' := by
          intro s' h3 p'' h4
          rw [h3] at h4
          cases h4
          exact within_pool h1 h2 hs
        split
        · apply hw
          exact reply_pool ..
        · exact hw _ rfl
        · exact hw _ rfl
        · exact hw _ rfl
      · exact hdrop
    · exact h
  | setSuspended d =>
    intro p hp
    cases hs : s.pool with
    | none => simp [Sys.step, hs] at hp
    | some p0 =>
      simp only [Sys.step, hs, Option.map_some, Option.some.injEq] at hp
      subst hp
      obtain ⟨ip, h1, h2⟩ := h p0 hs
      obtain ⟨ip', h3, h4, -⟩ := pool_setSuspended h1 d
      exact ⟨ip', h3, by rw [h4]; exact h2⟩
  | dropPool => exact hdrop
  | poll i r =>
    refine within_of_pool h ?_
    rw [Sys.step, Sys.poll]
    split
    · rfl
    · split
      · split <;> simp_all [Sys.setCall]
      · rw [settle_pool]
      · rfl
      · split
        · simp only [settle_pool]
        · simp [Sys.send_pool, Sys.setCall]
        · rfl
      · simp only [settle_pool]
      · rfl
  | dropCall i =>
    refine within_of_pool h ?_
    rw [Sys.step, Sys.dropCall]
    split
    · rfl
    · split <;> rfl

theorem within_run {size : Nat} (evs : List SysEvent) {s : Sys} (h : Within size s) :
    Within size (Sys.run evs s).2 := by
  induction evs generalizing s with
  | nil => exact h
  | cons e evs ih => exact ih (within_step h e)

/-! ### C97 -/

/-- **C97.** At every moment of every execution at most so many connections are open: as many as the
pool may keep, one for each call in progress, and those that calls have put back and the pool has not
taken over yet. -/
theorem C97_open_connections (size : Nat) (evs : List SysEvent) (cs : List Conn) (hcs : cs.Nodup)
    (hopen : ∀ c ∈ cs, (∃ i a, .opened i a c ∈ (Sys.run evs (.new size)).1) ∧
      .closed c ∉ (Sys.run evs (.new size)).1) :
    cs.length ≤ size + ((Sys.run evs (.new size)).2.calls.filter (fun y => InProgress y)).length +
      (queuedConns (Sys.run evs (.new size)).2.queue).length := by
  obtain ⟨h1, h2⟩ := C46_one_place size evs
  have h3 : cs.length ≤ (places (Sys.run evs (.new size)).2).length :=
    (hcs.subperm fun c hc => (h2 c).2 (hopen c hc)).length_le
  have h4 : (idleConns (Sys.run evs (.new size)).2.pool).length ≤ size := by
    have hw : Within size (Sys.run evs (.new size)).2 := by
      refine within_run evs fun p hp => ?_
      cases hp
      exact ⟨_, new_like size, Nat.zero_le _⟩
    cases hp : (Sys.run evs (.new size)).2.pool with
    | none => exact Nat.zero_le _
    | some p =>
      obtain ⟨ip, h5, h6⟩ := hw p hp
      obtain ⟨xs, h7, h8⟩ := pool_idle h5
      have := congrArg List.length h7
      rw [List.length_map, List.length_map] at this
      rw [idleConns, List.length_map, ← this, ← h8.length_eq]
      exact h6
  have h5 : ∀ l : List PCall, (l.filterMap callConn).length ≤
      (l.filter (fun y => InProgress y)).length := by
    intro l
    induction l with
    | nil => simp
    | cons y l ih =>
      rw [List.filterMap_cons, List.filter_cons]
      cases hc : callConn y with
      | none =>
        by_cases hp : InProgress y
        · simp only [hp, decide_true, if_true, List.length_cons]; omega
        · simp [hp, ih]
      | some c =>
        have : InProgress y := by
          unfold callConn at hc
          unfold InProgress
          split at hc <;> simp_all
        simp [this, ih]
  have h6 := h5 (Sys.run evs (.new size)).2.calls
  rw [places, List.length_append, List.length_append] at h3
  omega

/-- **C97.** So when no call is in progress and no command waits, at most as many connections are open
as the pool may keep; and when the pool is gone as well, none is. -/
theorem C97_no_leak (size : Nat) (evs : List SysEvent)
    (hidle : ∀ y ∈ (Sys.run evs (.new size)).2.calls, ¬ InProgress y) :
    ((Sys.run evs (.new size)).2.queue = [] → ∀ cs : List Conn, cs.Nodup →
      (∀ c ∈ cs, (∃ i a, .opened i a c ∈ (Sys.run evs (.new size)).1) ∧
        .closed c ∉ (Sys.run evs (.new size)).1) → cs.length ≤ size) ∧
    ((Sys.run evs (.new size)).2.pool = none → ∀ i a c,
      .opened i a c ∈ (Sys.run evs (.new size)).1 → .closed c ∈ (Sys.run evs (.new size)).1) := by
  constructor
  · intro hq cs hcs hopen
    have := C97_open_connections size evs cs hcs hopen
    rw [hq, List.filter_eq_nil_iff.2 fun y hy => by simpa using hidle y hy] at this
    simpa [queuedConns] using this
  · intro hp i a c hc
    refine Decidable.byContradiction fun hn => ?_
    have hm := ((C46_one_place size evs).2 c).2 ⟨⟨i, a, hc⟩, hn⟩
    have hinv := (reach_inv size evs).pool
    rw [hp] at hinv
    rw [places, hp, hinv.1] at hm
    simp only [idleConns, queuedConns, List.nil_append, List.mem_filterMap] at hm
    obtain ⟨y, hy, hcy⟩ := hm
    refine hidle y hy ?_
    unfold callConn at hcy
    unfold InProgress
    split at hcy <;> simp_all

end

/-! ### Examples -/

/-- `C97_open_connections`: with a pool that keeps none, one connection is open although no call is in
progress, because the pool has not taken it over yet. -/
example : letI := toyFloat
    ∃ log s, Sys.run (exEvents.take 8) (.new 0) = (log, s) ∧ .opened 0 exA 0 ∈ log ∧ .closed 0 ∉ log ∧
      (∀ y ∈ s.calls, ¬ InProgress y) ∧ (queuedConns s.queue).length = 1 := by
  let := toyFloat
  obtain ⟨r, hr⟩ := exCall_sent [1]
  have hd : deResponse exProc.resTy 404 [] = .ok (.unitVariant "NotFound".toList) := rfl
  have hm : exProc.method ≠ .head := by decide
  refine ⟨_, _, rfl, ?_⟩
  simp [InProgress, Sys.call, Sys.send, Sys.new,
    Cmd.event, Pool.step, Pool.handleAcquire, Pool.acquire, Pool.withSize, BTreeMap.firstFrom,
    Sys.reply, Sys.setCall, CallInner.new, hr, Sys.settle, callStep, callDecode, hd, hm, ConnId.lt,
    exA, queuedConns]

/-- `C97_no_leak`: after `exEvents` nothing is open. -/
example : letI := toyFloat
    .opened 0 exA 0 ∈ (Sys.run exEvents (.new 3)).1 ∧ .closed 0 ∈ (Sys.run exEvents (.new 3)).1 := by
  let := toyFloat
  obtain ⟨s, h, hc⟩ := exRun
  have h1 : .opened 0 exA 0 ∈ (Sys.run exEvents (.new 3)).1 := by rw [h]; simp [exLog]
  refine ⟨h1, (C97_no_leak 3 exEvents ?_).2 ?_ _ _ _ h1⟩
  · rw [h, hc]
    simp [InProgress]
  · have e : exEvents = exEvents.take 19 ++ (.dropPool :: exEvents.drop 20) := rfl
    rw [e, sys_run_append]
    generalize (Sys.run (exEvents.take 19) (.new 3)).2 = s'
    have hd : s'.dropPool.2.pool = none := by
      rw [Sys.dropPool]
      split
      · assumption
      · rfl
    exact C53_dropped_stays _ (exEvents.drop 20) hd

end Htrpc
