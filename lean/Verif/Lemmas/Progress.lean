/-
Calls only move forward.
-/
import Verif.Spec.Progress
import Verif.Lemmas.PoolInv

namespace Htrpc

open Spec

section
variable [FloatText]

/-- The state of a call after a round of `CallInner`. -/
def settled (c : Conn) (inner : CallInner) : CallOutcome → PCallSt
  | .pending => .active c inner
  | .next inner => .active c inner
  | .ready v body => .done v body
  | .failed k => .failed k
  | .panicked => .panicked

/-- The state of a call after it was polled. -/
def polled (alive : Bool) (next : Conn) (p : Proc) (r : IoResult) : PCallSt → PCallSt
  | .waiting inner => if alive then .waiting inner else .failed .other
  | .replied inner (.ready c) => settled c inner (callStep p inner .connected)
  | .replied _ .failed => .failed .other
  | .replied inner (.connecting a) =>
    match r with
    | .connected => settled next inner (callStep p inner .connected)
    | .failed => .failed .other
    | _ => .replied inner (.connecting a)
  | .active c inner => settled c inner (callStep p inner r)
  | st => st

omit [FloatText] in
theorem set_same {l : List PCall} {i : Nat} {y : PCall} (h : l[i]? = some y) : l.set i y = l := by
  apply List.ext_getElem?
  intro j
  rw [List.getElem?_set]
  split
  · next e =>
    subst e
    rw [h]
    split
    · rfl
    · next hl => rw [List.getElem?_eq_none (by omega)] at h; cases h
  · rfl

omit [FloatText] in
theorem settle_calls (i : Nat) (y : PCall) (c : Conn) (inner : CallInner) (s : Sys)
    (o : CallOutcome) :
    (s.settle i y c inner o).2.calls = s.calls.set i { y with st := settled c inner o } := by
  cases o <;> simp [Sys.settle, settled, Sys.setCall, Sys.send_calls]

theorem poll_calls (s : Sys) (i : Nat) (r : IoResult) (y : PCall) (hy : s.calls[i]? = some y) :
    (s.poll i r).2.calls =
      s.calls.set i { y with st := polled s.pool.isSome s.next y.proc r y.st } := by
  obtain ⟨p, a, st⟩ := y
  have same : s.calls = s.calls.set i ⟨p, a, st⟩ := (set_same hy).symm
  unfold Sys.poll
  rw [hy]
  cases st with
  | waiting inner =>
    cases hp : s.pool with
    | none => rfl
    | some q => exact same
  | replied inner f =>
    cases f with
    | ready c => exact settle_calls ..
    | failed => rfl
    | connecting b =>
      cases r with
      | connected => exact settle_calls ..
      | failed => exact Sys.send_calls ..
      | notReady => exact same
      | written => exact same
      | head code hs => exact same
      | body b => exact same
  | active c inner => exact settle_calls ..
  | done v b => exact same
  | failed k => exact same
  | panicked => exact same
  | dropped => exact same

/-- How an event can change the state of call `i`. -/
inductive Changes (i : Nat) : SysEvent → Proc → PCallSt → PCallSt → Prop where
  | same {e p st} : (∀ r, e ≠ .poll i r) → e ≠ .dropCall i → Changes i e p st st
  | reply {now p inner f} : Changes i (.handle now) p (.waiting inner) (.replied inner f)
  | poll {r p st} (alive next) : Changes i (.poll i r) p st (polled alive next p r st)
  | dropped {p st} : ¬Finished st → Changes i (.dropCall i) p st .dropped
  | late {p st} : Finished st → Changes i (.dropCall i) p st st

omit [FloatText] in
theorem set_get {l : List PCall} {i j : Nat} {y y' : PCall} (h : l[i]? = some y) (hne : j ≠ i) :
    (l.set j y')[i]? = some y := by
  rw [List.getElem?_set_ne hne]; exact h

omit [FloatText] in
theorem set_get_self {l : List PCall} {i : Nat} {y y' : PCall} (h : l[i]? = some y) :
    (l.set i y')[i]? = some y' := by
  rw [List.getElem?_set_self]
  exact (List.getElem?_eq_some_iff.1 h).1

omit [FloatText] in
theorem dropPool_calls (s : Sys) : s.dropPool.2.calls = s.calls := by
  unfold Sys.dropPool
  split <;> rfl

theorem reply_changes (s : Sys) (now : Time) (i j : Nat) (a : Addr) (f : Pooled) (y : PCall)
    (hy : s.calls[i]? = some y) : ∃ y', (s.reply j a f).2.calls[i]? = some y' ∧ y'.proc = y.proc ∧
      Changes i (.handle now) y.proc y.st y'.st := by
  have same : Changes i (.handle now) y.proc y.st y.st := .same (by simp) (by simp)
  unfold Sys.reply
  split
  · next p b inner hj =>
    by_cases e : j = i
    · subst e
      rw [hy] at hj
      cases hj
      exact ⟨_, set_get_self hy, rfl, .reply⟩
    · exact ⟨y, set_get hy e, rfl, same⟩
  · exact ⟨y, hy, rfl, same⟩

theorem step_changes (s : Sys) (e : SysEvent) (i : Nat) (y : PCall) (hy : s.calls[i]? = some y) :
    ∃ y', (s.step e).2.calls[i]? = some y' ∧ y'.proc = y.proc ∧ Changes i e y.proc y.st y'.st := by
  cases e with
  | call p a v b =>
    refine ⟨y, ?_, rfl, .same (by simp) (by simp)⟩
    simp only [Sys.step, Sys.call, Sys.send_calls]
    rw [List.getElem?_append_left (List.getElem?_eq_some_iff.1 hy).1]
    exact hy
  | handle now =>
    have same : Changes i (.handle now) y.proc y.st y.st := .same (by simp) (by simp)
    simp only [Sys.step]
    unfold Sys.handle
    split
    · split
      · dsimp only
        split
        · exact reply_changes _ now i _ _ _ y hy
        · exact ⟨y, hy, rfl, same⟩
        · exact ⟨y, hy, rfl, same⟩
        · exact ⟨y, hy, rfl, same⟩
      · rw [dropPool_calls]; exact ⟨y, hy, rfl, same⟩
    · exact ⟨y, hy, rfl, same⟩
  | setSuspended d => exact ⟨y, hy, rfl, .same (by simp) (by simp)⟩
  | dropPool =>
    simp only [Sys.step, dropPool_calls]
    exact ⟨y, hy, rfl, .same (by simp) (by simp)⟩
  | poll j r =>
    simp only [Sys.step]
    by_cases e : j = i
    · subst e
      rw [poll_calls s j r y hy]
      exact ⟨_, set_get_self hy, rfl, .poll _ _⟩
    · refine ⟨y, ?_, rfl, .same (by simpa using e) (by simp)⟩
      cases hj : s.calls[j]? with
      | none => unfold Sys.poll; rw [hj]; exact hy
      | some z => rw [poll_calls s j r z hj]; exact set_get hy e
  | dropCall j =>
    simp only [Sys.step]
    by_cases e : j = i
    · subst e
      obtain ⟨p, a, st⟩ := y
      unfold Sys.dropCall
      rw [hy]
      cases st with
      | waiting inner => exact ⟨_, set_get_self hy, rfl, .dropped (by simp [Finished])⟩
      | replied inner f => cases f <;> exact ⟨_, set_get_self hy, rfl, .dropped (by simp [Finished])⟩
      | active c inner => exact ⟨_, set_get_self hy, rfl, .dropped (by simp [Finished])⟩
      | done v b => exact ⟨_, hy, rfl, .late trivial⟩
      | failed k => exact ⟨_, hy, rfl, .late trivial⟩
      | panicked => exact ⟨_, hy, rfl, .late trivial⟩
      | dropped => exact ⟨_, hy, rfl, .late trivial⟩
    · refine ⟨y, ?_, rfl, .same (by simp) (by simpa using e)⟩
      unfold Sys.dropCall
      split
      · exact hy
      · split <;> first | exact hy | exact set_get hy e

/-- How far a call is; `none` for states that do not occur. -/
def stage : PCallSt → Option Nat
  | .waiting inner => if inner.phase = .connect then some 0 else none
  | .replied inner _ => if inner.phase = .connect then some 1 else none
  | .active _ inner =>
    match inner.phase with
    | .connect => none
    | .write _ => some 2
    | .readHead => some 3
    | .readBody _ _ => some 4
  | _ => some 5

/-- The stage after a result. -/
def goal : IoResult → Nat → Nat
  | .connected, 1 => 2
  | .written, 2 => 3
  | .head _ _, 3 => 4
  | .body _, 4 => 5
  | _, n => n

theorem decode_stage (p : Proc) (c : Conn) (inner : CallInner) (code : Nat) (hs : List Header)
    (b : Bytes) : stage (settled c inner (callDecode p code hs b)) = some 5 := by
  unfold callDecode
  split <;> rfl

theorem connected_stage (p : Proc) (c : Conn) (inner : CallInner) (h : inner.phase = .connect) :
    ∃ m, stage (settled c inner (callStep p inner .connected)) = some m ∧ 2 ≤ m := by
  simp only [callStep, h]
  split
  · exact ⟨5, rfl, by omega⟩
  · split
    · exact ⟨2, rfl, by omega⟩
    · exact ⟨5, rfl, by omega⟩
    · exact ⟨5, rfl, by omega⟩

theorem polled_stage (alive : Bool) (next : Conn) (p : Proc) (r : IoResult) (st : PCallSt) (n : Nat)
    (h : stage st = some n) :
    ∃ m, stage (polled alive next p r st) = some m ∧ goal r n ≤ m := by
  have le : ∀ r n, goal r n ≤ 2 ∨ goal r n ≤ n + 1 := by
    intro r n; unfold goal; split <;> omega
  have five : ∀ r n, n ≤ 5 → goal r n ≤ 5 := by
    intro r n; unfold goal; split <;> omega
  cases st with
  | waiting inner =>
    have h' := h
    simp only [stage] at h
    split at h <;> cases h
    have : goal r 0 = 0 := by cases r <;> rfl
    rw [this, polled]
    cases alive with
    | true => exact ⟨0, h', by omega⟩
    | false => exact ⟨5, rfl, by omega⟩
  | replied inner f =>
    have h' := h
    simp only [stage] at h
    split at h <;> cases h
    next hc =>
    have g : goal r 1 ≤ 2 := by cases r <;> simp [goal]
    cases f with
    | ready c =>
      obtain ⟨m, h1, h2⟩ := connected_stage p c inner hc
      exact ⟨m, h1, by omega⟩
    | failed => exact ⟨5, rfl, by omega⟩
    | connecting a =>
      cases r with
      | connected =>
        obtain ⟨m, h1, h2⟩ := connected_stage p next inner hc
        exact ⟨m, h1, by omega⟩
      | failed => exact ⟨5, rfl, by omega⟩
      | notReady => exact ⟨1, h', Nat.le_refl _⟩
      | written => exact ⟨1, h', Nat.le_refl _⟩
      | head code hs => exact ⟨1, h', Nat.le_refl _⟩
      | body b => exact ⟨1, h', Nat.le_refl _⟩
  | active c inner =>
    obtain ⟨q, ph⟩ := inner
    cases ph with
    | connect => cases h
    | write r0 =>
      cases h
      cases r <;> first
        | exact ⟨5, rfl, five _ _ (by omega)⟩
        | exact ⟨3, rfl, Nat.le_refl _⟩
        | exact ⟨2, rfl, Nat.le_refl _⟩
    | readHead =>
      cases h
      cases r with
      | head code hs =>
        simp only [polled, callStep]
        split
        · exact ⟨5, decode_stage .., five _ _ (by omega)⟩
        · exact ⟨4, rfl, Nat.le_refl _⟩
      | failed => exact ⟨5, rfl, five _ _ (by omega)⟩
      | _ => exact ⟨3, rfl, Nat.le_refl _⟩
    | readBody code hs =>
      cases h
      cases r with
      | body b => exact ⟨5, decode_stage .., five _ _ (by omega)⟩
      | failed => exact ⟨5, rfl, five _ _ (by omega)⟩
      | _ => exact ⟨4, rfl, Nat.le_refl _⟩
  | done v b => cases h; exact ⟨5, rfl, five _ _ (by omega)⟩
  | failed k => cases h; exact ⟨5, rfl, five _ _ (by omega)⟩
  | panicked => cases h; exact ⟨5, rfl, five _ _ (by omega)⟩
  | dropped => cases h; exact ⟨5, rfl, five _ _ (by omega)⟩

/-- Call `i` has come this far. -/
def Sys.Reached (s : Sys) (i n : Nat) : Prop :=
  ∃ y m, s.calls[i]? = some y ∧ stage y.st = some m ∧ n ≤ m

omit [FloatText] in
theorem goal_mono (r : IoResult) (n : Nat) : n ≤ goal r n := by
  unfold goal; split <;> omega

omit [FloatText] in
theorem stage_le {st : PCallSt} {n : Nat} (h : stage st = some n) : n ≤ 5 := by
  unfold stage at h
  split at h <;> (try split at h) <;> cases h <;> omega

theorem changes_stage {i : Nat} {e : SysEvent} {p : Proc} {st st' : PCallSt} {n : Nat}
    (h : Changes i e p st st') (hn : stage st = some n) : ∃ m, stage st' = some m ∧ n ≤ m := by
  cases h with
  | same => exact ⟨n, hn, Nat.le_refl _⟩
  | reply =>
    simp only [stage] at hn
    split at hn <;> cases hn
    next hc => exact ⟨1, by simp [stage, hc], by omega⟩
  | poll alive next =>
    obtain ⟨m, h1, h2⟩ := polled_stage alive next p _ st n hn
    exact ⟨m, h1, Nat.le_trans (goal_mono _ _) h2⟩
  | dropped => exact ⟨5, rfl, stage_le hn⟩
  | late => exact ⟨n, hn, Nat.le_refl _⟩

theorem reached_step {s : Sys} {i n : Nat} (h : s.Reached i n) (e : SysEvent) :
    (s.step e).2.Reached i n := by
  obtain ⟨y, m, hy, hm, hn⟩ := h
  obtain ⟨y', h1, -, h3⟩ := step_changes s e i y hy
  obtain ⟨k, h4, h5⟩ := changes_stage h3 hm
  exact ⟨y', k, h1, h4, Nat.le_trans hn h5⟩

theorem reached_run {s : Sys} {i n : Nat} (h : s.Reached i n) (evs : List SysEvent) :
    (Sys.run evs s).2.Reached i n := by
  induction evs generalizing s with
  | nil => exact h
  | cons e es ih => exact ih (reached_step h e)

theorem reached_poll {s : Sys} {i n : Nat} (h : s.Reached i n) (r : IoResult) :
    (s.step (.poll i r)).2.Reached i (goal r n) := by
  obtain ⟨y, m, hy, hm, hn⟩ := h
  obtain ⟨k, h4, h5⟩ := polled_stage s.pool.isSome s.next y.proc r y.st m hm
  refine ⟨{ y with st := polled s.pool.isSome s.next y.proc r y.st }, k, ?_, h4, ?_⟩
  · simp only [Sys.step]
    rw [poll_calls s i r y hy]
    exact set_get_self hy
  · refine Nat.le_trans ?_ h5
    by_cases e : n = m
    · rw [e]; exact Nat.le_refl _
    · have : goal r n ≤ n + 1 := by unfold goal; split <;> omega
      have := goal_mono r m
      omega

theorem step_length (s : Sys) (e : SysEvent) (h : ∀ p a v b, e ≠ .call p a v b) :
    (s.step e).2.calls.length = s.calls.length := by
  have hr : ∀ (s : Sys) j a f, (s.reply j a f).2.calls.length = s.calls.length := by
    intro s j a f
    unfold Sys.reply
    split
    · simp [Sys.setCall]
    · rfl
  cases e with
  | call p a v b => exact absurd rfl (h p a v b)
  | handle now =>
    simp only [Sys.step]
    unfold Sys.handle
    split
    · split
      · dsimp only
        split
        · exact hr ..
        · rfl
        · rfl
        · rfl
      · rw [dropPool_calls]
    · rfl
  | setSuspended d => rfl
  | dropPool => simp only [Sys.step, dropPool_calls]
  | poll j r =>
    simp only [Sys.step]
    cases hj : s.calls[j]? with
    | none => unfold Sys.poll; rw [hj]
    | some z => rw [poll_calls s j r z hj, List.length_set]
  | dropCall j =>
    simp only [Sys.step]
    unfold Sys.dropCall
    split
    · rfl
    · split <;> simp [Sys.setCall]

/-- A new call has come as far as any call does at first. -/
theorem reached_new (size : Nat) (evs : List SysEvent) (i : Nat)
    (hi : i < (Sys.run evs (.new size)).2.calls.length) :
    (Sys.run evs (.new size)).2.Reached i 0 := by
  have key : ∀ (evs : List SysEvent) (s : Sys), (∀ j, j < s.calls.length → s.Reached j 0) →
      ∀ j, j < (Sys.run evs s).2.calls.length → (Sys.run evs s).2.Reached j 0 := by
    intro evs
    induction evs with
    | nil => intro s h; exact h
    | cons e es ih =>
      intro s h
      refine ih _ fun j (hj : j < (s.step e).2.calls.length) => ?_
      by_cases hl : j < s.calls.length
      · exact reached_step (h j hl) e
      · cases e with
        | call p a v b =>
          simp only [Sys.step, Sys.call, Sys.send_calls, List.length_append, List.length_cons,
            List.length_nil] at hj
          have : j = s.calls.length := by omega
          subst this
          refine ⟨⟨p, a, .waiting (.new v b)⟩, 0, ?_, rfl, Nat.le_refl _⟩
          simp [Sys.call, Sys.send_calls]
        | _ => exact absurd hj (by rw [step_length s _ (by simp)]; exact hl)
  exact key evs _ (by simp [Sys.new]) i hi

end

end Htrpc
