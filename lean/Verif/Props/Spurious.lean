/-
C154: calls that are polled although nothing has happened.
-/
import Verif.Spec.Spurious
import Verif.Props.Commute

namespace Htrpc
open Spec
variable [FloatText]

omit [FloatText] in
theorem settle_state (i : Nat) (y : PCall) (c : Conn) (inner : CallInner) (s : Sys) (o : CallOutcome) :
    ∃ st, (s.settle i y c inner o).2.calls = s.calls.set i { y with st := st } ∧
      (∀ n f, st ≠ .replied n f) ∧ (∀ n, st ≠ .waiting n) := by
  rw [settle_act]
  cases o with
  | pending => exact ⟨.active c inner, rfl, by simp, by simp⟩
  | next n => exact ⟨.active c n, rfl, by simp, by simp⟩
  | ready v b => exact ⟨.done v b, rfl, by simp, by simp⟩
  | failed k => exact ⟨.failed k, rfl, by simp, by simp⟩
  | panicked => exact ⟨.panicked, rfl, by simp, by simp⟩

/-- A poll without news and without I/O does nothing. -/
theorem poll_nothing {s : Sys} {i : Nat} (h : ¬ HasNews s i) :
    (s.step (.poll i .notReady)).2 = s ∧ apartFromIo (s.step (.poll i .notReady)).1 = [] := by
  simp only [Sys.step]
  cases hy : s.calls[i]? with
  | none => simp [Sys.poll, hy, apartFromIo]
  | some y =>
    obtain ⟨pr, b, st⟩ := y
    cases st with
    | waiting inner =>
      cases hp : s.pool with
      | none => exact absurd ⟨_, hy, .inl ⟨inner, rfl, hp⟩⟩ h
      | some p => simp [Sys.poll, hy, hp, apartFromIo]
    | replied inner f =>
      cases f with
      | ready c => exact absurd ⟨_, hy, .inr (.inl ⟨inner, c, rfl⟩)⟩ h
      | failed => exact absurd ⟨_, hy, .inr (.inr ⟨inner, rfl⟩)⟩ h
      | connecting a => simp [Sys.poll, hy, apartFromIo]
    | active c inner =>
      have := set_itself hy
      simp [Sys.poll, hy, callStep, Sys.settle, Sys.setCall, this, apartFromIo]
    | done v b => simp [Sys.poll, hy, apartFromIo]
    | failed k => simp [Sys.poll, hy, apartFromIo]
    | panicked => simp [Sys.poll, hy, apartFromIo]
    | dropped => simp [Sys.poll, hy, apartFromIo]

/-- What there was to find out is found out. -/
theorem poll_news {s : Sys} {i : Nat} (h : HasNews s i) :
    ¬ HasNews (s.step (.poll i .notReady)).2 i ∧ (s.step (.poll i .notReady)).2 ≠ s := by
  have hread : ∀ {s' : Sys} {y : PCall} {st : PCallSt}, s.calls[i]? = some y → s'.calls = s.calls.set i { y with st := st } →
      s'.calls[i]? = some { y with st := st } := by
    intro s' y st hy he
    rw [he, List.getElem?_set_self (List.getElem?_eq_some_iff.1 hy).1]
  have hfail : ∀ y, s.calls[i]? = some y → ∀ st, (∀ n f, st ≠ .replied n f) → (∀ n, st ≠ .waiting n) → (y.st ≠ st) →
      ∀ s' : Sys, s'.calls = s.calls.set i { y with st := st } → ¬ HasNews s' i ∧ s' ≠ s := by
    intro y hy st h1 h2 h3 s' hs
    have hr := hread hy hs
    constructor
    · rintro ⟨z, hz, hn⟩
      rw [hr] at hz
      cases hz
      rcases hn with ⟨n, e, -⟩ | ⟨n, c, e⟩ | ⟨n, e⟩
      · exact h2 n e
      · exact h1 n _ e
      · exact h1 n _ e
    · rintro rfl
      rw [hy] at hr
      exact h3 (congrArg PCall.st (Option.some.inj hr))
  obtain ⟨y, hy, hn⟩ := h
  simp only [Sys.step]
  rcases hn with ⟨n, e, hp⟩ | ⟨n, c, e⟩ | ⟨n, e⟩
  · refine hfail y hy (.failed .other) (fun _ _ h => nomatch h) (fun _ h => nomatch h) (by rw [e]; exact fun h => nomatch h) _ ?_
    simp [Sys.poll, hy, e, hp, Sys.setCall]
  · obtain ⟨st, h1, h2, h3⟩ := settle_state i y c n s (callStep y.proc n .connected)
    refine hfail y hy st h2 h3 (by rw [e]; exact fun h => h2 _ _ h.symm) _ ?_
    have : s.poll i .notReady = s.settle i y c n (callStep y.proc n .connected) := by
      simp [Sys.poll, hy, e]
    rw [this]
    exact h1
  · refine hfail y hy (.failed .other) (fun _ _ h => nomatch h) (fun _ h => nomatch h) (by rw [e]; exact fun h => nomatch h) _ ?_
    simp [Sys.poll, hy, e, Sys.setCall]

/-- **C154.** Polling a call without I/O changes something exactly if the pool has news for it. -/
theorem C154_news (s : Sys) (i : Nat) : (s.step (.poll i .notReady)).2 ≠ s ↔ HasNews s i := by
  constructor
  · intro h
    exact Classical.byContradiction fun hn => h (poll_nothing hn).1
  · exact fun h => (poll_news h).2

/-- **C154.** So polling it once more does nothing. -/
theorem C154_twice (s : Sys) (i : Nat) :
    ((s.step (.poll i .notReady)).2.step (.poll i .notReady)).2 = (s.step (.poll i .notReady)).2 ∧
      apartFromIo ((s.step (.poll i .notReady)).2.step (.poll i .notReady)).1 = [] := by
  refine poll_nothing fun h => ?_
  by_cases hn : HasNews s i
  · exact (poll_news hn).1 h
  · rw [(poll_nothing hn).1] at h
    exact hn h

/-- **C154.** And an execution with such a poll and the one without it are the same but for the attempt to read or
write. -/
theorem C154_spurious (s : Sys) (l l' : List SysEvent) (i : Nat) (h : ¬ HasNews (Sys.run l s).2 i) :
    (Sys.run (l ++ .poll i .notReady :: l') s).2 = (Sys.run (l ++ l') s).2 ∧
      apartFromIo (Sys.run (l ++ .poll i .notReady :: l') s).1 = apartFromIo (Sys.run (l ++ l') s).1 := by
  rw [sys_run_append, sys_run_append]
  obtain ⟨h1, h2⟩ := poll_nothing h
  generalize (Sys.run l s).2 = t at h1 h2
  have e1 : Sys.run (.poll i .notReady :: l') t = ((t.step (.poll i .notReady)).1 ++
      (Sys.run l' (t.step (.poll i .notReady)).2).1, (Sys.run l' (t.step (.poll i .notReady)).2).2) := rfl
  rw [e1, h1]
  refine ⟨rfl, ?_⟩
  simp only [apartFromIo, List.filter_append] at h2 ⊢
  rw [h2, List.nil_append]

namespace SpuriousExamples

private def x : Addr := ⟨1, 80, 0⟩

/-- A call that waits for the pool, or for its connection, is polled in vain. -/
example (p : Proc) (v : Val) : ¬ HasNews (Sys.run [.call p x v []] (.new 1)).2 0 ∧
    ¬ HasNews (Sys.run [.call p x v [], .handle 5] (.new 1)).2 0 := by
  rw [← C154_news, ← C154_news]
  exact ⟨fun h => h rfl, fun h => h rfl⟩

/-- When the pool is gone there are news. -/
example (p : Proc) (v : Val) : HasNews (Sys.run [.call p x v [], .dropPool] (.new 1)).2 0 :=
  ⟨_, rfl, .inl ⟨_, rfl, rfl⟩⟩

end SpuriousExamples

end Htrpc
