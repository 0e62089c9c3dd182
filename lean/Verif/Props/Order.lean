/-
C139: first come, first served.
-/
import Verif.Spec.Order
import Verif.Props.Peak

namespace Htrpc
open Spec

/-- What becomes of the calls if nothing is answered. -/
def Idle (s s' : Sys) : Prop :=
  s'.calls.length = s.calls.length ∧ ∀ (j : Nat) (y' : PCall), s'.calls[j]? = some y' →
    ∃ y, s.calls[j]? = some y ∧ (Waiting y' → Waiting y) ∧ (Unserved s y → Unserved s' y')

theorem unserved_gone {s s' : Sys} (hp : s.pool = none → s'.pool = none) {y : PCall} (h : Unserved s y) : Unserved s' y :=
  h.imp_right (.imp_right (.imp_left hp))

theorem idle_same {s s' : Sys} (h : s'.calls = s.calls) (hp : s.pool = none → s'.pool = none) : Idle s s' := by
  rw [Idle, h]
  exact ⟨rfl, fun j y hy => ⟨y, hy, id, unserved_gone hp⟩⟩

theorem idle_set {s : Sys} {i : Nat} {y y' : PCall} (hy : s.calls[i]? = some y) (h1 : Waiting y' → Waiting y)
    (h2 : Unserved s y → Unserved s y') : Idle s (s.setCall i y') := by
  obtain ⟨hi, -⟩ := List.getElem?_eq_some_iff.1 hy
  refine ⟨by simp [Sys.setCall], fun j z hz => ?_⟩
  simp only [Sys.setCall] at hz
  by_cases hj : i = j
  · subst hj
    rw [List.getElem?_set_self hi] at hz
    cases hz
    exact ⟨y, hy, h1, h2⟩
  · rw [List.getElem?_set_ne hj] at hz
    exact ⟨z, hz, id, id⟩

theorem idle_send {s s' : Sys} (h : Idle s s') (cmd : Cmd) : Idle s (s'.send cmd) := by
  rw [Idle, Sys.send_calls]
  refine ⟨h.1, fun j y hy => ?_⟩
  obtain ⟨z, h1, h2, h3⟩ := h.2 j y hy
  exact ⟨z, h1, h2, fun h => unserved_gone (by rw [Sys.send_pool]; exact id) (h3 h)⟩

/-- A call that has an answer. -/
theorem idle_settle {s : Sys} {i : Nat} {y : PCall} (hy : s.calls[i]? = some y) (hn : ¬ Unserved s y) (c : Conn)
    (inner : CallInner) (o : CallOutcome) : Idle s (s.settle i y c inner o).2 := by
  have h : ∀ st, (∀ inner, st ≠ .waiting inner) → Idle s (s.setCall i { y with st }) := by
    intro st h
    exact idle_set hy (fun ⟨inner, e⟩ => absurd e (h inner)) (fun h => absurd h hn)
  cases o with
  | pending => exact h _ (fun _ => nofun)
  | next inner => exact h _ (fun _ => nofun)
  | ready v body => exact idle_send (h (.done v body) (fun _ => nofun)) _
  | failed k => exact h _ (fun _ => nofun)
  | panicked => exact h _ (fun _ => nofun)

theorem served {s : Sys} {y : PCall} {st : PCallSt} (h : y.st = st) (h1 : ∀ inner, st ≠ .waiting inner) (h2 : st ≠ .dropped)
    (h3 : st ≠ .failed .other) : ¬ Unserved s y := by
  rintro (⟨inner, e⟩ | e | ⟨-, e⟩)
  · exact h1 inner (h.symm.trans e)
  · exact h2 (h.symm.trans e)
  · exact h3 (h.symm.trans e)

section
variable [FloatText]

theorem idle_poll (s : Sys) (i : Nat) (r : IoResult) : Idle s (s.poll i r).2 := by
  rw [Sys.poll]
  split
  · exact idle_same rfl id
  · rename_i y hy
    split
    · rename_i inner hst
      split
      · exact idle_same rfl id
      · rename_i hp
        exact idle_set hy (fun _ => ⟨inner, hst⟩) (fun _ => .inr (.inr ⟨hp, rfl⟩))
    · rename_i hst
      exact idle_settle hy (served hst (fun _ => nofun) nofun nofun) ..
    · rename_i hst
      exact idle_set hy (fun ⟨_, e⟩ => by cases e) (fun h => absurd h (served hst (fun _ => nofun) nofun nofun))
    · rename_i hst
      split
      · have := idle_settle (s := { s with next := s.next + 1 }) hy (served hst (fun _ => nofun) nofun nofun)
          s.next ‹_› (callStep y.proc ‹_› .connected)
        exact this
      · exact idle_send (idle_set hy (y' := { y with st := .failed .other }) (fun ⟨_, e⟩ => by cases e)
          (fun h => absurd h (served hst (fun _ => nofun) nofun nofun))) _
      · exact idle_same rfl id
    · rename_i hst
      exact idle_settle hy (served hst (fun _ => nofun) nofun nofun) ..
    · exact idle_same rfl id

omit [FloatText] in
theorem idle_dropCall (s : Sys) (i : Nat) : Idle s (s.dropCall i).2 := by
  rw [Sys.dropCall]
  split
  · exact idle_same rfl id
  · rename_i y hy
    have h := idle_set hy (y' := { y with st := .dropped }) (fun ⟨_, e⟩ => by cases e) (fun _ => .inr (.inl rfl))
    split
    · exact h
    · exact h
    · exact h
    · exact h
    · exact idle_same rfl id

/-- The pool and what it is asked for are the same. -/
def SameAsked (s s' : Sys) : Prop := s'.pool = s.pool ∧ askedIds s'.queue = askedIds s.queue

omit [FloatText] in
theorem same_send (s : Sys) (cmd : Cmd) (hc : ∀ b i, cmd ≠ .acquire b i) : SameAsked s (s.send cmd) := by
  refine ⟨Sys.send_pool .., ?_⟩
  unfold Sys.send
  cases s.pool with
  | none => rfl
  | some p =>
    cases cmd with
    | acquire b i => exact absurd rfl (hc b i)
    | release b c => simp [askedIds]
    | blacklist b => simp [askedIds]

omit [FloatText] in
theorem same_settle (s : Sys) (i : Nat) (y : PCall) (c : Conn) (inner : CallInner) (o : CallOutcome) :
    SameAsked s (s.settle i y c inner o).2 := by
  cases o with
  | ready v body => exact same_send (s.setCall i { y with st := .done v body }) _ (fun _ _ => nofun)
  | _ => exact ⟨rfl, rfl⟩

theorem same_poll (s : Sys) (i : Nat) (r : IoResult) : SameAsked s (s.poll i r).2 := by
  rw [Sys.poll]
  split
  · exact ⟨rfl, rfl⟩
  · rename_i y hy
    split
    · split <;> exact ⟨rfl, rfl⟩
    · exact same_settle ..
    · exact ⟨rfl, rfl⟩
    · split
      · exact same_settle { s with next := s.next + 1 } ..
      · exact same_send (s.setCall i { y with st := .failed .other }) _ (fun _ _ => nofun)
      · exact ⟨rfl, rfl⟩
    · exact same_settle ..
    · exact ⟨rfl, rfl⟩

omit [FloatText] in
theorem same_dropCall (s : Sys) (i : Nat) : SameAsked s (s.dropCall i).2 := by
  rw [Sys.dropCall]
  split
  · exact ⟨rfl, rfl⟩
  · split <;> exact ⟨rfl, rfl⟩

/-- The calls before `m` are answered, and the others ask in their order. -/
structure Ranked (m : Nat) (s : Sys) : Prop where
  le : m ≤ s.calls.length
  asked : ∀ p, s.pool = some p → askedIds s.queue = List.range' m (s.calls.length - m)
  before : ∀ i y, s.calls[i]? = some y → i < m → ¬ Waiting y
  after : ∀ i y, s.calls[i]? = some y → m ≤ i → Unserved s y

omit [FloatText] in
theorem ranked_idle {m : Nat} {s s' : Sys} (h : Ranked m s) (hi : Idle s s')
    (hq : ∀ p, s'.pool = some p → ∃ p', s.pool = some p' ∧ askedIds s'.queue = askedIds s.queue) : Ranked m s' := by
  refine ⟨by rw [hi.1]; exact h.le, fun p hp => ?_, fun i y hy hm hw => ?_, fun i y hy hm => ?_⟩
  · obtain ⟨p', h1, h2⟩ := hq p hp
    rw [h2, hi.1]
    exact h.asked p' h1
  · obtain ⟨z, hz, h1, -⟩ := hi.2 i y hy
    exact h.before i z hz hm (h1 hw)
  · obtain ⟨z, hz, -, h2⟩ := hi.2 i y hy
    exact h2 (h.after i z hz hm)

omit [FloatText] in
theorem ranked_gone {m : Nat} {s : Sys} (h : Ranked m s) : Ranked m s.dropPool.2 :=
  ranked_idle h (idle_same (Sys.dropPool_calls s) fun _ => Sys.dropPool_pool s) fun p hp => by rw [Sys.dropPool_pool] at hp; cases hp

omit [FloatText] in
/-- The pool handles a command. -/
theorem ranked_handle {m : Nat} {s : Sys} (h : Ranked m s) (now : Time) :
    ∃ m', Ranked m' (s.handle now).2 := by
  cases hp : s.pool with
  | none =>
    have : s.handle now = ([], s) := by unfold Sys.handle; rw [hp]
    rw [this]
    exact ⟨m, h⟩
  | some p =>
  cases hq : s.queue with
  | nil =>
    have : s.handle now = ([], s) := by unfold Sys.handle; rw [hp, hq]
    rw [this]
    exact ⟨m, h⟩
  | cons cmd q =>
  have ha := h.asked p hp
  rw [hq] at ha
  unfold Sys.handle
  simp only [hp, hq]
  cases hs : p.step (Cmd.event now cmd) with
  | err e => exact ⟨m, ranked_gone h⟩
  | panic => exact ⟨m, ranked_gone h⟩
  | ok x =>
  obtain ⟨o, p'⟩ := x
  have other : askedIds q = askedIds s.queue → Ranked m { s with pool := some p', queue := q } := fun e =>
    ranked_idle h (idle_same rfl fun h' => by rw [hp] at h'; cases h') fun _ _ => ⟨p, hp, e⟩
  cases cmd with
  | acquire b i =>
    have ha' : i :: askedIds q = List.range' m (s.calls.length - m) := ha
    have hlt : m < s.calls.length := by
      rcases Nat.lt_or_ge m s.calls.length with h1 | h1
      · exact h1
      · rw [Nat.sub_eq_zero_of_le h1] at ha'; cases ha'
    obtain ⟨n, hn⟩ : ∃ n, s.calls.length - m = n + 1 := ⟨s.calls.length - m - 1, by omega⟩
    rw [hn, List.range'_succ] at ha'
    obtain ⟨rfl, hq'⟩ := List.cons.inj ha'
    have hlen : s.calls.length - (i + 1) = n := by omega
    have key : ∀ s' : Sys, s'.calls.length = s.calls.length → s'.queue = q →
        (∀ j, j ≠ i → s'.calls[j]? = s.calls[j]?) → (∀ y, s'.calls[i]? = some y → ¬ Waiting y) → Ranked (i + 1) s' := by
      intro s' h1 h2 h3 h4
      refine ⟨by omega, fun _ _ => by rw [h2, h1, hlen]; exact hq', fun j y hy hj => ?_, fun j y hy hj => ?_⟩
      · by_cases hji : j = i
        · subst hji; exact h4 y hy
        · rw [h3 j hji] at hy
          exact h.before j y hy (by omega)
      · rw [h3 j (by omega)] at hy
        exact unserved_gone (fun h' => by rw [hp] at h'; cases h') (h.after j y hy (by omega))
    have e1 : ∃ f, o = .reply f := by
      simp only [Cmd.event, Pool.step] at hs
      cases ho : p.handleAcquire b now with
      | ok x => rw [ho] at hs; cases hs; exact ⟨_, rfl⟩
      | err e => rw [ho] at hs; cases hs
      | panic => rw [ho] at hs; cases hs
    obtain ⟨f, rfl⟩ := e1
    refine ⟨i + 1, ?_⟩
    simp only
    unfold Sys.reply
    split
    · rename_i pr b' inner hy
      refine key _ (by simp [Sys.setCall]) rfl (fun j hj => ?_) (fun y hy' => ?_)
      · simp only [Sys.setCall]
        rw [List.getElem?_set_ne (Ne.symm hj)]
      · simp only [Sys.setCall] at hy'
        rw [List.getElem?_set_self hlt] at hy'
        cases hy'
        rintro ⟨_, e⟩
        cases e
    · rename_i hno
      refine key _ rfl rfl (fun _ _ => rfl) (fun y hy' => ?_)
      rintro ⟨inner, e⟩
      obtain ⟨pr, b', st⟩ := y
      cases e
      exact hno pr b' inner hy'
  | release b c =>
    refine ⟨m, ?_⟩
    have := other (by rw [hq]; rfl)
    cases o <;> exact this
  | blacklist b => exact ⟨m, other (by rw [hq]; rfl)⟩

theorem ranked_step {m : Nat} {s : Sys} (h : Ranked m s) (e : SysEvent) : ∃ m', Ranked m' (s.step e).2 := by
  cases e with
  | call p b v body =>
    refine ⟨m, ?_⟩
    have hcalls : (s.call p b v body).calls = s.calls ++ [⟨p, b, .waiting (.new v body)⟩] := by
      rw [Sys.call, Sys.send_calls]
    have hle := h.le
    refine ⟨?_, fun q hq => ?_, fun i y hy hm => ?_, fun i y hy hm => ?_⟩
    · show m ≤ (s.call p b v body).calls.length
      rw [hcalls, List.length_append]
      exact Nat.le_add_right_of_le h.le
    · have hq' : s.pool = some q := by
        have h3 : (s.call p b v body).pool = some q := hq
        rwa [Sys.call, Sys.send_pool] at h3
      show askedIds (s.call p b v body).queue = List.range' m ((s.call p b v body).calls.length - m)
      have h1 : (s.call p b v body).queue = s.queue ++ [.acquire b s.calls.length] := by
        unfold Sys.call Sys.send
        simp [hq']
      have h2 : askedIds (s.queue ++ [.acquire b s.calls.length]) = askedIds s.queue ++ [s.calls.length] := by
        simp [askedIds]
      rw [h1, h2, h.asked q hq', hcalls, List.length_append, List.length_singleton,
        show s.calls.length + 1 - m = (s.calls.length - m) + 1 by omega, List.range'_concat]
      congr 2
      omega
    · have hy' : (s.calls ++ [(⟨p, b, .waiting (.new v body)⟩ : PCall)])[i]? = some y := hcalls ▸ hy
      rw [List.getElem?_append_left (by omega)] at hy'
      exact h.before i y hy' hm
    · have hy' : (s.calls ++ [(⟨p, b, .waiting (.new v body)⟩ : PCall)])[i]? = some y := hcalls ▸ hy
      rcases Nat.lt_or_ge i s.calls.length with h1 | h1
      · rw [List.getElem?_append_left h1] at hy'
        refine unserved_gone (fun h' => ?_) (h.after i y hy' hm)
        show (s.call p b v body).pool = none
        rw [Sys.call, Sys.send_pool]
        exact h'
      · rw [List.getElem?_append_right h1] at hy'
        obtain ⟨h2, rfl⟩ := List.getElem?_eq_some_iff.1 hy'
        refine .inl ⟨.new v body, ?_⟩
        simp
  | handle now => exact ranked_handle h now
  | setSuspended d =>
    refine ⟨m, ranked_idle h (idle_same rfl fun h' => ?_) fun p hp => ?_⟩
    · show s.pool.map _ = none
      rw [h']
      rfl
    cases hp' : s.pool with
    | none =>
      have : (s.pool.map (·.setSuspended d)) = some p := hp
      rw [hp'] at this
      cases this
    | some p' => exact ⟨p', rfl, rfl⟩
  | dropPool => exact ⟨m, ranked_gone h⟩
  | poll i r =>
    obtain ⟨h1, h2⟩ := same_poll s i r
    exact ⟨m, ranked_idle h (idle_poll s i r) fun p hp => ⟨p, h1 ▸ hp, h2⟩⟩
  | dropCall i =>
    obtain ⟨h1, h2⟩ := same_dropCall s i
    exact ⟨m, ranked_idle h (idle_dropCall s i) fun p hp => ⟨p, h1 ▸ hp, h2⟩⟩

theorem ranked_run (size : Nat) (evs : List SysEvent) : ∃ m, Ranked m (Sys.run evs (.new size)).2 := by
  induction evs using List.reverseRecOn with
  | nil => exact ⟨0, ⟨Nat.le_refl _, fun _ _ => rfl, fun i y hy => by simp [Sys.run, Sys.new] at hy,
      fun i y hy => by simp [Sys.run, Sys.new] at hy⟩⟩
  | append_singleton evs e ih =>
    obtain ⟨m, h⟩ := ih
    rw [sys_run_append]
    exact ranked_step h e

/-- **C139.** Calls are served in the order in which they are made, whatever their addresses are: while a call waits
for the pool, no call made after it has got anything from the pool. -/
theorem C139_in_order (size : Nat) (evs : List SysEvent) (i j : Nat) (y z : PCall) (hij : i ≤ j)
    (hy : (Sys.run evs (.new size)).2.calls[i]? = some y) (hz : (Sys.run evs (.new size)).2.calls[j]? = some z)
    (hw : Waiting y) : Unserved (Sys.run evs (.new size)).2 z := by
  obtain ⟨m, h⟩ := ranked_run size evs
  refine h.after j z hz (Nat.le_trans (Nat.not_lt.1 fun hm => ?_) hij)
  exact h.before i y hy hm hw

end

namespace OrderExamples
variable [FloatText]

/-- After one command the call to `a` has its answer, and the one to `b` waits. -/
example (a b : Addr) (c : Proc) (v : Val) (body : Bytes) :
    (Sys.run [.call c a v body, .call c b v body, .handle 0] (.new 1)).2.calls =
      [⟨c, a, .replied (.new v body) (.connecting a)⟩, ⟨c, b, .waiting (.new v body)⟩] := by
  simp [Sys.run, Sys.step, Sys.new, Sys.call, Sys.send, Sys.handle, Cmd.event, Pool.step, Pool.handleAcquire,
    Pool.withSize, Pool.acquire, BTreeMap.firstFrom, Sys.reply, Sys.setCall, bind, Res.bind]

/-- `C139_in_order`: whatever happens afterwards, as long as the call to `b` waits the call made next gets nothing. -/
example (a b : Addr) (c : Proc) (v : Val) (body : Bytes) (evs : List SysEvent) (y z : PCall) (hw : Waiting y)
    (hy : (Sys.run ([.call c a v body, .call c b v body, .call c a v body, .handle 0] ++ evs) (.new 1)).2.calls[1]? = some y)
    (hz : (Sys.run ([.call c a v body, .call c b v body, .call c a v body, .handle 0] ++ evs) (.new 1)).2.calls[2]? = some z) :
    z.st ≠ .replied (.new v body) (.connecting a) := by
  rcases C139_in_order 1 _ 1 2 y z (by omega) hy hz hw with ⟨_, h⟩ | h | ⟨-, h⟩ <;> rw [h] <;> nofun

end OrderExamples

end Htrpc
