/-
C155: calls that are dropped before they have looked at the answer of their pool.
-/
import Verif.Spec.Abandon
import Verif.Props.Commute

namespace Htrpc
open Spec

def noTook : Effect → Bool
  | .took _ _ _ => false
  | _ => true

theorem map_unless (i : Nat) {es : List Effect} (h : es.all noTook) : es.map (unlessAbandoned i) = es := by
  induction es with
  | nil => rfl
  | cons e es ih =>
    simp only [List.all_cons, Bool.and_eq_true] at h
    rw [List.map_cons, ih h.2]
    cases e with
    | took j a c => cases h.1
    | _ => rfl

theorem closed_noTook (cs : List Conn) : (cs.map Effect.closed).all noTook := by
  induction cs with
  | nil => rfl
  | cons c cs ih => simp [noTook]

theorem settleAct_noTook (i : Nat) (y : PCall) (c : Conn) (al : Bool) (inner : CallInner) (o : CallOutcome) :
    (settleAct i y c al inner o).es.all noTook := by
  cases o with
  | ready v b => cases al <;> rfl
  | _ => rfl

theorem pollAct_noTook [FloatText] (i : Nat) (r : IoResult) (y : PCall) (al : Bool) (n : Nat) :
    (pollAct i r y al n).es.all noTook := by
  unfold pollAct
  split
  · cases al <;> rfl
  · exact settleAct_noTook ..
  · rfl
  · split
    · simp only [List.all_cons, settleAct_noTook]; rfl
    · rfl
    · rfl
  · simp only [List.all_cons, settleAct_noTook]; rfl
  · rfl

theorem dropAct_noTook (y : PCall) : (dropAct y).es.all noTook := by
  unfold dropAct
  split <;> rfl

theorem act_abandon {i j : Nat} (hij : j ≠ i) (a : Act) (ha : a.es.all noTook) (s : Sys) :
    a.on j (abandon i s) = ((a.on j s).1.map (unlessAbandoned i), abandon i (a.on j s).2) := by
  simp only [Act.on, abandon, map_unless i ha]
  congr 2
  apply List.ext_getElem?
  intro k
  simp only [List.getElem?_set, List.getElem?_modify, List.length_modify]
  by_cases h1 : j = k
  · subst h1
    simp [Ne.symm hij]
  · simp [h1]

theorem reply_abandon (i k : Nat) (a : Addr) (f : Pooled) (s : Sys) :
    (abandon i s).reply k a f = ((s.reply k a f).1.map (unlessAbandoned i), abandon i (s.reply k a f).2) := by
  by_cases hk : i = k
  · subst hk
    cases hy : s.calls[i]? with
    | none => cases f <;> simp [Sys.reply, abandon, hy, unlessAbandoned]
    | some y =>
      obtain ⟨p, b, st⟩ := y
      have hset : ∀ z : PCall, z.proc = p → z.addr = b → (s.calls.set i z).modify i (fun y => { y with st := .dropped }) =
          s.calls.modify i fun y => { y with st := .dropped } := by
        intro z h1 h2
        apply List.ext_getElem?
        intro m
        simp only [List.getElem?_modify, List.getElem?_set]
        by_cases hm : i = m
        · subst hm
          have h3 := (List.getElem?_eq_some_iff.1 hy).2
          simp [(List.getElem?_eq_some_iff.1 hy).1, h3, h1, h2]
        · simp [hm]
      cases st <;> cases f <;>
        simp [Sys.reply, abandon, hy, unlessAbandoned, Sys.setCall, hset]
  · have hget : (abandon i s).calls[k]? = s.calls[k]? := by simp [abandon, hk]
    have hset : ∀ z : PCall, (s.calls.modify i fun y => { y with st := .dropped }).set k z =
        (s.calls.set k z).modify i fun y => { y with st := .dropped } := by
      intro z
      apply List.ext_getElem?
      intro m
      simp only [List.getElem?_modify, List.getElem?_set, List.length_modify]
      by_cases hm : k = m
      · subst hm
        simp [hk]
      · simp [hm]
    unfold Sys.reply
    rw [hget]
    split
    · cases f <;> simp [unlessAbandoned, abandon, Sys.setCall, hset, Ne.symm hk]
    · cases f <;> simp [unlessAbandoned]

theorem dropPool_abandon (i : Nat) (s : Sys) :
    (abandon i s).dropPool = (s.dropPool.1.map (unlessAbandoned i), abandon i s.dropPool.2) := by
  obtain ⟨pool, queue, calls, next⟩ := s
  cases pool with
  | none => rfl
  | some p =>
    simp only [Sys.dropPool, abandon, map_unless i (closed_noTook _)]

theorem handle_abandon (i : Nat) (now : Time) (s : Sys) :
    (abandon i s).handle now = ((s.handle now).1.map (unlessAbandoned i), abandon i (s.handle now).2) := by
  obtain ⟨pool, queue, calls, next⟩ := s
  cases pool with
  | none => rfl
  | some p =>
    cases queue with
    | nil => rfl
    | cons cmd q =>
      have hd := dropPool_abandon i ⟨some p, cmd :: q, calls, next⟩
      have hr := fun p' k a f => reply_abandon i k a f ⟨some p', q, calls, next⟩
      simp only [Sys.handle, abandon] at hd hr ⊢
      cases p.step (cmd.event now) with
      | err k => exact hd
      | panic => exact hd
      | ok r =>
        obtain ⟨out, p'⟩ := r
        cases cmd <;> cases out <;> first
          | exact hr ..
          | (simp only [map_unless i (closed_noTook _)]; done)
          | rfl

variable [FloatText]

theorem step_abandon {i : Nat} {s : Sys} (hi : i < s.calls.length) (e : SysEvent) (he : ofCall e ≠ some i) :
    (abandon i s).step e = ((s.step e).1.map (unlessAbandoned i), abandon i (s.step e).2) := by
  have hlocal : ∀ {j : Nat}, j ≠ i → (abandon i s).calls[j]? = s.calls[j]? := by
    intro j hj
    simp [abandon, Ne.symm hj]
  cases e with
  | call p a v body =>
    obtain ⟨pool, queue, calls, next⟩ := s
    have : ∀ z : PCall, calls.modify i (fun y => { y with st := .dropped }) ++ [z] =
        (calls ++ [z]).modify i fun y => { y with st := .dropped } := by
      intro z
      apply List.ext_getElem?
      intro m
      simp only [List.getElem?_modify, List.getElem?_append, List.length_modify]
      by_cases hm : m < calls.length
      · simp [hm]
      · have : i ≠ m := fun h => hm (h ▸ hi)
        simp [hm, this]
    cases pool <;> simp [Sys.step, Sys.call, Sys.send, abandon, this]
  | handle now => exact handle_abandon i now s
  | setSuspended d => rfl
  | dropPool => exact dropPool_abandon i s
  | poll j r =>
    have hj : j ≠ i := fun h => he (congrArg some h)
    cases hy : s.calls[j]? with
    | none => simp [Sys.step, Sys.poll, hlocal hj, hy]
    | some y =>
      simp only [Sys.step]
      rw [poll_act hy, poll_act ((hlocal hj).trans hy)]
      exact act_abandon hj _ (pollAct_noTook ..) s
  | dropCall j =>
    have hj : j ≠ i := fun h => he (congrArg some h)
    cases hy : s.calls[j]? with
    | none => simp [Sys.step, Sys.dropCall, hlocal hj, hy]
    | some y =>
      simp only [Sys.step]
      rw [drop_act hy, drop_act ((hlocal hj).trans hy)]
      exact act_abandon hj _ (dropAct_noTook _) s

theorem step_of_abandoned {i : Nat} (s : Sys) (e : SysEvent) (he : ofCall e = some i) :
    (abandon i s).step e = ([], abandon i s) := by
  have hst : ∀ y, (abandon i s).calls[i]? = some y → y.st = .dropped := by
    intro y hy
    simp only [abandon, List.getElem?_modify, if_true] at hy
    cases h : s.calls[i]? with
    | none => rw [h] at hy; cases hy
    | some z => rw [h] at hy; cases hy; rfl
  generalize abandon i s = t at hst
  cases e with
  | poll j r =>
    cases he
    simp only [Sys.step, Sys.poll]
    split
    · rfl
    · rename_i y hy
      rw [hst y hy]
  | dropCall j =>
    cases he
    simp only [Sys.step, Sys.dropCall]
    split
    · rfl
    · rename_i y hy
      rw [hst y hy]
  | _ => cases he

theorem run_abandon {i : Nat} (l : List SysEvent) {s : Sys} (hi : i < s.calls.length) :
    Sys.run l (abandon i s) = ((Sys.run (l.filter fun e => ofCall e ≠ some i) s).1.map (unlessAbandoned i),
      abandon i (Sys.run (l.filter fun e => ofCall e ≠ some i) s).2) := by
  induction l generalizing s with
  | nil => rfl
  | cons e l ih =>
    by_cases he : ofCall e = some i
    · have hf : (e :: l).filter (fun e => ofCall e ≠ some i) = l.filter fun e => ofCall e ≠ some i := by
        simp [he]
      rw [hf, ← ih hi]
      simp only [Sys.run, step_of_abandoned s e he, List.nil_append]
    · have hf : (e :: l).filter (fun e => ofCall e ≠ some i) = e :: l.filter fun e => ofCall e ≠ some i := by
        simp [he]
      have hlen : i < (s.step e).2.calls.length := by
        cases e with
        | call p a v body =>
          cases hp : s.pool <;> simp [Sys.step, Sys.call, Sys.send, hp] <;> omega
        | _ => rw [step_length s _ (by intros; simp)]; exact hi
      rw [hf]
      simp only [Sys.run, step_abandon hi e he, ih hlen, List.map_append]

/-- **C155.** Dropping a call that waits is like never polling it again, except that an idle connection which it is
given later is closed: nothing else is different for anyone. -/
theorem C155_abandoned (s : Sys) (i : Nat) (y : PCall) (inner : CallInner) (hy : s.calls[i]? = some y)
    (hw : y.st = .waiting inner) (l : List SysEvent) :
    Sys.run (.dropCall i :: l) s = ((Sys.run (l.filter fun e => ofCall e ≠ some i) s).1.map (unlessAbandoned i),
      abandon i (Sys.run (l.filter fun e => ofCall e ≠ some i) s).2) := by
  have hi := (List.getElem?_eq_some_iff.1 hy).1
  have hd : s.step (.dropCall i) = ([], abandon i s) := by
    have h3 := (List.getElem?_eq_some_iff.1 hy).2
    simp only [Sys.step, Sys.dropCall, hy, hw, Sys.setCall, abandon]
    congr 2
    rw [List.modify_eq_set_getElem?, hy]
    rfl
  rw [← run_abandon l hi]
  simp only [Sys.run, hd, List.nil_append]

/-- **C155.** So the pool, its queue, the number of connections opened and all other calls are the same whether the call
was dropped or left alone. -/
theorem C155_others (s : Sys) (i : Nat) (y : PCall) (inner : CallInner) (hy : s.calls[i]? = some y)
    (hw : y.st = .waiting inner) (l : List SysEvent) (hl : ∀ e ∈ l, ofCall e ≠ some i) :
    (Sys.run (.dropCall i :: l) s).2.pool = (Sys.run l s).2.pool ∧
      (Sys.run (.dropCall i :: l) s).2.queue = (Sys.run l s).2.queue ∧
      (Sys.run (.dropCall i :: l) s).2.next = (Sys.run l s).2.next ∧
      ∀ j, j ≠ i → (Sys.run (.dropCall i :: l) s).2.calls[j]? = (Sys.run l s).2.calls[j]? := by
  have hf : l.filter (fun e => ofCall e ≠ some i) = l := List.filter_eq_self.2 fun e he => by simpa using hl e he
  rw [C155_abandoned s i y inner hy hw l, hf]
  refine ⟨rfl, rfl, rfl, fun j hj => ?_⟩
  simp [abandon, Ne.symm hj]

namespace AbandonExamples

private def x : Addr := ⟨1, 80, 0⟩

private def s (p : Proc) (n : CallInner) : Sys :=
  ⟨some { Pool.withSize 1 with connections := [(⟨x, 0⟩, 7)], lru := [(0, x)], seq := 1 }, [.acquire x 0], [⟨p, x, .waiting n⟩], 8⟩

/-- An idle connection that a call would have been given is lost to the pool when the call was dropped. -/
example (p : Proc) (n : CallInner) : (Sys.run [.handle 2] (s p n)).1 = [.took 0 x 7] ∧
    (Sys.run [.dropCall 0, .handle 2] (s p n)).1 = [.closed 7] := by
  have h : (Sys.run [.handle 2] (s p n)).1 = [.took 0 x 7] := rfl
  refine ⟨h, ?_⟩
  rw [C155_abandoned (s p n) 0 _ n rfl rfl]
  exact congrArg (List.map (unlessAbandoned 0)) h

example (p : Proc) (n : CallInner) : (Sys.run [.dropCall 0, .handle 2] (s p n)).2.pool =
    (Sys.run [.handle 2] (s p n)).2.pool :=
  (C155_others (s p n) 0 _ n rfl rfl _ (by decide)).1

end AbandonExamples

end Htrpc
