/-
C153: the order in which independent things happen.
-/
import Verif.Spec.Commute
import Verif.Props.Closing
import Verif.Props.Work

namespace Htrpc
open Spec

/-- What an event does to its call. -/
structure Act where
  es : List Effect
  call : PCall
  cmds : List Cmd
  opens : Nat

def Act.on (a : Act) (i : Nat) (s : Sys) : List Effect × Sys :=
  (a.es, ⟨s.pool, match s.pool with | none => s.queue | some _ => s.queue ++ a.cmds, s.calls.set i a.call,
    s.next + a.opens⟩)

theorem set_itself {α : Type} {l : List α} {i : Nat} {y : α} (h : l[i]? = some y) : l.set i y = l := by
  obtain ⟨h1, h2⟩ := List.getElem?_eq_some_iff.1 h
  subst h2
  simp

theorem act_nothing {s : Sys} {i : Nat} {y : PCall} (h : s.calls[i]? = some y) :
    (Act.mk [] y [] 0).on i s = ([], s) := by
  obtain ⟨pool, queue, calls, next⟩ := s
  cases pool <;> simp [Act.on, set_itself (show calls[i]? = some y from h)]

/-- What a round of a call with a connection does. -/
def settleAct (i : Nat) (y : PCall) (c : Conn) (alive : Bool) : CallInner → CallOutcome → Act
  | inner, .pending => ⟨[], { y with st := .active c inner }, [], 0⟩
  | _, .next inner => ⟨[], { y with st := .active c inner }, [], 0⟩
  | _, .ready v body =>
    ⟨.returned i y.addr c :: (if alive then [] else [.closed c]), { y with st := .done v body }, [.release y.addr c], 0⟩
  | _, .failed k => ⟨[.closed c], { y with st := .failed k }, [], 0⟩
  | _, .panicked => ⟨[.closed c], { y with st := .panicked }, [], 0⟩

theorem settle_act (i : Nat) (y : PCall) (c : Conn) (inner : CallInner) (s : Sys) (o : CallOutcome) :
    s.settle i y c inner o = (settleAct i y c s.pool.isSome inner o).on i s := by
  obtain ⟨pool, queue, calls, next⟩ := s
  cases o <;> cases pool <;> simp [Sys.settle, settleAct, Act.on, Sys.setCall, Sys.send]

theorem settleAct_opens (i : Nat) (y : PCall) (c : Conn) (al : Bool) (inner : CallInner) (o : CallOutcome) :
    (settleAct i y c al inner o).opens = 0 := by
  cases o <;> rfl

section
variable [FloatText]

def pollAct (i : Nat) (r : IoResult) (y : PCall) (alive : Bool) (n : Nat) : Act :=
  match y.st with
  | .waiting _ => if alive then ⟨[], y, [], 0⟩ else ⟨[], { y with st := .failed .other }, [], 0⟩
  | .replied inner (.ready c) => settleAct i y c alive inner (callStep y.proc inner .connected)
  | .replied _ .failed => ⟨[], { y with st := .failed .other }, [], 0⟩
  | .replied inner (.connecting a) =>
    match r with
    | .connected =>
      let x := settleAct i y n alive inner (callStep y.proc inner .connected)
      ⟨.opened i a n :: x.es, x.call, x.cmds, 1⟩
    | .failed => ⟨[.refused i a], { y with st := .failed .other }, [.blacklist a], 0⟩
    | _ => ⟨[], y, [], 0⟩
  | .active c inner =>
    let x := settleAct i y c alive inner (callStep y.proc inner r)
    ⟨.io i c :: x.es, x.call, x.cmds, 0⟩
  | _ => ⟨[], y, [], 0⟩

theorem poll_act {s : Sys} {i : Nat} {y : PCall} (h : s.calls[i]? = some y) (r : IoResult) :
    s.poll i r = (pollAct i r y s.pool.isSome s.next).on i s := by
  have hn := act_nothing h
  obtain ⟨pr, b, st⟩ := y
  unfold Sys.poll
  rw [h]
  cases st with
  | waiting inner =>
    cases hp : s.pool with
    | none => simp [pollAct, Act.on, hp, Sys.setCall]
    | some p => exact hn.symm
  | replied inner f =>
    cases f with
    | ready c =>
      simp only [settle_act]
      rfl
    | failed => cases hp : s.pool <;> simp [pollAct, Act.on, hp, Sys.setCall]
    | connecting a =>
      cases r with
      | connected =>
        simp only [settle_act, Act.on, settleAct_opens]
        rfl
      | failed => cases hp : s.pool <;> simp [pollAct, Act.on, hp, Sys.setCall, Sys.send]
      | _ => exact hn.symm
  | active c inner =>
    simp only [settle_act, Act.on, settleAct_opens]
    rfl
  | _ => exact hn.symm

theorem pollAct_next (i : Nat) (r : IoResult) (y : PCall) (al : Bool) (n m : Nat) (h : (pollAct i r y al n).opens = 0) :
    pollAct i r y al m = pollAct i r y al n := by
  obtain ⟨pr, b, st⟩ := y
  cases st with
  | replied inner f =>
    cases f with
    | connecting a =>
      cases r with
      | connected => cases h
      | _ => rfl
    | _ => rfl
  | _ => rfl

end

def dropAct (y : PCall) : Act :=
  match y.st with
  | .waiting _ => ⟨[], { y with st := .dropped }, [], 0⟩
  | .replied _ (.ready c) => ⟨[.closed c], { y with st := .dropped }, [], 0⟩
  | .replied _ _ => ⟨[], { y with st := .dropped }, [], 0⟩
  | .active c _ => ⟨[.closed c], { y with st := .dropped }, [], 0⟩
  | _ => ⟨[], y, [], 0⟩

theorem drop_act {s : Sys} {i : Nat} {y : PCall} (h : s.calls[i]? = some y) : s.dropCall i = (dropAct y).on i s := by
  have hn := act_nothing h
  obtain ⟨pr, b, st⟩ := y
  unfold Sys.dropCall
  rw [h]
  cases st with
  | waiting inner => cases hp : s.pool <;> simp [dropAct, Act.on, hp, Sys.setCall]
  | replied inner f => cases f <;> cases hp : s.pool <;> simp [dropAct, Act.on, hp, Sys.setCall]
  | active c inner => cases hp : s.pool <;> simp [dropAct, Act.on, hp, Sys.setCall]
  | _ => exact hn.symm

/-- The effects tell what is sent and whether a connection is opened. -/
def Act.Told (a : Act) : Prop := laterCommands a.es = a.cmds.length ∧ openedTotal a.es = a.opens

theorem settleAct_told (i : Nat) (y : PCall) (c : Conn) (al : Bool) (inner : CallInner) (o : CallOutcome) :
    (settleAct i y c al inner o).Told := by
  cases o with
  | ready v body => cases al <;> exact ⟨rfl, rfl⟩
  | _ => exact ⟨rfl, rfl⟩

theorem laterCommands_cons (e : Effect) (es : List Effect) :
    laterCommands (e :: es) = laterCommands [e] + laterCommands es := laterCommands_append [e] es

theorem openedTotal_cons (e : Effect) (es : List Effect) :
    openedTotal (e :: es) = openedTotal [e] + openedTotal es := openedTotal_append [e] es

section
variable [FloatText]

theorem pollAct_told (i : Nat) (r : IoResult) (y : PCall) (al : Bool) (n : Nat) : (pollAct i r y al n).Told := by
  unfold pollAct
  split
  · cases al <;> exact ⟨rfl, rfl⟩
  · exact settleAct_told ..
  · exact ⟨rfl, rfl⟩
  · rename_i inner a _
    split
    · obtain ⟨h1, h2⟩ := settleAct_told i y n al inner (callStep y.proc inner .connected)
      rw [settleAct_opens] at h2
      refine ⟨?_, ?_⟩
      · simp only
        rw [laterCommands_cons, h1]
        exact Nat.zero_add _
      · simp only
        rw [openedTotal_cons, h2]
        rfl
    · exact ⟨rfl, rfl⟩
    · exact ⟨rfl, rfl⟩
  · rename_i c inner _
    obtain ⟨h1, h2⟩ := settleAct_told i y c al inner (callStep y.proc inner r)
    rw [settleAct_opens] at h2
    refine ⟨?_, ?_⟩
    · simp only
      rw [laterCommands_cons, h1]
      exact Nat.zero_add _
    · simp only
      rw [openedTotal_cons, h2]
      rfl
  · exact ⟨rfl, rfl⟩

omit [FloatText] in
theorem dropAct_told (y : PCall) : (dropAct y).Told := by
  unfold dropAct
  split <;> exact ⟨rfl, rfl⟩

omit [FloatText] in
theorem settleAct_stays (i : Nat) (y : PCall) (c : Conn) (al : Bool) (inner : CallInner) (o : CallOutcome) :
    waitsSt (settleAct i y c al inner o).call.st = false := by
  cases o <;> rfl

theorem pollAct_stays (i : Nat) (r : IoResult) (y : PCall) (al : Bool) (n : Nat) (h : waitsSt y.st = false) :
    waitsSt (pollAct i r y al n).call.st = false := by
  obtain ⟨pr, b, st⟩ := y
  cases st with
  | waiting inner => cases h
  | replied inner f =>
    cases f with
    | ready c => exact settleAct_stays ..
    | failed => rfl
    | connecting a =>
      cases r with
      | connected => exact settleAct_stays ..
      | _ => rfl
  | active c inner => exact settleAct_stays ..
  | _ => rfl

omit [FloatText] in
theorem dropAct_stays (y : PCall) (h : waitsSt y.st = false) : waitsSt (dropAct y).call.st = false := by
  obtain ⟨pr, b, st⟩ := y
  cases st with
  | waiting inner => cases h
  | replied inner f => cases f <;> rfl
  | _ => rfl

/-- What happens to call `i`, as a function of the call. -/
structure Local (i : Nat) (e : SysEvent) (f : PCall → Bool → Nat → Act) : Prop where
  act : ∀ (s : Sys) (y : PCall), s.calls[i]? = some y → s.step e = (f y s.pool.isSome s.next).on i s
  none : ∀ s : Sys, s.calls[i]? = none → s.step e = ([], s)
  next : ∀ y al n m, (f y al n).opens = 0 → f y al m = f y al n
  told : ∀ y al n, (f y al n).Told
  stays : ∀ y al n, waitsSt y.st = false → waitsSt (f y al n).call.st = false

theorem ofCall_local {i : Nat} {e : SysEvent} (h : ofCall e = some i) : ∃ f, Local i e f := by
  cases e with
  | poll j r =>
    cases h
    refine ⟨pollAct i r, ⟨fun s y hy => poll_act hy r, fun s hs => ?_, fun y al n m h0 => pollAct_next i r y al n m h0,
      fun y al n => pollAct_told i r y al n, fun y al n => pollAct_stays i r y al n⟩⟩
    simp [Sys.step, Sys.poll, hs]
  | dropCall j =>
    cases h
    refine ⟨fun y _ _ => dropAct y, ⟨fun s y hy => drop_act hy, fun s hs => ?_, fun y al n m h0 => rfl,
      fun y al n => dropAct_told y, fun y al n => dropAct_stays y⟩⟩
    simp [Sys.step, Sys.dropCall, hs]
  | _ => cases h

/-- **C153.** What happens to two calls, in whatever order, unless both say something to the pool or both open a
connection. -/
theorem C153_calls (s : Sys) (e e' : SysEvent) (i j : Nat) (h : ofCall e = some i) (h' : ofCall e' = some j) (hij : i ≠ j)
    (hq : ¬ (Speaks (s.step e).1 ∧ Speaks (s.step e').1)) (ho : ¬ (Opens (s.step e).1 ∧ Opens (s.step e').1)) :
    Commute s e e' := by
  obtain ⟨f, hf⟩ := ofCall_local h
  obtain ⟨g, hg⟩ := ofCall_local h'
  cases hi : s.calls[i]? with
  | none =>
    rw [Commute, hf.none s hi]
    have : (s.step e').2.calls[i]? = none := by
      cases hj : s.calls[j]? with
      | none => rw [hg.none s hj]; exact hi
      | some z =>
        rw [hg.act s z hj]
        simp only [Act.on, List.getElem?_set, if_neg (Ne.symm hij)]
        exact hi
    rw [hf.none _ this]
    exact ⟨rfl, rfl, rfl⟩
  | some y =>
  cases hj : s.calls[j]? with
  | none =>
    rw [Commute, hg.none s hj]
    have : (s.step e).2.calls[j]? = none := by
      rw [hf.act s y hi]
      simp only [Act.on, List.getElem?_set, if_neg hij]
      exact hj
    rw [hg.none _ this]
    exact ⟨rfl, rfl, rfl⟩
  | some z =>
  have ei := hf.act s y hi
  have ej := hg.act s z hj
  rw [ei, ej] at hq ho
  have ti := hf.told y s.pool.isSome s.next
  have tj := hg.told z s.pool.isSome s.next
  generalize ha : f y s.pool.isSome s.next = a at *
  generalize hb : g z s.pool.isSome s.next = b at *
  have hq' : a.cmds = [] ∨ b.cmds = [] := by
    have h1 := ti.1
    have h2 := tj.1
    simp only [Act.on, Speaks] at hq
    simp only [laterCommands] at h1 h2
    rw [h1, h2] at hq
    rcases Nat.eq_zero_or_pos a.cmds.length with h3 | h3
    · exact .inl (List.eq_nil_of_length_eq_zero h3)
    · rcases Nat.eq_zero_or_pos b.cmds.length with h4 | h4
      · exact .inr (List.eq_nil_of_length_eq_zero h4)
      · exact absurd ⟨by omega, by omega⟩ hq
  have ho' : a.opens = 0 ∨ b.opens = 0 := by
    simp only [Act.on, Opens, ti.2, tj.2] at ho
    omega
  have k1 : f y s.pool.isSome (s.next + b.opens) = a := by
    rcases ho' with h0 | h0
    · rw [hf.next y _ s.next _ (by rw [ha]; exact h0), ha]
    · rw [h0]; exact ha
  have k2 : g z s.pool.isSome (s.next + a.opens) = b := by
    rcases ho' with h0 | h0
    · rw [h0]; exact hb
    · rw [hg.next z _ s.next _ (by rw [hb]; exact h0), hb]
  have m1 : (b.on j s).2.calls[i]? = some y := by
    simp only [Act.on, List.getElem?_set, if_neg (Ne.symm hij)]
    exact hi
  have m2 : (a.on i s).2.calls[j]? = some z := by
    simp only [Act.on, List.getElem?_set, if_neg hij]
    exact hj
  have n1 : (b.on j s).2.step e = a.on i (b.on j s).2 := by
    rw [hf.act _ y m1]
    exact congrArg (fun x => Act.on x i (b.on j s).2) k1
  have n2 : (a.on i s).2.step e' = b.on j (a.on i s).2 := by
    rw [hg.act _ z m2]
    exact congrArg (fun x => Act.on x j (a.on i s).2) k2
  rw [Commute, ei, ej, n1, n2]
  refine ⟨rfl, rfl, ?_⟩
  obtain ⟨pool, queue, calls, next⟩ := s
  have c1 : (calls.set i a.call).set j b.call = (calls.set j b.call).set i a.call := List.set_comm _ _ hij
  have c2 : next + a.opens + b.opens = next + b.opens + a.opens := by omega
  cases pool with
  | none => simp only [Act.on, c1, c2]
  | some p =>
    simp only [Act.on, c1, c2]
    rcases hq' with h0 | h0 <;> simp [h0]

omit [FloatText] in
theorem reply_other {i : Nat} {y y' : PCall} (hw : waitsSt y.st = false) (hw' : waitsSt y'.st = false) {calls : List PCall}
    (hy : calls[i]? = some y) (k : Nat) (a : Addr) (f : Pooled) (p : Pool) (q tail : List Cmd) (n m : Nat) :
    (Sys.mk (some p) q calls n).reply k a f =
        (((Sys.mk (some p) q calls n).reply k a f).1,
          ⟨some p, q, ((Sys.mk (some p) q calls n).reply k a f).2.calls, n⟩) ∧
      ((Sys.mk (some p) q calls n).reply k a f).2.calls[i]? = some y ∧
      (Sys.mk (some p) (q ++ tail) (calls.set i y') m).reply k a f =
        (((Sys.mk (some p) q calls n).reply k a f).1,
          ⟨some p, q ++ tail, ((Sys.mk (some p) q calls n).reply k a f).2.calls.set i y', m⟩) := by
  have hlt : i < calls.length := (List.getElem?_eq_some_iff.1 hy).1
  obtain ⟨pr, b, st⟩ := y
  obtain ⟨pr', b', st'⟩ := y'
  by_cases hk : k = i
  · subst hk
    have hy' : (calls.set k ⟨pr', b', st'⟩)[k]? = some ⟨pr', b', st'⟩ := by
      rw [List.getElem?_set_self hlt]
    cases st <;> try cases hw
    all_goals
      cases st' <;> try cases hw'
      all_goals
        simp [Sys.reply, hy, hy']
  · have hk' : (calls.set i ⟨pr', b', st'⟩)[k]? = calls[k]? := by
      rw [List.getElem?_set_ne (Ne.symm hk)]
    have hcomm : ∀ z, (calls.set i ⟨pr', b', st'⟩).set k z = (calls.set k z).set i ⟨pr', b', st'⟩ := by
      intro z
      exact List.set_comm _ _ (Ne.symm hk)
    cases hc : calls[k]? with
    | none =>
      simp [Sys.reply, hk', hc, hy]
    | some z =>
      obtain ⟨pz, bz, sz⟩ := z
      cases sz with
      | waiting inner =>
        simp [Sys.reply, hk', hc, Sys.setCall, hcomm, List.getElem?_set_ne hk, hy]
      | _ =>
        simp [Sys.reply, hk', hc, hy]

omit [FloatText] in
theorem handle_other {i : Nat} {y y' : PCall} (hw : waitsSt y.st = false) (hw' : waitsSt y'.st = false) {calls : List PCall}
    (hy : calls[i]? = some y) (now : Time) (p : Pool) (cmd : Cmd) (q tail : List Cmd) (n m : Nat)
    (ha : ((Sys.mk (some p) (cmd :: q) calls n).handle now).2.pool ≠ none) :
    ∃ es p' calls', (Sys.mk (some p) (cmd :: q) calls n).handle now = (es, ⟨some p', q, calls', n⟩) ∧
      calls'[i]? = some y ∧
      (Sys.mk (some p) (cmd :: q ++ tail) (calls.set i y') m).handle now =
        (es, ⟨some p', q ++ tail, calls'.set i y', m⟩) := by
  cases hs : p.step (cmd.event now) with
  | err e => simp only [Sys.handle, hs] at ha; exact absurd rfl ha
  | panic => simp only [Sys.handle, hs] at ha; exact absurd rfl ha
  | ok x =>
    obtain ⟨out, p'⟩ := x
    have other : ∀ es : List Effect, ∃ es' p'' calls', (es, Sys.mk (some p') q calls n) = (es', Sys.mk (some p'') q calls' n) ∧
        calls'[i]? = some y ∧ (es, Sys.mk (some p') (q ++ tail) (calls.set i y') m) =
          (es', ⟨some p'', q ++ tail, calls'.set i y', m⟩) := fun es => ⟨es, p', calls, rfl, hy, rfl⟩
    cases cmd with
    | acquire a k =>
      cases out with
      | reply f =>
        obtain ⟨h1, h2, h3⟩ := reply_other hw hw' hy k a f p' q tail n m
        simp only [Sys.handle, hs, List.cons_append]
        exact ⟨_, p', _, h1, h2, h3⟩
      | _ => simp only [Sys.handle, hs, List.cons_append]; exact other _
    | release a c => cases out <;> (simp only [Sys.handle, hs, List.cons_append]; exact other _)
    | blacklist a => cases out <;> (simp only [Sys.handle, hs, List.cons_append]; exact other _)

/-- **C153.** What happens to a call that does not wait for the pool, and the next command of the pool, in whatever
order. -/
theorem C153_pool (s : Sys) (now : Time) (e : SysEvent) (i : Nat) (h : ofCall e = some i) (hq : s.queue ≠ [])
    (hw : ∀ y, s.calls[i]? = some y → ¬ Waiting y) (ha : (s.step (.handle now)).2.pool ≠ none) :
    Commute s e (.handle now) := by
  obtain ⟨f, hf⟩ := ofCall_local h
  obtain ⟨pool, queue, calls, n⟩ := s
  cases pool with
  | none => exact absurd rfl ha
  | some p =>
  cases queue with
  | nil => exact absurd rfl hq
  | cons cmd q =>
  cases hi : calls[i]? with
  | none =>
    have e1 := hf.none ⟨some p, cmd :: q, calls, n⟩ hi
    have e2 : ((Sys.mk (some p) (cmd :: q) calls n).step (.handle now)).2.calls[i]? = none := by
      have hl := (worked_step (Sys.mk (some p) (cmd :: q) calls n) (.handle now)).calls
      rw [List.getElem?_eq_none_iff] at hi ⊢
      rw [hl]
      exact hi
    rw [Commute, e1, hf.none _ e2]
    exact ⟨rfl, rfl, rfl⟩
  | some y =>
    have hwy : waitsSt y.st = false := by
      have := hw y hi
      obtain ⟨pr, b, st⟩ := y
      cases st with
      | waiting inner => exact absurd ⟨inner, rfl⟩ this
      | _ => rfl
    have e1 := hf.act ⟨some p, cmd :: q, calls, n⟩ y hi
    have hst := hf.stays y true n hwy
    have e1' : (Sys.mk (some p) (cmd :: q) calls n).step e = (f y true n).on i ⟨some p, cmd :: q, calls, n⟩ := e1
    obtain ⟨es, p', calls', h1, h2, h3⟩ := handle_other hwy hst hi now p cmd q (f y true n).cmds n (n + (f y true n).opens) ha
    have e3 : (Sys.mk (some p) (cmd :: q) calls n).step (.handle now) = (es, ⟨some p', q, calls', n⟩) := h1
    have e4 := hf.act ⟨some p', q, calls', n⟩ y h2
    have e5 : (Sys.mk (some p') q calls' n).step e = (f y true n).on i ⟨some p', q, calls', n⟩ := e4
    have e6 : ((f y true n).on i ⟨some p, cmd :: q, calls, n⟩).2.step (.handle now) =
        (es, ⟨some p', q ++ (f y true n).cmds, calls'.set i (f y true n).call, n + (f y true n).opens⟩) := h3
    rw [Commute, e1', e3, e6]
    refine ⟨?_, rfl, ?_⟩
    · have e7 : ((Sys.mk (some p') q calls' n).step e).1 = (f y true n).es := congrArg Prod.fst e5
      exact e7
    · exact (congrArg Prod.snd e5).symm

/-- **C153.** A new call, and what happens to a call that says nothing to the pool, in whatever order. -/
theorem C153_new (s : Sys) (p : Proc) (a : Addr) (v : Val) (body : Bytes) (e : SysEvent) (i : Nat) (h : ofCall e = some i)
    (hi : i < s.calls.length) (hq : ¬ Speaks (s.step e).1) : Commute s e (.call p a v body) := by
  obtain ⟨f, hf⟩ := ofCall_local h
  obtain ⟨y, hy⟩ : ∃ y, s.calls[i]? = some y := ⟨_, List.getElem?_eq_getElem hi⟩
  have e1 := hf.act s y hy
  have ht := hf.told y s.pool.isSome s.next
  rw [e1] at hq
  have hcmds : (f y s.pool.isSome s.next).cmds = [] := by
    have h1 := ht.1
    simp only [laterCommands] at h1
    simp only [Act.on, Speaks, h1] at hq
    exact List.eq_nil_of_length_eq_zero (by omega)
  have hpool : (s.step (.call p a v body)).2.pool = s.pool := Sys.send_pool _ _
  have hnext : (s.step (.call p a v body)).2.next = s.next := Sys.send_next _ _
  have hcalls : (s.step (.call p a v body)).2.calls = s.calls ++ [⟨p, a, .waiting (.new v body)⟩] := Sys.send_calls _ _
  have e2 := hf.act (s.step (.call p a v body)).2 y (by rw [hcalls, List.getElem?_append_left hi]; exact hy)
  rw [hpool, hnext] at e2
  rw [Commute, e1, e2]
  refine ⟨rfl, rfl, ?_⟩
  generalize f y s.pool.isSome s.next = x at hcmds
  obtain ⟨pool, queue, calls, n⟩ := s
  have hset : (calls ++ [PCall.mk p a (.waiting (.new v body))]).set i x.call =
      calls.set i x.call ++ [⟨p, a, .waiting (.new v body)⟩] := List.set_append_left _ _ hi
  cases pool with
  | none => simp [Sys.step, Sys.call, Sys.send, Act.on, hset]
  | some q => simp [Sys.step, Sys.call, Sys.send, Act.on, hset, hcmds]

/-- **C153.** So two executions that differ in such an exchange end in the same way, and the same happens in them. -/
theorem C153_schedule (s : Sys) (l l' : List SysEvent) (e e' : SysEvent) (h : Commute (Sys.run l s).2 e e') :
    (Sys.run (l ++ e :: e' :: l') s).2 = (Sys.run (l ++ e' :: e :: l') s).2 ∧
      (Sys.run (l ++ e :: e' :: l') s).1.Perm (Sys.run (l ++ e' :: e :: l') s).1 := by
  obtain ⟨h1, h2, h3⟩ := h
  rw [sys_run_append, sys_run_append]
  generalize (Sys.run l s).2 = t at h1 h2 h3
  have e1 : Sys.run (e :: e' :: l') t = ((t.step e).1 ++ (((t.step e).2.step e').1 ++ (Sys.run l' ((t.step e).2.step e').2).1),
      (Sys.run l' ((t.step e).2.step e').2).2) := rfl
  have e2 : Sys.run (e' :: e :: l') t = ((t.step e').1 ++ (((t.step e').2.step e).1 ++ (Sys.run l' ((t.step e').2.step e).2).1),
      (Sys.run l' ((t.step e').2.step e).2).2) := rfl
  rw [e1, e2, h1, h2, h3]
  refine ⟨rfl, List.Perm.append_left _ ?_⟩
  rw [← List.append_assoc, ← List.append_assoc]
  exact List.perm_append_comm.append_right _

end

/-! ### Examples -/

namespace CommuteExamples
variable [FloatText]

private def x : Addr := ⟨1, 80, 0⟩
private def z : Addr := ⟨2, 80, 0⟩

/-- Two calls connect to two servers, and a third one waits for the pool. -/
private def evs (p : Proc) (v : Val) : List SysEvent :=
  [.call p x v [], .call p z v [], .handle 5, .handle 5, .call p x v []]

/-- One call cannot connect and the other one is dropped. -/
example (p : Proc) (v : Val) : Commute (Sys.run (evs p v) (.new 1)).2 (.poll 0 .failed) (.dropCall 1) :=
  C153_calls _ _ _ 0 1 rfl rfl (by decide) (fun h => h.2 rfl) (fun h => h.2 rfl)

/-- One call cannot connect while the pool handles the request of the third one. -/
example (p : Proc) (v : Val) : Commute (Sys.run (evs p v) (.new 1)).2 (.poll 0 .failed) (.handle 6) := by
  refine C153_pool _ 6 _ 0 rfl (fun h => by cases h) (fun y hy hw => ?_) (fun h => by cases h)
  have : (Sys.run (evs p v) (.new 1)).2.calls[0]? = some ⟨p, x, .replied (.new v []) (.connecting x)⟩ := rfl
  rw [this] at hy
  cases hy
  obtain ⟨inner, h⟩ := hw
  cases h

/-- A call is made while another one is dropped. -/
example (p : Proc) (v : Val) : Commute (Sys.run (evs p v) (.new 1)).2 (.dropCall 1) (.call p z v []) :=
  C153_new _ _ _ _ _ _ 1 rfl (by decide : 1 < 3) (fun h => h rfl)

/-- If both cannot connect the order matters: the pool is told in this order. -/
example (p : Proc) (v : Val) : ¬ Commute (Sys.run (evs p v) (.new 1)).2 (.poll 0 .failed) (.poll 1 .failed) := by
  rintro ⟨-, -, h⟩
  have h := congrArg Sys.queue h
  have h1 : (((Sys.run (evs p v) (.new 1)).2.step (.poll 0 .failed)).2.step (.poll 1 .failed)).2.queue =
    [.acquire x 2, .blacklist x, .blacklist z] := rfl
  have h2 : (((Sys.run (evs p v) (.new 1)).2.step (.poll 1 .failed)).2.step (.poll 0 .failed)).2.queue =
    [.acquire x 2, .blacklist z, .blacklist x] := rfl
  rw [h1, h2] at h
  injections
  contradiction

/-- The call that waits is another matter: polled before the pool has answered it does nothing, afterwards it connects. -/
example (p : Proc) (v : Val) : ¬ Commute (Sys.run (evs p v) (.new 1)).2 (.poll 2 .failed) (.handle 6) := by
  rintro ⟨h, -⟩
  have h1 : (((Sys.run (evs p v) (.new 1)).2.step (.handle 6)).2.step (.poll 2 .failed)).1 = [.refused 2 x] := rfl
  have h2 : ((Sys.run (evs p v) (.new 1)).2.step (.poll 2 .failed)).1 = [] := rfl
  rw [h1, h2] at h
  cases h

end CommuteExamples

end Htrpc
