/-
C152: how many connections are closed.
-/
import Verif.Spec.Closing
import Verif.Props.OpenConns
import Verif.Props.Order

namespace Htrpc
open Spec

/-! ### Counting -/

theorem openedTotal_append (es es' : List Effect) : openedTotal (es ++ es') = openedTotal es + openedTotal es' :=
  List.countP_append

theorem closedTotal_append (es es' : List Effect) : closedTotal (es ++ es') = closedTotal es + closedTotal es' :=
  List.countP_append

theorem openedTotal_closed (cs : List Conn) : openedTotal (cs.map .closed) = 0 := by
  simp [openedTotal, List.countP_map]

theorem closedTotal_closed (cs : List Conn) : closedTotal (cs.map .closed) = cs.length := by
  induction cs with
  | nil => rfl
  | cons c cs ih => simp only [closedTotal, List.map_cons, List.countP_cons] at ih ⊢; simp [ih]

theorem countP_setAt {α : Type} (f : α → Bool) (y y' : α) : ∀ (l : List α) (i : Nat), l[i]? = some y →
    (l.set i y').countP f + (if f y then 1 else 0) = l.countP f + (if f y' then 1 else 0) := by
  intro l
  induction l with
  | nil => intro i h; simp at h
  | cons z l ih =>
    intro i h
    cases i with
    | zero =>
      simp only [List.getElem?_cons_zero, Option.some.injEq] at h
      subst h
      simp only [List.set_cons_zero, List.countP_cons]
      omega
    | succ i =>
      simp only [List.getElem?_cons_succ] at h
      have := ih i h
      simp only [List.set_cons_succ, List.countP_cons]
      omega

/-- The call has a connection. -/
def holds (y : PCall) : Bool := (callConn y).isSome

theorem held_count (l : List PCall) : (l.filterMap callConn).length = l.countP holds := by
  induction l with
  | nil => rfl
  | cons y l ih =>
    rw [List.filterMap_cons, List.countP_cons]
    cases h : callConn y with
    | none => simp [holds, h, ih]
    | some c => simp [holds, h, ih]

/-- The number of open connections. -/
theorem places_count (s : Sys) :
    (places s).length = (idleConns s.pool).length + (queuedConns s.queue).length + s.calls.countP holds := by
  rw [places, List.length_append, List.length_append, held_count]

theorem queuedConns_snoc (q q' : List Cmd) : queuedConns (q ++ q') = queuedConns q ++ queuedConns q' := by
  rw [queued_conns, queued_conns, queued_conns, queued_append, List.map_append]

/-! ### Requests of calls that do not wait any more -/

def waitsSt : PCallSt → Bool
  | .waiting _ => true
  | _ => false

def waitsAt (l : List PCall) (i : Nat) : Bool :=
  match l[i]? with
  | some y => waitsSt y.st
  | none => false

/-- The number of requests in the queue whose call has been dropped. -/
def deadAsks (l : List PCall) (q : List Cmd) : Nat := (askedIds q).countP fun i => !waitsAt l i

theorem askedIds_append (q q' : List Cmd) : askedIds (q ++ q') = askedIds q ++ askedIds q' := List.filterMap_append

theorem deadAsks_congr {l l' : List PCall} {q : List Cmd} (h : ∀ i ∈ askedIds q, waitsAt l' i = waitsAt l i) :
    deadAsks l' q = deadAsks l q := by
  refine List.countP_congr fun i hi => ?_
  simp [h i hi]

theorem waitsAt_set_ne (l : List PCall) {i j : Nat} (h : j ≠ i) (y' : PCall) :
    waitsAt (l.set i y') j = waitsAt l j := by
  simp only [waitsAt, List.getElem?_set, if_neg (Ne.symm h)]

theorem waitsAt_set_same {l : List PCall} {i : Nat} {y y' : PCall} (h : l[i]? = some y)
    (hw : waitsSt y'.st = waitsSt y.st) (j : Nat) : waitsAt (l.set i y') j = waitsAt l j := by
  by_cases hj : j = i
  · subst hj
    have hlt : j < l.length := (List.getElem?_eq_some_iff.1 h).1
    simp only [waitsAt, List.getElem?_set, if_pos hlt, h]
    exact hw
  · exact waitsAt_set_ne l hj y'

/-- If a call stops waiting there is at most one such request more. -/
theorem deadAsks_set (l : List PCall) (q : List Cmd) (hn : (askedIds q).Nodup) (i : Nat) (y' : PCall) :
    deadAsks (l.set i y') q ≤ deadAsks l q + 1 := by
  unfold deadAsks
  generalize askedIds q = is at hn
  induction is with
  | nil => simp
  | cons j is ih =>
    rw [List.nodup_cons] at hn
    rw [List.countP_cons, List.countP_cons]
    by_cases hj : j = i
    · subst hj
      have : is.countP (fun i => !waitsAt (l.set j y') i) = is.countP (fun i => !waitsAt l i) := by
        refine List.countP_congr fun k hk => ?_
        have hk' : k ≠ j := fun e => hn.1 (e ▸ hk)
        rw [waitsAt_set_ne l hk']
      rw [this]
      split <;> split <;> omega
    · rw [waitsAt_set_ne l hj]
      have := ih hn.2
      omega

/-! ### Steps -/

/-- What a step does: how many connections are opened, closed and there, and why connections are closed. -/
structure Spent (size : Nat) (s : Sys) (r : List Effect × Sys) : Prop where
  alive : r.2.pool ≠ none → s.pool ≠ none
  balance : openedTotal r.1 + (places s).length = closedTotal r.1 + (places r.2).length
  lost : r.2.pool ≠ none → deadAsks r.2.calls r.2.queue + lostCalls s ≤ deadAsks s.calls s.queue + lostCalls r.2
  cause : r.2.pool ≠ none →
    deadAsks r.2.calls r.2.queue + closedTotal r.1 + lostCalls s ≤ deadAsks s.calls s.queue + lostCalls r.2 ∨
      size ≤ (places r.2).length

theorem spent_same (size : Nat) (s : Sys) : Spent size s ([], s) :=
  ⟨id, by simp [openedTotal, closedTotal], fun _ => Nat.le_refl _, fun _ => .inl (by simp [closedTotal])⟩

/-- A call that does not wait changes its state, and may send a command. -/
theorem spent_move (size : Nat) {s : Sys} {i : Nat} {y y' : PCall} (hy : s.calls[i]? = some y)
    (hw : waitsSt y.st = false) (hw' : waitsSt y'.st = false) {es : List Effect} {tail : List Cmd}
    (hasked : askedIds tail = [])
    (hb : openedTotal es + (if holds y then 1 else 0) =
      closedTotal es + (if holds y' then 1 else 0) + (queuedConns tail).length)
    (hc : s.pool ≠ none → closedTotal es + (if GaveUp y.st then 1 else 0) ≤ if GaveUp y'.st then 1 else 0) (n : Nat) :
    Spent size s (es, ⟨s.pool, s.queue ++ tail, s.calls.set i y', n⟩) := by
  have h1 := countP_setAt holds y y' s.calls i hy
  have h2 := countP_setAt (fun y => GaveUp y.st) y y' s.calls i hy
  have h3 : deadAsks (s.calls.set i y') (s.queue ++ tail) = deadAsks s.calls s.queue := by
    have e : deadAsks (s.calls.set i y') (s.queue ++ tail) = deadAsks (s.calls.set i y') s.queue := by
      rw [deadAsks, askedIds_append, hasked, List.append_nil]; rfl
    rw [e]
    exact deadAsks_congr fun j _ => waitsAt_set_same hy (hw'.trans hw.symm) j
  refine ⟨id, ?_, fun hx => ?_, fun hx => .inl ?_⟩
  · rw [places_count, places_count, queuedConns_snoc, List.length_append]
    simp only
    omega
  · have := hc hx
    simp only [h3, lostCalls]
    omega
  · have := hc hx
    simp only [h3, lostCalls]
    omega

theorem spent_drop (size : Nat) {s : Sys} (hn : (askedIds s.queue).Nodup) {i : Nat} {y y' : PCall}
    (hy : s.calls[i]? = some y) (hh : holds y = false) (hh' : holds y' = false)
    (hl : GaveUp y.st = false) (hl' : GaveUp y'.st = true) : Spent size s ([], s.setCall i y') := by
  have h1 := countP_setAt holds y y' s.calls i hy
  have h2 := countP_setAt (fun y => GaveUp y.st) y y' s.calls i hy
  have h3 := deadAsks_set s.calls s.queue hn i y'
  simp only [hh, hh', hl, hl', if_true] at h1 h2
  refine ⟨id, ?_, fun hx => ?_, fun hx => .inl ?_⟩
  · rw [places_count, places_count]
    simp only [Sys.setCall, openedTotal, closedTotal, List.countP_nil]
    omega
  · simp only [Sys.setCall, lostCalls]
    simp only [if_neg Bool.false_ne_true] at h2
    omega
  · simp only [Sys.setCall, lostCalls, closedTotal, List.countP_nil]
    simp only [if_neg Bool.false_ne_true] at h2
    omega

theorem spent_dropPool (size : Nat) (s : Sys) : Spent size s s.dropPool := by
  cases hp : s.pool with
  | none =>
    have : s.dropPool = ([], s) := by simp [Sys.dropPool, hp]
    rw [this]
    exact spent_same size s
  | some p =>
    have : s.dropPool = ((p.connections.map Prod.snd ++ queuedConns s.queue).map .closed,
      { s with pool := none, queue := [] }) := by simp [Sys.dropPool, hp]
    rw [this]
    refine ⟨fun hx => absurd rfl hx, ?_, fun hx => absurd rfl hx, fun hx => absurd rfl hx⟩
    rw [openedTotal_closed, closedTotal_closed, places_count, places_count, hp]
    simp [idleConns, queuedConns]

theorem idle_count {p : Pool} {size : Nat} {ip : IdlePool} (h : p.Like size ip) :
    (idleConns (some p)).length = ip.idle.length := by
  obtain ⟨xs, h1, h2⟩ := pool_idle h
  rw [idleConns, ← h1, List.length_map, h2.length_eq]

/-- An idle connection is in the reply. -/
def idleGiven : Pooled → Nat
  | .ready _ => 1
  | _ => 0

theorem spent_handle (size : Nat) (now : Time) {s : Sys} (hn : (askedIds s.queue).Nodup) (hl : Within size s) :
    Spent size s (s.handle now) := by
  obtain ⟨pool, queue, calls, next⟩ := s
  cases pool with
  | none => exact spent_same size _
  | some p =>
  cases queue with
  | nil => exact spent_same size _
  | cons cmd q =>
  obtain ⟨ip, hip, -⟩ := hl p rfl
  cases hs : p.step (cmd.event now) with
  | err e =>
    simp only [Sys.handle, hs]
    exact spent_dropPool size _
  | panic =>
    simp only [Sys.handle, hs]
    exact spent_dropPool size _
  | ok x =>
  obtain ⟨out, p'⟩ := x
  obtain ⟨p'', hs', hip', -⟩ := step_like' hip _ (room_of_step hs)
  rw [hs] at hs'
  cases hs'
  have e0 := idle_count hip
  have e1 := idle_count hip'
  cases cmd with
  | acquire a i =>
    obtain ⟨f, p1, ip1, g1, g2, g3, -⟩ := pool_acquire hip a now
    simp only [Cmd.event] at hs
    rw [g1] at hs
    have hq : i ∉ askedIds q ∧ (askedIds q).Nodup := List.nodup_cons.1 hn
    have g4 := idle_count g2
    have g5 : ip.idle.length = ip1.idle.length + idleGiven f := by
      cases f with
      | ready c => rw [g3.length_eq]; rfl
      | connecting b => exact (congrArg List.length g3.2).symm
      | failed => exact (congrArg List.length g3.1).symm
    have hh : (Sys.mk (some p) (.acquire a i :: q) calls next).handle now =
        (Sys.mk (some p1) q calls next).reply i a f := by
      simp only [Sys.handle, Cmd.event, g1]
    rw [hh]
    have ha : askedIds (.acquire a i :: q) = i :: askedIds q := rfl
    have hqc : queuedConns (.acquire a i :: q) = queuedConns q := rfl
    unfold Sys.reply
    split
    · rename_i pr b inner hy
      have hy' : calls[i]? = some ⟨pr, b, .waiting inner⟩ := hy
      have h1 := countP_setAt holds ⟨pr, b, .waiting inner⟩ ⟨pr, b, .replied inner f⟩ calls i hy'
      have h2 := countP_setAt (fun y => GaveUp y.st) ⟨pr, b, .waiting inner⟩ ⟨pr, b, .replied inner f⟩ calls i hy'
      have h3 : deadAsks (calls.set i ⟨pr, b, .replied inner f⟩) q = deadAsks calls q := by
        refine deadAsks_congr fun j hj => waitsAt_set_ne calls (fun e => ?_) _
        subst e
        exact hq.1 hj
      have h4 : deadAsks calls (.acquire a i :: q) = deadAsks calls q := by
        rw [deadAsks, ha, List.countP_cons]
        have : waitsAt calls i = true := by simp [waitsAt, hy', waitsSt]
        simp [this, deadAsks]
      suffices key : ∀ es, closedTotal es = 0 → openedTotal es = 0 → Spent size ⟨some p, .acquire a i :: q, calls, next⟩
          (es, (Sys.mk (some p1) q calls next).setCall i ⟨pr, b, .replied inner f⟩) by
        refine key _ ?_ ?_ <;> cases f <;> rfl
      intro es h5 h6
      have h7 : (calls.set i ⟨pr, b, .replied inner f⟩).countP (fun y => GaveUp y.st) =
          calls.countP (fun y => GaveUp y.st) := h2
      have h8 : (calls.set i ⟨pr, b, .replied inner f⟩).countP holds =
          calls.countP holds + idleGiven f := by
        cases f <;> exact h1
      refine ⟨fun _ => by simp, ?_, fun hx => ?_, fun hx => .inl ?_⟩
      · simp only
        rw [h5, h6, places_count, places_count]
        simp only [Sys.setCall, hqc, e0, g4, h8]
        omega
      · simp only [Sys.setCall, lostCalls, h3, h4, h7]
        omega
      · simp only
        rw [h5]
        simp only [Sys.setCall, lostCalls, h3, h4, h7]
        omega
    · rename_i hno
      have h4 : deadAsks calls (.acquire a i :: q) = deadAsks calls q + 1 := by
        rw [deadAsks, ha, List.countP_cons]
        have : waitsAt calls i = false := by
          cases hy : calls[i]? with
          | none => simp [waitsAt, hy]
          | some y =>
            obtain ⟨pr, b, st⟩ := y
            cases st with
            | waiting inner => exact absurd hy (hno pr b inner)
            | _ => simp [waitsAt, hy, waitsSt]
        simp [this, deadAsks]
      suffices key : ∀ es, closedTotal es = idleGiven f → openedTotal es = 0 →
          Spent size ⟨some p, .acquire a i :: q, calls, next⟩ (es, Sys.mk (some p1) q calls next) by
        refine key _ ?_ ?_ <;> cases f <;> rfl
      intro es h5 h6
      refine ⟨fun _ => by simp, ?_, fun hx => ?_, fun hx => .inl ?_⟩
      · simp only
        rw [h5, h6, places_count, places_count]
        simp only [hqc, e0, g4]
        omega
      · simp only [lostCalls, h4]
        omega
      · simp only
        rw [h5]
        simp only [lostCalls, h4]
        have : idleGiven f ≤ 1 := by cases f <;> simp [idleGiven]
        omega
  | release a c =>
    have hh : (Sys.mk (some p) (.release a c :: q) calls next).handle now =
        ((((ip.idle ++ [(a, c)]).take ((ip.idle ++ [(a, c)]).length - size)).map Prod.snd).map .closed,
          Sys.mk (some p') q calls next) := by
      simp only [Sys.handle, hs]
      rfl
    have e2 : (ip.step size (Cmd.event now (.release a c))).2.idle =
      (ip.idle ++ [(a, c)]).drop ((ip.idle ++ [(a, c)]).length - size) := rfl
    rw [e2] at e1
    rw [hh]
    have h4 : deadAsks calls (.release a c :: q) = deadAsks calls q := rfl
    have hqc : (queuedConns (.release a c :: q)).length = (queuedConns q).length + 1 := rfl
    rw [List.length_drop, List.length_append, List.length_singleton] at e1
    refine ⟨fun _ => by simp, ?_, fun hx => ?_, fun hx => ?_⟩
    · rw [openedTotal_closed, closedTotal_closed, places_count, places_count]
      simp only [hqc, e0, e1, List.length_map, List.length_take, List.length_append, List.length_singleton]
      omega
    · exact Nat.le_of_eq rfl
    · rw [closedTotal_closed, places_count]
      simp only [e1, List.length_map, List.length_take, List.length_append, List.length_singleton, h4, lostCalls]
      omega
  | blacklist a =>
    have hh : (Sys.mk (some p) (.blacklist a :: q) calls next).handle now =
        ([.reported a], Sys.mk (some p') q calls next) := by
      simp only [Sys.handle, hs]
    have e2 : (ip.step size (Cmd.event now (.blacklist a))).2.idle = ip.idle := rfl
    rw [e2] at e1
    rw [hh]
    refine ⟨fun _ => by simp, ?_, fun hx => Nat.le_of_eq rfl, fun hx => .inl (Nat.le_of_eq rfl)⟩
    rw [places_count, places_count]
    simp only [e0, e1]
    rfl

theorem spent_set (size : Nat) {s : Sys} {i : Nat} {y y' : PCall} (hy : s.calls[i]? = some y)
    (hw : waitsSt y.st = false) (hw' : waitsSt y'.st = false) {es : List Effect}
    (hb : openedTotal es + (if holds y then 1 else 0) = closedTotal es + (if holds y' then 1 else 0))
    (hc : s.pool ≠ none → closedTotal es + (if GaveUp y.st then 1 else 0) ≤ if GaveUp y'.st then 1 else 0) (n : Nat) :
    Spent size s (es, ⟨s.pool, s.queue, s.calls.set i y', n⟩) := by
  have := spent_move size hy hw hw' (es := es) (tail := []) rfl hb hc n
  rwa [List.append_nil] at this

section
variable [FloatText]

omit [FloatText] in
theorem spent_settle (size : Nat) {s : Sys} {i : Nat} {y : PCall} (hy : s.calls[i]? = some y)
    (hw : waitsSt y.st = false) (hg : GaveUp y.st = false) (c : Conn) (inner : CallInner) (o : CallOutcome)
    {pre : List Effect} (ho : openedTotal pre + (if holds y then 1 else 0) = 1) (hc : closedTotal pre = 0) (n : Nat) :
    Spent size s (pre ++ (Sys.settle i y c inner { s with next := n } o).1, (Sys.settle i y c inner { s with next := n } o).2) := by
  have e0 : ∀ c : Conn, openedTotal [.closed c] = 0 := fun _ => rfl
  have e1 : ∀ c : Conn, closedTotal [.closed c] = 1 := fun _ => rfl
  have a1 : ∀ c inner, (if holds { y with st := .active c inner } then 1 else 0) = 1 := fun _ _ => rfl
  have a2 : ∀ v b, (if holds { y with st := .done v b } then 1 else 0) = 0 := fun _ _ => rfl
  cases o with
  | pending =>
    simp only [Sys.settle, Sys.setCall, List.append_nil]
    refine spent_set size hy hw rfl ?_ (fun _ => ?_) n
    · rw [a1]; omega
    · simp [hc, hg]
  | next inner' =>
    simp only [Sys.settle, Sys.setCall, List.append_nil]
    refine spent_set size hy hw rfl ?_ (fun _ => ?_) n
    · rw [a1]; omega
    · simp [hc, hg]
  | failed k =>
    simp only [Sys.settle, Sys.setCall]
    refine spent_set size hy hw rfl ?_ (fun _ => ?_) n
    · rw [openedTotal_append, closedTotal_append, e0, e1]
      show _ = _ + 0
      omega
    · rw [closedTotal_append, e1, hc, hg]; exact Nat.le_refl _
  | panicked =>
    simp only [Sys.settle, Sys.setCall]
    refine spent_set size hy hw rfl ?_ (fun _ => ?_) n
    · rw [openedTotal_append, closedTotal_append, e0, e1]
      show _ = _ + 0
      omega
    · rw [closedTotal_append, e1, hc, hg]; exact Nat.le_refl _
  | ready v body =>
    have f0 : ∀ es, openedTotal (.returned i y.addr c :: es) = openedTotal es := fun _ => by simp [openedTotal]
    have f1 : ∀ es, closedTotal (.returned i y.addr c :: es) = closedTotal es := fun _ => by simp [closedTotal]
    cases hp : s.pool with
    | none =>
      simp only [Sys.settle, Sys.setCall, Sys.send]
      rw [← hp]
      refine spent_set size hy hw rfl ?_ (fun h => absurd hp h) n
      rw [openedTotal_append, closedTotal_append, f0, f1, e0, e1, a2]
      omega
    | some p =>
      simp only [Sys.settle, Sys.setCall, Sys.send]
      rw [← hp]
      refine spent_move size hy hw rfl rfl ?_ (fun h => ?_) n
      · rw [openedTotal_append, closedTotal_append, f0, f1, a2]
        simp only [openedTotal, closedTotal, List.countP_nil] at ho hc ⊢
        simp only [queuedConns, List.length_singleton]
        omega
      · rw [closedTotal_append, f1, hc]; simp [hg, closedTotal]

theorem spent_poll (size : Nat) (i : Nat) (r : IoResult) (s : Sys) : Spent size s (s.poll i r) := by
  unfold Sys.poll
  split
  · exact spent_same size s
  · rename_i y hy
    have hh : ∀ st, y.st = st → holds y = holds { y with st := st } := by
      rintro st rfl; rfl
    split
    · rename_i inner hst
      split
      · exact spent_same size s
      · rename_i hp
        have b1 : holds y = false := hh _ hst
        have h1 := countP_setAt holds y { y with st := .failed .other } s.calls i hy
        refine ⟨fun hx => absurd hp hx, ?_, fun hx => absurd hp hx, fun hx => absurd hp hx⟩
        rw [places_count, places_count]
        rw [b1] at h1
        have h2 : (s.calls.set i { y with st := .failed .other }).countP holds = s.calls.countP holds := h1
        simp only [Sys.setCall, h2]
        rfl
    · rename_i inner c hst
      have b1 : holds y = true := hh _ hst
      exact spent_settle size (pre := []) hy (by rw [hst]; rfl) (by rw [hst]; rfl) c inner _ (by rw [b1]; rfl) rfl s.next
    · rename_i inner hst
      have b1 : holds y = false := hh _ hst
      exact spent_set size hy (by rw [hst]; rfl) rfl (by rw [b1]; rfl) (fun _ => by rw [hst]; exact Nat.zero_le _) s.next
    · rename_i inner a hst
      have b1 : holds y = false := hh _ hst
      split
      · exact spent_settle size (pre := [.opened i a s.next]) hy (by rw [hst]; rfl) (by rw [hst]; rfl) s.next inner _
          (by rw [b1]; rfl) rfl (s.next + 1)
      · cases hp : s.pool with
        | none =>
          simp only [Sys.setCall, Sys.send, hp]
          rw [← hp]
          exact spent_set size hy (by rw [hst]; rfl) rfl (by rw [b1]; rfl) (fun h => absurd hp h) s.next
        | some p =>
          simp only [Sys.setCall, Sys.send, hp]
          rw [← hp]
          exact spent_move size hy (by rw [hst]; rfl) rfl rfl (by rw [b1]; rfl)
            (fun _ => by rw [hst]; exact Nat.zero_le _) s.next
      · exact spent_same size s
    · rename_i c inner hst
      have b1 : holds y = true := hh _ hst
      exact spent_settle size (pre := [.io i c]) hy (by rw [hst]; rfl) (by rw [hst]; rfl) c inner _ (by rw [b1]; rfl) rfl s.next
    · exact spent_same size s

omit [FloatText] in
theorem spent_dropCall (size : Nat) (i : Nat) {s : Sys} (hn : (askedIds s.queue).Nodup) : Spent size s (s.dropCall i) := by
  unfold Sys.dropCall
  split
  · exact spent_same size s
  · rename_i y hy
    have hh : ∀ st, y.st = st → holds y = holds { y with st := st } := by
      rintro st rfl; rfl
    split
    · rename_i inner hst
      exact spent_drop size hn hy (hh _ hst) rfl (by rw [hst]; rfl) rfl
    · rename_i inner c hst
      have b1 : holds y = true := hh _ hst
      exact spent_set size hy (by rw [hst]; rfl) rfl (by rw [b1]; rfl) (fun _ => by rw [hst]; exact Nat.le_refl _) s.next
    · rename_i inner f hne hst
      have b1 : holds y = false := by
        cases f with
        | ready c => exact absurd rfl (hne c)
        | _ => exact hh _ hst
      exact spent_set size hy (by rw [hst]; rfl) rfl (by rw [b1]; rfl) (fun _ => by rw [hst]; exact Nat.zero_le _) s.next
    · rename_i c inner hst
      have b1 : holds y = true := hh _ hst
      exact spent_set size hy (by rw [hst]; rfl) rfl (by rw [b1]; rfl) (fun _ => by rw [hst]; exact Nat.le_refl _) s.next
    · exact spent_same size s

omit [FloatText] in
theorem spent_call (size : Nat) (p : Proc) (a : Addr) (v : Val) (body : Bytes) {s : Sys}
    (hlt : ∀ i ∈ askedIds s.queue, i < s.calls.length) : Spent size s ([], s.call p a v body) := by
  have h1 : (s.calls ++ [PCall.mk p a (.waiting (.new v body))]).countP holds = s.calls.countP holds := by
    rw [List.countP_append]; rfl
  have h2 : (s.calls ++ [PCall.mk p a (.waiting (.new v body))]).countP (fun y => GaveUp y.st) =
      s.calls.countP (fun y => GaveUp y.st) := by
    rw [List.countP_append]; rfl
  cases hp : s.pool with
  | none =>
    have e : s.call p a v body = { s with calls := s.calls ++ [⟨p, a, .waiting (.new v body)⟩] } := by
      simp [Sys.call, Sys.send, hp]
    rw [e]
    refine ⟨fun hx => absurd hp hx, ?_, fun hx => absurd hp hx, fun hx => absurd hp hx⟩
    rw [places_count, places_count]
    simp only [h1]
    rfl
  | some q =>
    have e : s.call p a v body =
        ⟨s.pool, s.queue ++ [.acquire a s.calls.length], s.calls ++ [⟨p, a, .waiting (.new v body)⟩], s.next⟩ := by
      simp [Sys.call, Sys.send, hp]
    rw [e]
    have h3 : deadAsks (s.calls ++ [⟨p, a, .waiting (.new v body)⟩]) (s.queue ++ [.acquire a s.calls.length]) =
        deadAsks s.calls s.queue := by
      have e1 : askedIds (s.queue ++ [.acquire a s.calls.length]) = askedIds s.queue ++ [s.calls.length] :=
        askedIds_append _ _
      have e2 : waitsAt (s.calls ++ [⟨p, a, .waiting (.new v body)⟩]) s.calls.length = true := by
        simp [waitsAt, waitsSt]
      rw [deadAsks, e1, List.countP_append, List.countP_singleton, e2]
      refine (deadAsks_congr (l := s.calls) fun i hi => ?_)
      rw [waitsAt, waitsAt, List.getElem?_append_left (hlt i hi)]
    refine ⟨id, ?_, fun hx => ?_, fun hx => .inl ?_⟩
    · rw [places_count, places_count, queuedConns_snoc]
      simp only [h1, queuedConns, List.append_nil]
      rfl
    · simp only [h3, lostCalls, h2]; omega
    · simp only [h3, lostCalls, h2]; exact Nat.le_refl _

theorem spent_step (size : Nat) {s : Sys} (hw : Within size s) (hn : (askedIds s.queue).Nodup)
    (hlt : ∀ i ∈ askedIds s.queue, i < s.calls.length) (e : SysEvent) : Spent size s (s.step e) := by
  cases e with
  | call p a v body => exact spent_call size p a v body hlt
  | handle now => exact spent_handle size now hn hw
  | setSuspended d =>
    refine ⟨fun hx h => hx (by simp [Sys.step, h]), ?_, fun _ => Nat.le_of_eq rfl, fun _ => .inl (Nat.le_of_eq rfl)⟩
    rw [places_count, places_count]
    have : (idleConns (s.pool.map (·.setSuspended d))).length = (idleConns s.pool).length := by
      cases s.pool <;> rfl
    simp only [Sys.step, this]
    rfl
  | dropPool => exact spent_dropPool size s
  | poll i r => exact spent_poll size i r s
  | dropCall i => exact spent_dropCall size i hn

/-- The accounts of an execution. -/
structure Accounts (size : Nat) (es : List Effect) (s : Sys) : Prop where
  balance : openedTotal es = closedTotal es + (places s).length
  lost : s.pool ≠ none → deadAsks s.calls s.queue ≤ lostCalls s
  cause : s.pool ≠ none → deadAsks s.calls s.queue + closedTotal es ≤ lostCalls s + (openedTotal es - size)

theorem accounts_run (size : Nat) (evs : List SysEvent) :
    Accounts size (Sys.run evs (.new size)).1 (Sys.run evs (.new size)).2 := by
  induction evs using List.reverseRecOn with
  | nil => exact ⟨rfl, fun _ => Nat.le_refl _, fun _ => Nat.zero_le _⟩
  | append_singleton evs e ih =>
    have hw : Within size (Sys.run evs (.new size)).2 := by
      refine within_run evs fun p hp => ?_
      cases hp
      exact ⟨_, new_like size, Nat.zero_le _⟩
    obtain ⟨m, hr⟩ := ranked_run size evs
    have hinv := (reach_inv size evs).pool
    have hids : (askedIds (Sys.run evs (.new size)).2.queue).Nodup ∧
        ∀ i ∈ askedIds (Sys.run evs (.new size)).2.queue, i < (Sys.run evs (.new size)).2.calls.length := by
      cases hp : (Sys.run evs (.new size)).2.pool with
      | none =>
        rw [hp] at hinv
        rw [hinv.1]
        exact ⟨.nil, fun i hi => nomatch hi⟩
      | some p =>
        rw [hr.asked p hp]
        refine ⟨List.nodup_range', fun i hi => ?_⟩
        rw [List.mem_range'_1] at hi
        omega
    have hs := spent_step size hw hids.1 hids.2 e
    rw [sys_run_append]
    have e1 : Sys.run [e] (Sys.run evs (.new size)).2 = ((Sys.run evs (.new size)).2.step e) := by
      simp [Sys.run]
    rw [e1]
    obtain ⟨i1, i2, i3⟩ := ih
    obtain ⟨s1, s2, s3, s4⟩ := hs
    refine ⟨?_, fun hx => ?_, fun hx => ?_⟩
    · rw [openedTotal_append, closedTotal_append]
      simp only
      omega
    · have := i2 (s1 hx)
      have := s3 hx
      simp only
      omega
    · have j1 := i2 (s1 hx)
      have j2 := i3 (s1 hx)
      have j3 := s3 hx
      simp only [openedTotal_append, closedTotal_append]
      rcases s4 hx with h | h <;> omega

/-- **C152.** As long as a pool lives, connections are closed only because calls failed or were dropped, one for each,
or because more of them were opened than the pool may keep. -/
theorem C152_closed (size : Nat) (evs : List SysEvent) (h : (Sys.run evs (.new size)).2.pool ≠ none) :
    closedTotal (Sys.run evs (.new size)).1 ≤
      lostCalls (Sys.run evs (.new size)).2 + (openedTotal (Sys.run evs (.new size)).1 - size) := by
  have := (accounts_run size evs).cause h
  omega

/-- **C152.** So if all calls that ended got a response and not more connections were opened than the pool may keep,
they all are still open. -/
theorem C152_kept (size : Nat) (evs : List SysEvent) (h : (Sys.run evs (.new size)).2.pool ≠ none)
    (hl : ∀ y ∈ (Sys.run evs (.new size)).2.calls, GaveUp y.st = false)
    (ho : openedTotal (Sys.run evs (.new size)).1 ≤ size) : ∀ c, .closed c ∉ (Sys.run evs (.new size)).1 := by
  intro c hc
  have h1 := C152_closed size evs h
  have h2 : lostCalls (Sys.run evs (.new size)).2 = 0 :=
    List.countP_eq_zero.2 fun y hy => by simp [hl y hy]
  have h3 : 0 < closedTotal (Sys.run evs (.new size)).1 := List.countP_pos_iff.2 ⟨_, hc, rfl⟩
  omega

/-- **C152.** At any time, also after the end of the pool, the connections that were opened are those that were closed
and those that are somewhere: idle, on their way back, or with a call. -/
theorem C152_balance (size : Nat) (evs : List SysEvent) :
    openedTotal (Sys.run evs (.new size)).1 =
      closedTotal (Sys.run evs (.new size)).1 + (places (Sys.run evs (.new size)).2).length :=
  (accounts_run size evs).balance

end

/-! ### Examples -/

set_option linter.unusedSimpArgs false

namespace ClosingExamples

/-- A call completes, and another one is dropped before the pool has handled its request: the idle connection, which the
pool gives away nonetheless, is closed.  So the bound is reached. -/
private def evs : List SysEvent :=
  exEvents.take 8 ++ [.call exProc exA exCallArgs [1], .dropCall 1, .handle 1, .handle 2]

example : letI := toyFloat
    ∃ log s, Sys.run evs (.new 3) = (log, s) ∧ s.pool ≠ none ∧ closedTotal log = 1 ∧ lostCalls s = 1 ∧
      openedTotal log = 1 := by
  let := toyFloat
  obtain ⟨r, hr⟩ := exCall_sent [1]
  have hd : deResponse exProc.resTy 404 [] = .ok (.unitVariant "NotFound".toList) := rfl
  have hm : exProc.method ≠ .head := by decide
  refine ⟨_, _, rfl, ?_⟩
  simp [evs, exEvents, Sys.run, Sys.step, Sys.call, Sys.send, Sys.new, Sys.poll, Sys.handle,
    Cmd.event, Pool.step, Pool.handleAcquire, Pool.acquire, Pool.withSize, BTreeMap.firstFrom,
    Sys.reply, Sys.setCall, CallInner.new, hr, Sys.settle, callStep, callDecode, hd, hm, Pool.release,
    BTreeMap.insert, BTreeMap.remove, Pool.dropExceeded, ConnId.lt, natLt, exA,
    Sys.dropCall, closedTotal, openedTotal, lostCalls, GaveUp, List.countP_cons]

/-- A pool that keeps nothing closes the connection of a call that completes. -/
example : letI := toyFloat
    ∃ log s, Sys.run (exEvents.take 8 ++ [.handle 1]) (.new 0) = (log, s) ∧ s.pool ≠ none ∧ closedTotal log = 1 ∧
      lostCalls s = 0 ∧ openedTotal log = 1 := by
  let := toyFloat
  obtain ⟨r, hr⟩ := exCall_sent [1]
  have hd : deResponse exProc.resTy 404 [] = .ok (.unitVariant "NotFound".toList) := rfl
  have hm : exProc.method ≠ .head := by decide
  refine ⟨_, _, rfl, ?_⟩
  simp [exEvents, Sys.run, Sys.step, Sys.call, Sys.send, Sys.new, Sys.poll, Sys.handle,
    Cmd.event, Pool.step, Pool.handleAcquire, Pool.acquire, Pool.withSize, BTreeMap.firstFrom,
    Sys.reply, Sys.setCall, CallInner.new, hr, Sys.settle, callStep, callDecode, hd, hm, Pool.release,
    BTreeMap.insert, BTreeMap.remove, Pool.dropExceeded, ConnId.lt, natLt, exA,
    closedTotal, openedTotal, lostCalls, GaveUp, List.countP_cons]

/-- `C152_kept`: a connection is opened, put back and kept. -/
example : letI := toyFloat
    ∃ log s, Sys.run (exEvents.take 8 ++ [.handle 1]) (.new 1) = (log, s) ∧ s.pool ≠ none ∧
      (∀ y ∈ s.calls, GaveUp y.st = false) ∧ openedTotal log = 1 ∧ (places s).length = 1 := by
  let := toyFloat
  obtain ⟨r, hr⟩ := exCall_sent [1]
  have hd : deResponse exProc.resTy 404 [] = .ok (.unitVariant "NotFound".toList) := rfl
  have hm : exProc.method ≠ .head := by decide
  refine ⟨_, _, rfl, ?_⟩
  simp [exEvents, Sys.run, Sys.step, Sys.call, Sys.send, Sys.new, Sys.poll, Sys.handle,
    Cmd.event, Pool.step, Pool.handleAcquire, Pool.acquire, Pool.withSize, BTreeMap.firstFrom,
    Sys.reply, Sys.setCall, CallInner.new, hr, Sys.settle, callStep, callDecode, hd, hm, Pool.release,
    BTreeMap.insert, BTreeMap.remove, Pool.dropExceeded, ConnId.lt, natLt, exA,
    openedTotal, GaveUp, List.countP_cons, places, idleConns, queuedConns, callConn]

end ClosingExamples

end Htrpc
