/-
What goes over the connections of a pool: the invariant.
-/
import Verif.Spec.Turns
import Verif.Props.PoolSystem
import Verif.Props.Request

namespace Htrpc
open Spec

/-! ### Lists -/

theorem onConn_append (c : Conn) (w w' : List (Conn × WireStep)) :
    onConn c (w ++ w') = onConn c w ++ onConn c w' := List.filterMap_append

theorem onConn_other {c : Conn} {w : List (Conn × WireStep)} (h : ∀ x ∈ w, x.1 ≠ c) :
    onConn c w = [] := by
  rw [onConn, List.filterMap_eq_nil_iff]
  intro x hx
  rw [if_neg (h x hx)]

theorem onConn_one (c : Conn) (x : WireStep) : onConn c [(c, x)] = [x] := by
  simp [onConn]

theorem Spec.InTurn.turns {l : List WireStep} (h : InTurn l) : Turns l :=
  ⟨l, [], [.sends 0 ⟨.head, [], [], []⟩, .sent 0, .head 0 0 []], 0, by simp, h, .head rfl⟩

/-! ### Where connections can come from -/

theorem after_pool (c : Conn) (l : List Effect) (pl : Option Place)
    (h : l.foldl (Place.after c) pl = some .pool) :
    pl = some .pool ∨ ∃ i a, .returned i a c ∈ l := by
  induction l generalizing pl with
  | nil => exact .inl h
  | cons e l ih =>
    rw [List.foldl_cons] at h
    rcases ih _ h with h1 | ⟨i, a, h1⟩
    · cases e with
      | returned i a d =>
        by_cases hd : d = c
        · subst hd; exact .inr ⟨i, a, List.mem_cons_self ..⟩
        · simp only [Place.after, if_neg hd] at h1; exact .inl h1
      | opened i a d | took i a d =>
        left
        simp only [Place.after] at h1
        split at h1
        · split at h1 <;> cases h1
        · exact h1
      | io i d =>
        left
        simp only [Place.after] at h1
        split at h1
        · split at h1
          · exact h1
          · cases h1
        · exact h1
      | closed d =>
        left
        simp only [Place.after] at h1
        split at h1
        · split at h1 <;> cases h1
        · exact h1
      | refused i a | reported a => exact .inl h1
    · exact .inr ⟨i, a, List.mem_cons_of_mem _ h1⟩

theorem life_pool {c : Conn} {log es : List Effect} (h : life c (log ++ es) = some .pool) :
    life c log = some .pool ∨ ∃ i a, .returned i a c ∈ es := by
  rw [life_append] at h
  exact after_pool _ _ _ h

theorem life_unborn {c : Conn} {log es : List Effect} (h : life c (log ++ es) = some .unborn) :
    life c log = some .unborn ∧ ∀ i a, .opened i a c ∉ es := by
  rw [life_append] at h
  exact (opened_of_after c es _ (by rw [h]; simp)).1 h

theorem life_took {c : Conn} {log : List Effect} {i : Nat} {a : Addr}
    (h : life c (log ++ [.took i a c]) ≠ none) : life c log = some .pool := by
  rw [life_snoc] at h
  simp only [Place.after] at h
  by_cases hp : life c log = some .pool
  · exact hp
  · simp [hp] at h

/-! ### The connections -/

/-- What went over the connection of a call in this phase. -/
def During (i : Nat) (p : Proc) (l : List WireStep) : CallPhase → Prop
  | .connect => False
  | .write r => r.method = p.method ∧ ∃ E, InTurn E ∧ l = E ++ [.sends i r]
  | .readHead => ∃ r E, r.method = p.method ∧ InTurn E ∧ l = E ++ [.sends i r, .sent i]
  | .readBody code hs => ∃ r E, r.method = p.method ∧ p.method ≠ .head ∧ InTurn E ∧
      l = E ++ [.sends i r, .sent i, .head i code hs]

theorem During.turns {i : Nat} {p : Proc} {l : List WireStep} {ph : CallPhase}
    (h : During i p l ph) : Turns l := by
  have key : ∀ (r : Request) (x : List WireStep) (E : List WireStep), InTurn E →
      (∃ rest, [.sends i r, .sent i, .head i 0 []] = x ++ rest) → Turns (E ++ x) := by
    rintro r x E hE ⟨rest, he⟩
    by_cases hm : r.method = .head
    · exact ⟨E, x, rest, i, rfl, hE, by rw [← he]; exact .head hm⟩
    · exact ⟨E, x, rest ++ [.body i []], i, rfl, hE, by
        rw [← List.append_assoc, ← he]; exact .full hm⟩
  cases ph with
  | connect => exact h.elim
  | write r =>
    obtain ⟨-, E, hE, rfl⟩ := h
    exact key r _ E hE ⟨[.sent i, .head i 0 []], rfl⟩
  | readHead =>
    obtain ⟨r, E, -, hE, rfl⟩ := h
    exact key r _ E hE ⟨[.head i 0 []], rfl⟩
  | readBody code hs =>
    obtain ⟨r, E, h1, h2, hE, rfl⟩ := h
    exact ⟨E, _, [.body i []], i, rfl, hE, .full (by rw [h1]; exact h2)⟩

namespace Sys

structure WireInv (W : List (Conn × WireStep)) (log : List Effect) (s : Sys) : Prop where
  free : ∀ c, life c log = some .pool → InTurn (onConn c W)
  unborn : ∀ c, life c log = some .unborn → onConn c W = []
  given : ∀ (i : Nat) (y : PCall) (inner : CallInner) (c : Conn), s.calls[i]? = some y →
    y.st = .replied inner (.ready c) →
    InTurn (onConn c W)
  active : ∀ (i : Nat) (y : PCall) (inner : CallInner) (c : Conn), s.calls[i]? = some y →
    y.st = .active c inner →
    During i y.proc (onConn c W) inner.phase
  any : ∀ c, Turns (onConn c W)

theorem calls_set {s : Sys} {i j : Nat} {y y' z : PCall} (hy : s.calls[i]? = some y)
    (h : (s.calls.set i y')[j]? = some z) : (j = i ∧ z = y') ∨ (j ≠ i ∧ s.calls[j]? = some z) := by
  rw [List.getElem?_set] at h
  by_cases hij : i = j
  · subst hij
    rw [if_pos rfl, if_pos (lt_of_some hy)] at h
    exact .inl ⟨rfl, (Option.some.inj h).symm⟩
  · rw [if_neg hij] at h
    exact .inr ⟨Ne.symm hij, h⟩

/-- The state of call `i` changes, and `w` goes over connections that no other call has. -/
theorem WireInv.change {W w : List (Conn × WireStep)} {log es : List Effect} {s s' : Sys}
    (h : WireInv W log s) {i : Nat} {y : PCall} {st : PCallSt} (hy : s.calls[i]? = some y)
    (hs : s'.calls = s.calls.set i { y with st := st })
    (hfree : ∀ c, life c (log ++ es) = some .pool →
      (life c log = some .pool ∧ ∀ x ∈ w, x.1 ≠ c) ∨ InTurn (onConn c (W ++ w)))
    (hunborn : ∀ c, life c (log ++ es) = some .unborn → life c log = some .unborn ∧
      ∀ x ∈ w, x.1 ≠ c)
    (hother : ∀ j c, j ≠ i → s.hold j = some c → ∀ x ∈ w, x.1 ≠ c)
    (hgiven : ∀ inner c, st = .replied inner (.ready c) → InTurn (onConn c (W ++ w)))
    (hactive : ∀ inner c, st = .active c inner → During i y.proc (onConn c (W ++ w)) inner.phase)
    (hany : ∀ c, (∀ x ∈ w, x.1 ≠ c) ∨ Turns (onConn c (W ++ w))) :
    WireInv (W ++ w) (log ++ es) s' := by
  have same : ∀ {c}, (∀ x ∈ w, x.1 ≠ c) → onConn c (W ++ w) = onConn c W := by
    intro c hc
    rw [onConn_append, onConn_other hc, List.append_nil]
  refine ⟨fun c hc => ?_, fun c hc => ?_, fun j z inner c hj hz => ?_, fun j z inner c hj hz => ?_,
    fun c => ?_⟩
  · rcases hfree c hc with ⟨h1, h2⟩ | h1
    · rw [same h2]; exact h.free c h1
    · exact h1
  · obtain ⟨h1, h2⟩ := hunborn c hc
    rw [same h2]
    exact h.unborn c h1
  · rw [hs] at hj
    rcases calls_set hy hj with ⟨rfl, rfl⟩ | ⟨hne, hj⟩
    · exact hgiven inner c hz
    · rw [same (hother j c hne (by rw [hold_of hj, hz]; rfl))]
      exact h.given j z inner c hj hz
  · rw [hs] at hj
    rcases calls_set hy hj with ⟨rfl, rfl⟩ | ⟨hne, hj⟩
    · exact hactive inner c hz
    · rw [same (hother j c hne (by rw [hold_of hj, hz]; rfl))]
      exact h.active j z inner c hj hz
  · rcases hany c with h1 | h1
    · rw [same h1]; exact h.any c
    · exact h1

/-- Nothing goes over connections, and no call gets or uses one. -/
theorem WireInv.quiet {W : List (Conn × WireStep)} {log es : List Effect} {s s' : Sys}
    (h : WireInv W log s) (hr : ∀ i a c, .returned i a c ∉ es)
    (hs : ∀ (i : Nat) (y : PCall), s'.calls[i]? = some y → s.calls[i]? = some y ∨ holdOf y.st = none) :
    WireInv W (log ++ es) s' := by
  refine ⟨fun c hc => ?_, fun c hc => h.unborn c (life_unborn hc).1, ?_, ?_, h.any⟩
  · rcases life_pool hc with h1 | ⟨i, a, h1⟩
    · exact h.free c h1
    · exact absurd h1 (hr i a c)
  · intro i y inner c hy hst
    rcases hs i y hy with h1 | h1
    · exact h.given i y inner c h1 hst
    · rw [hst] at h1; cases h1
  · intro i y inner c hy hst
    rcases hs i y hy with h1 | h1
    · exact h.active i y inner c h1 hst
    · rw [hst] at h1; cases h1

theorem set_quiet {s : Sys} {i : Nat} {y : PCall} {st : PCallSt} (hy : s.calls[i]? = some y)
    (hst : holdOf st = none) (j : Nat) (z : PCall)
    (h : (s.setCall i { y with st := st }).calls[j]? = some z) :
    s.calls[j]? = some z ∨ holdOf z.st = none := by
  rcases calls_set hy h with ⟨rfl, rfl⟩ | ⟨-, h⟩
  · exact .inr hst
  · exact .inl h

/-- A round of a call that has the connection `c`. -/
theorem WireInv.settle {W w : List (Conn × WireStep)} {log pre : List Effect} {s s0 : Sys}
    (h : WireInv W log s) (hc0 : s0.calls = s.calls) {i : Nat} {y : PCall} {c : Conn}
    (hy : s.calls[i]? = some y)
    (hw : ∀ x ∈ w, x.1 = c) (inner : CallInner) (o : CallOutcome)
    (hlife : life c log ≠ some .pool)
    (hun : life c log = some .unborn → ∃ a, .opened i a c ∈ pre)
    (hpre : ∀ j a d, .returned j a d ∉ pre)
    (hother : ∀ j, j ≠ i → s.hold j ≠ some c)
    (hpend : o = .pending → During i y.proc (onConn c (W ++ w)) inner.phase)
    (hnext : ∀ inner', o = .next inner' → During i y.proc (onConn c (W ++ w)) inner'.phase)
    (hready : ∀ v b, o = .ready v b → InTurn (onConn c (W ++ w)))
    (hany : Turns (onConn c (W ++ w))) :
    WireInv (W ++ w) (log ++ (pre ++ (s0.settle i y c inner o).1)) (s0.settle i y c inner o).2 := by
  have hwo : ∀ d, d ≠ c → ∀ x ∈ w, x.1 ≠ d := by
    intro d hd x hx
    rw [hw x hx]
    exact Ne.symm hd
  have hunb : ∀ es d, life d (log ++ (pre ++ es)) = some .unborn → life d log = some .unborn ∧
      ∀ x ∈ w, x.1 ≠ d := by
    intro es d hd
    obtain ⟨h1, h2⟩ := life_unborn hd
    refine ⟨h1, ?_⟩
    by_cases hdc : d = c
    · subst hdc
      obtain ⟨a, ha⟩ := hun h1
      exact absurd (List.mem_append_left _ ha) (h2 i a)
    · exact hwo d hdc
  have hoth : ∀ j d, j ≠ i → s.hold j = some d → ∀ x ∈ w, x.1 ≠ d := by
    intro j d hj hd
    refine hwo d ?_
    rintro rfl
    exact hother j hj hd
  have hany' : ∀ d, (∀ x ∈ w, x.1 ≠ d) ∨ Turns (onConn d (W ++ w)) := by
    intro d
    by_cases hdc : d = c
    · subst hdc; exact .inr hany
    · exact .inl (hwo d hdc)
  have hfr : ∀ es, (∀ j a d, .returned j a d ∉ es) → ∀ d, life d (log ++ (pre ++ es)) = some .pool →
      (life d log = some .pool ∧ ∀ x ∈ w, x.1 ≠ d) ∨ InTurn (onConn d (W ++ w)) := by
    intro es hes d hd
    rcases life_pool hd with h1 | ⟨j, a, h1⟩
    · refine .inl ⟨h1, hwo d ?_⟩
      rintro rfl
      exact hlife h1
    · rcases List.mem_append.1 h1 with h1 | h1
      · exact absurd h1 (hpre j a d)
      · exact absurd h1 (hes j a d)
  cases o with
  | pending =>
    exact h.change (st := .active c inner) hy (by rw [Sys.settle, setCall, hc0])
      (hfr _ (by simp [Sys.settle])) (hunb _) hoth (fun _ _ hx => nomatch hx)
      (fun inner' d hx => by cases hx; exact hpend rfl) hany'
  | next inner' =>
    exact h.change (st := .active c inner') hy (by rw [Sys.settle, setCall, hc0])
      (hfr _ (by simp [Sys.settle])) (hunb _) hoth (fun _ _ hx => nomatch hx)
      (fun inner'' d hx => by cases hx; exact hnext _ rfl) hany'
  | ready v b =>
    refine h.change (st := .done v b) hy (by rw [Sys.settle, send_calls, setCall, hc0])
      ?_ (hunb _) hoth (fun _ _ hx => nomatch hx) (fun _ _ hx => nomatch hx) hany'
    intro d hd
    by_cases hdc : d = c
    · subst hdc; exact .inr (hready v b rfl)
    · refine .inl ⟨?_, hwo d hdc⟩
      rcases life_pool hd with h1 | ⟨j, a, h1⟩
      · exact h1
      · rcases List.mem_append.1 h1 with h1 | h1
        · exact absurd h1 (hpre j a d)
        · rw [Sys.settle] at h1
          rcases List.mem_cons.1 h1 with h1 | h1
          · cases h1; exact absurd rfl hdc
          · split at h1 <;> simp at h1
  | failed k =>
    exact h.change (st := .failed k) hy (by rw [Sys.settle, setCall, hc0])
      (hfr _ (by simp [Sys.settle])) (hunb _) hoth (fun _ _ hx => nomatch hx)
      (fun _ _ hx => nomatch hx) hany'
  | panicked =>
    exact h.change (st := .panicked) hy (by rw [Sys.settle, setCall, hc0])
      (hfr _ (by simp [Sys.settle])) (hunb _) hoth (fun _ _ hx => nomatch hx)
      (fun _ _ hx => nomatch hx) hany'

variable [FloatText]

/-- What a call does when it gets a connection. -/
theorem begin_cases (i : Nat) (p : Proc) (v : Val) (body : Bytes) (c : Conn) :
    (∃ r, serRequest p.method p.entry v body = .ok r ∧
      callStep p (.new v body) .connected = .next ⟨none, .write r⟩ ∧
      begins i p (.new v body) c = some (c, .sends i r)) ∨
    (((∃ k, callStep p (.new v body) .connected = .failed k) ∨
      callStep p (.new v body) .connected = .panicked) ∧ begins i p (.new v body) c = none) := by
  unfold begins
  simp only [callStep, CallInner.new]
  cases serRequest p.method p.entry v body with
  | ok r => exact .inl ⟨r, rfl, rfl, rfl⟩
  | err k => exact .inr ⟨.inl ⟨k, rfl⟩, rfl⟩
  | panic => exact .inr ⟨.inr rfl, rfl⟩

/-- What a round of a call can be. -/
theorem active_cases (i : Nat) (p : Proc) (inner : CallInner) (r : IoResult) (c : Conn)
    {l : List WireStep} (hd : During i p l inner.phase)
    (w : List (Conn × WireStep)) (hw : w = (ioStep i c inner.phase r).toList) :
    (∀ x ∈ w, x.1 = c) ∧
    (callStep p inner r = .pending → During i p (l ++ onConn c w) inner.phase) ∧
    (∀ inner', callStep p inner r = .next inner' → During i p (l ++ onConn c w) inner'.phase) ∧
    (∀ v b, callStep p inner r = .ready v b → InTurn (l ++ onConn c w) ∧
      ∃ E x, l ++ onConn c w = E ++ x ∧ InTurn E ∧ Completed i p v b x) ∧
    Turns (l ++ onConn c w) := by
  obtain ⟨req, ph⟩ := inner
  have quiet : w = [] → callStep p ⟨req, ph⟩ r = .pending ∨
      (∃ k, callStep p ⟨req, ph⟩ r = .failed k) →
      (∀ x ∈ w, x.1 = c) ∧
      (callStep p ⟨req, ph⟩ r = .pending → During i p (l ++ onConn c w) ph) ∧
      (∀ inner', callStep p ⟨req, ph⟩ r = .next inner' →
        During i p (l ++ onConn c w) inner'.phase) ∧
      (∀ v b, callStep p ⟨req, ph⟩ r = .ready v b → InTurn (l ++ onConn c w) ∧
        ∃ E x, l ++ onConn c w = E ++ x ∧ InTurn E ∧ Completed i p v b x) ∧
      Turns (l ++ onConn c w) := by
    rintro rfl ho
    have e : l ++ onConn c [] = l := List.append_nil _
    rw [e]
    refine ⟨(fun _ h => nomatch h), fun _ => hd, ?_, ?_, hd.turns⟩
    · intro inner' h
      rcases ho with ho | ⟨k, ho⟩ <;> rw [ho] at h <;> cases h
    · intro v b h
      rcases ho with ho | ⟨k, ho⟩ <;> rw [ho] at h <;> cases h
  cases ph with
  | connect => exact hd.elim
  | write r0 =>
    cases r with
    | notReady => exact quiet hw (.inl rfl)
    | failed => exact quiet hw (.inr ⟨_, rfl⟩)
    | connected => exact quiet hw (.inl rfl)
    | head code hs => exact quiet hw (.inl rfl)
    | body b => exact quiet hw (.inl rfl)
    | written =>
      obtain ⟨hm, E, hE, rfl⟩ := hd
      have hw : w = Option.toList (some (c, WireStep.sent i)) := hw
      clear quiet
      subst hw
      have e : onConn c (Option.toList (some (c, WireStep.sent i))) = [.sent i] := onConn_one ..
      have hd' : During i p (E ++ [.sends i r0] ++ [.sent i]) .readHead :=
        ⟨r0, E, hm, hE, by rw [List.append_assoc]; rfl⟩
      simp only [e]
      refine ⟨by simp, (fun h => nomatch h), ?_, (fun _ _ h => nomatch h), hd'.turns⟩
      intro inner' h
      cases h
      exact hd'
  | readHead =>
    cases r with
    | notReady => exact quiet hw (.inl rfl)
    | failed => exact quiet hw (.inr ⟨_, rfl⟩)
    | connected => exact quiet hw (.inl rfl)
    | written => exact quiet hw (.inl rfl)
    | body b => exact quiet hw (.inl rfl)
    | head code hs =>
      obtain ⟨r0, E, hm, hE, rfl⟩ := hd
      have hw : w = Option.toList (some (c, WireStep.head i code hs)) := hw
      clear quiet
      subst hw
      have e : onConn c (Option.toList (some (c, WireStep.head i code hs))) = [.head i code hs] :=
        onConn_one ..
      have e2 : E ++ [.sends i r0, .sent i] ++ [.head i code hs] =
        E ++ [.sends i r0, .sent i, .head i code hs] := by rw [List.append_assoc]; rfl
      simp only [e, e2, callStep]
      by_cases hh : p.method = .head
      · rw [if_pos hh]
        have hx : Exchanged i [.sends i r0, .sent i, .head i code hs] := .head (hm.trans hh)
        have hin : InTurn (E ++ [.sends i r0, .sent i, .head i code hs]) := .snoc hE hx
        refine ⟨by simp, ?_, ?_, ?_, hin.turns⟩
        · intro h
          rw [callDecode] at h
          split at h <;> cases h
        · intro inner' h
          rw [callDecode] at h
          split at h <;> cases h
        · intro v b h
          rw [callDecode] at h
          split at h
          · cases h
            exact ⟨hin, E, _, rfl, hE, .head (hm.trans hh) (by assumption)⟩
          · cases h
          · cases h
      · rw [if_neg hh]
        have hd' : During i p (E ++ [.sends i r0, .sent i, .head i code hs]) (.readBody code hs) :=
          ⟨r0, E, hm, hh, hE, rfl⟩
        refine ⟨by simp, (fun h => nomatch h), ?_, (fun _ _ h => nomatch h), hd'.turns⟩
        intro inner' h
        cases h
        exact hd'
  | readBody code hs =>
    cases r with
    | notReady => exact quiet hw (.inl rfl)
    | failed => exact quiet hw (.inr ⟨_, rfl⟩)
    | connected => exact quiet hw (.inl rfl)
    | written => exact quiet hw (.inl rfl)
    | head code hs => exact quiet hw (.inl rfl)
    | body b =>
      obtain ⟨r0, E, hm, hh, hE, rfl⟩ := hd
      have hw : w = Option.toList (some (c, WireStep.body i b)) := hw
      clear quiet
      subst hw
      have e : onConn c (Option.toList (some (c, WireStep.body i b))) = [.body i b] := onConn_one ..
      have e2 : E ++ [.sends i r0, .sent i, .head i code hs] ++ [.body i b] =
        E ++ [.sends i r0, .sent i, .head i code hs, .body i b] := by rw [List.append_assoc]; rfl
      have hx : Exchanged i [.sends i r0, .sent i, .head i code hs, .body i b] :=
        .full (by rw [hm]; exact hh)
      have hin : InTurn (E ++ [.sends i r0, .sent i, .head i code hs, .body i b]) := .snoc hE hx
      simp only [e, e2, callStep]
      refine ⟨by simp, ?_, ?_, ?_, hin.turns⟩
      · intro h
        rw [callDecode] at h
        split at h <;> cases h
      · intro inner' h
        rw [callDecode] at h
        split at h <;> cases h
      · intro v b h
        rw [callDecode] at h
        split at h
        · cases h
          exact ⟨hin, E, _, rfl, hE, .full (by rw [hm]; exact hh) (by assumption)⟩
        · cases h
        · cases h

/-- The calls, what they were asked, and what they did. -/
structure CallInv (qs : List (Proc × Addr × Val × Bytes)) (W : List (Conn × WireStep)) (s : Sys) :
    Prop where
  len : s.calls.length = qs.length
  proc : ∀ (i : Nat) (y : PCall), s.calls[i]? = some y → ∃ v b,
    qs[i]? = some (y.proc, y.addr, v, b) ∧
      ∀ inner, y.st = .waiting inner ∨ (∃ f, y.st = .replied inner f) → inner = .new v b
  sends : ∀ c i r, (c, .sends i r) ∈ W → ∃ p a v b, qs[i]? = some (p, a, v, b) ∧
    serRequest p.method p.entry v b = .ok r
  begun : ∀ c i r, (c, .sends i r) ∈ W → ∃ y, s.calls[i]? = some y ∧
    ∀ inner, y.st ≠ .waiting inner ∧ ∀ f, y.st ≠ .replied inner f
  once : (W.filterMap fun | (_, .sends i _) => some i | _ => none).Nodup
  done : ∀ (i : Nat) (y : PCall) v b, s.calls[i]? = some y → y.st = .done v b →
    ∃ c E x rest, onConn c W = E ++ x ++ rest ∧ InTurn E ∧ Completed i y.proc v b x

theorem CallInv.change {qs : List (Proc × Addr × Val × Bytes)} {W : List (Conn × WireStep)}
    {o : Option (Conn × WireStep)} {s s' : Sys} (h : CallInv qs W s) {i : Nat} {y : PCall}
    {st : PCallSt} (hy : s.calls[i]? = some y) (hs : s'.calls = s.calls.set i { y with st := st })
    (hst : ∀ inner, st = .waiting inner ∨ (∃ f, st = .replied inner f) →
      y.st = .waiting inner ∨ ∃ f, y.st = .replied inner f)
    (ho : ∀ c j r, o = some (c, .sends j r) → j = i ∧
      (∀ inner, st ≠ .waiting inner ∧ ∀ f, st ≠ .replied inner f) ∧
      (∃ inner f, y.st = .replied inner f) ∧
      ∃ p a v b, qs[i]? = some (p, a, v, b) ∧ serRequest p.method p.entry v b = .ok r)
    (hdone : ∀ v b, st = .done v b → (y.st = .done v b) ∨
      ∃ c E x, onConn c (W ++ o.toList) = E ++ x ∧ InTurn E ∧ Completed i y.proc v b x) :
    CallInv qs (W ++ o.toList) s' := by
  have hlt := lt_of_some hy
  refine ⟨by rw [hs, List.length_set]; exact h.len, ?_, ?_, ?_, ?_, ?_⟩
  · intro j z hj
    rw [hs] at hj
    rcases calls_set hy hj with ⟨rfl, rfl⟩ | ⟨-, hj⟩
    · obtain ⟨v, b, h1, h2⟩ := h.proc _ y hy
      exact ⟨v, b, h1, fun inner hi => h2 inner (hst inner hi)⟩
    · exact h.proc j z hj
  · intro c j r hj
    rcases List.mem_append.1 hj with hj | hj
    · exact h.sends c j r hj
    · obtain ⟨rfl, -, -, hq⟩ := ho c j r (by simpa using hj)
      exact hq
  · intro c j r hj
    rcases List.mem_append.1 hj with hj | hj
    · obtain ⟨z, hz, hb⟩ := h.begun c j r hj
      by_cases hji : j = i
      · subst hji
        rw [hy] at hz
        cases hz
        refine ⟨{ y with st := st }, by rw [hs, List.getElem?_set, if_pos rfl, if_pos hlt], ?_⟩
        intro inner
        refine ⟨fun he => ?_, fun f he => ?_⟩
        · rcases hst inner (.inl he) with h1 | ⟨f, h1⟩
          · exact (hb inner).1 h1
          · exact (hb inner).2 f h1
        · rcases hst inner (.inr ⟨f, he⟩) with h1 | ⟨f, h1⟩
          · exact (hb inner).1 h1
          · exact (hb inner).2 f h1
      · exact ⟨z, by rw [hs, List.getElem?_set, if_neg (Ne.symm hji)]; exact hz, hb⟩
    · obtain ⟨rfl, hb, -⟩ := ho c j r (by simpa using hj)
      exact ⟨{ y with st := st }, by rw [hs, List.getElem?_set, if_pos rfl, if_pos hlt], hb⟩
  · rw [List.filterMap_append]
    refine List.nodup_append.2 ⟨h.once, ?_, ?_⟩
    · cases o with
      | none => exact List.nodup_nil
      | some x =>
        obtain ⟨c, x⟩ := x
        cases x <;> simp
    · intro j hj k hk hjk
      subst hjk
      obtain ⟨⟨c, x⟩, hx, he⟩ := List.mem_filterMap.1 hj
      obtain ⟨⟨c', x'⟩, hx', he'⟩ := List.mem_filterMap.1 hk
      cases x <;> simp at he
      cases x' <;> simp at he'
      subst he he'
      obtain ⟨e, -, ⟨inner, f, hr⟩, -⟩ := ho _ _ _ (by simpa using hx')
      subst e
      obtain ⟨z, hz, hb⟩ := h.begun _ _ _ hx
      rw [hy] at hz
      cases hz
      exact (hb inner).2 f hr
  · intro j z v b hj hz
    have grow : ∀ {c : Conn} {E x rest : List WireStep}, onConn c W = E ++ x ++ rest → InTurn E →
        ∀ {j : Nat} {p : Proc}, Completed j p v b x →
        ∃ c E x rest, onConn c (W ++ o.toList) = E ++ x ++ rest ∧ InTurn E ∧ Completed j p v b x := by
      intro c E x rest h1 h2 j p h3
      exact ⟨c, E, x, rest ++ onConn c o.toList, by rw [onConn_append, h1, List.append_assoc], h2, h3⟩
    rw [hs] at hj
    rcases calls_set hy hj with ⟨rfl, rfl⟩ | ⟨-, hj⟩
    · rcases hdone v b hz with h1 | ⟨c, E, x, h1, h2, h3⟩
      · obtain ⟨c, E, x, rest, h2, h3, h4⟩ := h.done _ y v b hy h1
        exact grow h2 h3 h4
      · exact ⟨c, E, x, [], by rw [List.append_nil]; exact h1, h2, h3⟩
    · obtain ⟨c, E, x, rest, h2, h3, h4⟩ := h.done j z v b hj hz
      exact grow h2 h3 h4

omit [FloatText] in
/-- The state of a call after a round. -/
theorem settle_calls (i : Nat) (y : PCall) (c : Conn) (inner : CallInner) (s : Sys)
    (o : CallOutcome) : ∃ st, (s.settle i y c inner o).2.calls = s.calls.set i { y with st := st } ∧
      (∀ inner, st ≠ .waiting inner ∧ ∀ f, st ≠ .replied inner f) ∧
      ∀ v b, st = .done v b → o = .ready v b := by
  cases o with
  | pending =>
    exact ⟨_, rfl, (fun _ => ⟨(fun h => nomatch h), (fun _ h => nomatch h)⟩), (fun _ _ h => nomatch h)⟩
  | next inner' =>
    exact ⟨_, rfl, (fun _ => ⟨(fun h => nomatch h), (fun _ h => nomatch h)⟩), (fun _ _ h => nomatch h)⟩
  | ready v b =>
    refine ⟨.done v b, by rw [Sys.settle, send_calls]; rfl,
      (fun _ => ⟨(fun h => nomatch h), (fun _ h => nomatch h)⟩), ?_⟩
    intro v b h
    cases h
    rfl
  | failed k =>
    exact ⟨_, rfl, (fun _ => ⟨(fun h => nomatch h), (fun _ h => nomatch h)⟩), (fun _ _ h => nomatch h)⟩
  | panicked =>
    exact ⟨_, rfl, (fun _ => ⟨(fun h => nomatch h), (fun _ h => nomatch h)⟩), (fun _ _ h => nomatch h)⟩

/-- A call gets its connection. -/
theorem wire_begin {qs : List (Proc × Addr × Val × Bytes)} {W : List (Conn × WireStep)}
    {log pre : List Effect} {s s0 : Sys} (h : WireInv W log s) (hq : CallInv qs W s)
    (hc0 : s0.calls = s.calls) {i : Nat} {y : PCall} {c : Conn} {inner : CallInner} {f : Pooled}
    (hy : s.calls[i]? = some y) (hst : y.st = .replied inner f)
    (hin : InTurn (onConn c W)) (hlife : life c log ≠ some .pool)
    (hun : life c log = some .unborn → ∃ a, .opened i a c ∈ pre)
    (hpre : ∀ j a d, .returned j a d ∉ pre) (hother : ∀ j, j ≠ i → s.hold j ≠ some c) :
    let o := callStep y.proc inner .connected
    let w := (begins i y.proc inner c).toList
    WireInv (W ++ w) (log ++ (pre ++ (s0.settle i y c inner o).1)) (s0.settle i y c inner o).2 ∧
      CallInv qs (W ++ w) (s0.settle i y c inner o).2 := by
  obtain ⟨v, b, hqi, hinner⟩ := hq.proc i y hy
  have := hinner inner (.inr ⟨f, hst⟩)
  subst this
  intro o w
  obtain ⟨st, hs1, hs2, hs3⟩ := settle_calls i y c (.new v b) s0 o
  rw [hc0] at hs1
  rcases begin_cases i y.proc v b c with ⟨r, h1, h2, h3⟩ | ⟨h2, h3⟩
  · have hw : w = [(c, .sends i r)] := by simp only [w, h3]; rfl
    have hl : onConn c (W ++ w) = onConn c W ++ [.sends i r] := by
      rw [onConn_append, hw, onConn_one]
    have hmeth : r.method = y.proc.method := (C26_request_content_length _ _ _ _ _ h1).2.1
    have hd : During i y.proc (onConn c (W ++ w)) (.write r) := ⟨hmeth, _, hin, hl⟩
    refine ⟨h.settle hc0 hy (by rw [hw]; simp) _ _ hlife hun hpre hother ?_ ?_ ?_ hd.turns, ?_⟩
    · intro he; simp only [o, h2] at he; cases he
    · intro inner' he; simp only [o, h2] at he; cases he; exact hd
    · intro v b he; simp only [o, h2] at he; cases he
    · refine hq.change (o := begins i y.proc (.new v b) c) hy hs1 ?_ ?_ ?_
      · rintro inner (hx | ⟨f, hx⟩)
        · exact absurd hx (hs2 inner).1
        · exact absurd hx ((hs2 inner).2 f)
      · intro d j r' he
        rw [h3] at he
        cases he
        exact ⟨rfl, hs2, ⟨_, f, hst⟩, _, _, _, _, hqi, h1⟩
      · intro v b hx
        have := hs3 v b hx
        simp only [o, h2] at this
        cases this
  · have hw : w = [] := by simp only [w, h3]; rfl
    have hne : o ≠ .pending ∧ (∀ x, o ≠ .next x) ∧ ∀ v b, o ≠ .ready v b := by
      rcases h2 with ⟨k, h2⟩ | h2 <;> simp [o, h2]
    refine ⟨h.settle hc0 hy (by rw [hw]; simp) _ _ hlife hun hpre hother ?_ ?_ ?_ ?_, ?_⟩
    · intro he; exact absurd he hne.1
    · intro inner' he; exact absurd he (hne.2.1 _)
    · intro v b he; exact absurd he (hne.2.2 _ _)
    · rw [hw, List.append_nil]; exact h.any c
    · refine hq.change (o := begins i y.proc (.new v b) c) hy hs1 ?_ ?_ ?_
      · rintro inner (hx | ⟨f, hx⟩)
        · exact absurd hx (hs2 inner).1
        · exact absurd hx ((hs2 inner).2 f)
      · intro d j r' he
        rw [h3] at he
        cases he
      · intro v b hx
        exact absurd (hs3 v b hx) (hne.2.2 _ _)

theorem callInv_send {qs : List (Proc × Addr × Val × Bytes)} {W : List (Conn × WireStep)} {s s' : Sys}
    (h : CallInv qs W s) (hs : s'.calls = s.calls) : CallInv qs W s' := by
  refine ⟨?_, ?_, h.sends, ?_, h.once, ?_⟩ <;> rw [hs]
  · exact h.len
  · exact h.proc
  · exact h.begun
  · exact h.done

/-- The state of a call changes, and nothing goes over connections. -/
theorem CallInv.quiet {qs : List (Proc × Addr × Val × Bytes)} {W : List (Conn × WireStep)} {s s' : Sys}
    (h : CallInv qs W s) {i : Nat} {y : PCall} {st : PCallSt} (hy : s.calls[i]? = some y)
    (hs : s'.calls = s.calls.set i { y with st := st })
    (hst : ∀ inner, st = .waiting inner ∨ (∃ f, st = .replied inner f) →
      y.st = .waiting inner ∨ ∃ f, y.st = .replied inner f)
    (hd : ∀ v b, st ≠ .done v b) : CallInv qs W s' := by
  have := h.change (o := none) hy hs hst (fun _ _ _ hx => nomatch hx)
    (fun v b hx => absurd hx (hd v b))
  simpa using this

/-- One event. -/
theorem wire_step {qs : List (Proc × Addr × Val × Bytes)} {W : List (Conn × WireStep)}
    {log : List Effect} {s : Sys} (hinv : Inv log s) (h : WireInv W log s) (hq : CallInv qs W s)
    (e : SysEvent) :
    WireInv (W ++ (wireOf s e).toList) (log ++ (s.step e).1) (s.step e).2 ∧
      CallInv (qs ++ asked [e]) (W ++ (wireOf s e).toList) (s.step e).2 := by
  obtain ⟨xs, hp, hpl⟩ := inv_pool.1 hinv.pool
  have hinv' := inv_step hinv e
  cases e with
  | call p a v body =>
    have e1 : asked [.call p a v body] = [(p, a, v, body)] := rfl
    have e2 : (wireOf s (.call p a v body)).toList = [] := rfl
    rw [e1, e2, List.append_nil]
    have hcalls : (s.call p a v body).calls = s.calls ++ [⟨p, a, .waiting (.new v body)⟩] := by
      rw [Sys.call, send_calls]
    have hget : ∀ (i : Nat) (y : PCall), (s.call p a v body).calls[i]? = some y →
        s.calls[i]? = some y ∨ i = s.calls.length ∧ y = ⟨p, a, .waiting (.new v body)⟩ := by
      intro i y hy
      rw [hcalls] at hy
      rcases Nat.lt_trichotomy i s.calls.length with hl | hl | hl
      · rw [List.getElem?_append_left hl] at hy
        exact .inl hy
      · subst hl
        simp at hy
        exact .inr ⟨rfl, hy.symm⟩
      · rw [List.getElem?_eq_none (by simp; omega)] at hy
        cases hy
    have hold : ∀ (i : Nat) (y : PCall), s.calls[i]? = some y →
        (s.call p a v body).calls[i]? = some y := by
      intro i y hy
      rw [hcalls, List.getElem?_append_left (lt_of_some hy)]
      exact hy
    rw [step]
    refine ⟨h.quiet (by simp) ?_, ?_, ?_, ?_, ?_, hq.once, ?_⟩
    · intro i y hy
      rcases hget i y hy with h1 | ⟨-, rfl⟩
      · exact .inl h1
      · exact .inr rfl
    · rw [hcalls, List.length_append, List.length_append, hq.len]; rfl
    · intro i y hy
      rcases hget i y hy with h1 | ⟨rfl, rfl⟩
      · obtain ⟨v', b', h2, h3⟩ := hq.proc i y h1
        refine ⟨v', b', ?_, h3⟩
        rw [List.getElem?_append_left (by rw [← hq.len]; exact lt_of_some h1)]
        exact h2
      · refine ⟨v, body, by rw [hq.len]; simp, ?_⟩
        rintro inner (hx | ⟨f, hx⟩)
        · cases hx; rfl
        · cases hx
    · intro c i r hi
      obtain ⟨p', a', v', b', h1, h2⟩ := hq.sends c i r hi
      have hlt : i < qs.length := (List.getElem?_eq_some_iff.1 h1).1
      exact ⟨p', a', v', b', by rw [List.getElem?_append_left hlt]; exact h1, h2⟩
    · intro c i r hi
      obtain ⟨y, h1, h2⟩ := hq.begun c i r hi
      exact ⟨y, hold i y h1, h2⟩
    · intro i y v' b' hy hst
      rcases hget i y hy with h1 | ⟨-, rfl⟩
      · exact hq.done i y v' b' h1 hst
      · cases hst
  | setSuspended d =>
    have e1 : asked [.setSuspended d] = [] := rfl
    have e2 : (wireOf s (.setSuspended d)).toList = [] := rfl
    rw [e1, e2, List.append_nil, List.append_nil]
    exact ⟨h.quiet (by simp [step]) (fun i y hy => .inl hy), callInv_send hq rfl⟩
  | dropPool =>
    have e1 : asked [.dropPool] = [] := rfl
    have e2 : (wireOf s .dropPool).toList = [] := rfl
    rw [e1, e2, List.append_nil, List.append_nil, step]
    refine ⟨h.quiet ?_ (fun i y hy => .inl ?_), callInv_send hq (dropPool_calls s)⟩
    · intro i a c hc
      rw [dropPool] at hc
      split at hc
      · cases hc
      · simp at hc
    · rwa [dropPool_calls] at hy
  | handle now =>
    have e1 : asked [.handle now] = [] := rfl
    have e2 : (wireOf s (.handle now)).toList = [] := rfl
    rw [e1, e2, List.append_nil, List.append_nil]
    have hl' : ∀ c, life c (log ++ (s.handle now).1) ≠ none := by
      have := (inv_pool.1 hinv'.pool)
      obtain ⟨_, -, hpl'⟩ := this
      exact hpl'.legal
    rw [step]
    rw [handle] at hl' ⊢
    have hdrop : WireInv W (log ++ s.dropPool.1) s.dropPool.2 ∧ CallInv qs W s.dropPool.2 := by
      refine ⟨h.quiet ?_ (fun i y hy => .inl ?_), callInv_send hq (dropPool_calls s)⟩
      · intro i a c hc
        rw [dropPool] at hc
        split at hc
        · cases hc
        · simp at hc
      · rwa [dropPool_calls] at hy
    split
    · rename_i p cmd q hpool hqueue
      rw [hpool, hqueue] at hl'
      simp only at hl'
      split
      · rename_i out p' hstep
        rw [hstep] at hl'
        simp only at hl' ⊢
        split
        · rename_i a i f
          simp only at hl'
          unfold Sys.reply at hl' ⊢
          split
          · rename_i p0 b0 inner hy
            rw [hy] at hl'
            refine ⟨?_, ?_⟩
            · cases f with
              | ready c =>
                have hpo : life c log = some .pool := life_took (hl' c)
                have hfree := h.free c hpo
                have := h.change (w := []) (es := [.took i a c])
                  (s' := Sys.setCall i ⟨p0, b0, .replied inner (.ready c)⟩
                    { s with pool := some p', queue := q })
                  (st := .replied inner (.ready c)) hy rfl
                  (fun d hd => by
                    rcases life_pool hd with h1 | ⟨_, _, h1⟩
                    · exact .inl ⟨h1, (fun _ hx => nomatch hx)⟩
                    · simp at h1)
                  (fun d hd => ⟨(life_unborn hd).1, (fun _ hx => nomatch hx)⟩)
                  (fun _ _ _ _ _ hx => nomatch hx)
                  (fun inner' d hx => by cases hx; rw [List.append_nil]; exact hfree)
                  (fun _ _ hx => nomatch hx) (fun _ => .inl (fun _ hx => nomatch hx))
                rw [List.append_nil] at this
                exact this
              | failed =>
                exact h.quiet (by simp) (set_quiet (s := { s with pool := some p', queue := q }) hy rfl)
              | connecting _ =>
                exact h.quiet (by simp) (set_quiet (s := { s with pool := some p', queue := q }) hy rfl)
            · refine hq.quiet hy rfl ?_ (fun _ _ hx => nomatch hx)
              rintro inner' (hx | ⟨_, hx⟩)
              · cases hx
              · cases hx; exact .inl rfl
          · refine ⟨h.quiet ?_ (fun i y hy => .inl hy), callInv_send hq rfl⟩
            intro j b c hc
            split at hc <;> simp at hc
        · exact ⟨h.quiet (by simp) (fun i y hy => .inl hy), callInv_send hq rfl⟩
        · exact ⟨h.quiet (by simp) (fun i y hy => .inl hy), callInv_send hq rfl⟩
        · exact ⟨h.quiet (by simp) (fun i y hy => .inl hy), callInv_send hq rfl⟩
      · exact hdrop
    · exact ⟨h.quiet (by simp) (fun i y hy => .inl hy), callInv_send hq rfl⟩
  | dropCall i =>
    have e1 : asked [.dropCall i] = [] := rfl
    have e2 : (wireOf s (.dropCall i)).toList = [] := rfl
    rw [e1, e2, List.append_nil, List.append_nil, step, dropCall]
    cases hy : s.calls[i]? with
    | none => exact ⟨h.quiet (by simp) (fun i y hy => .inl hy), hq⟩
    | some y =>
      have key : ∀ es : List Effect, (∀ j a c, .returned j a c ∉ es) →
          WireInv W (log ++ es) (s.setCall i { y with st := .dropped }) ∧
            CallInv qs W (s.setCall i { y with st := .dropped }) := by
        intro es hes
        refine ⟨h.quiet hes (set_quiet hy rfl), hq.quiet hy rfl ?_ (fun _ _ hx => nomatch hx)⟩
        rintro inner (hx | ⟨f, hx⟩) <;> cases hx
      have same : WireInv W (log ++ []) s ∧ CallInv qs W s :=
        ⟨h.quiet (by simp) (fun i y hy => .inl hy), hq⟩
      simp only
      split
      · exact key [] (by simp)
      · exact key _ (by simp)
      · exact key _ (by simp)
      · exact key _ (by simp)
      · exact same
  | poll i r =>
    have e1 : asked [.poll i r] = [] := rfl
    rw [e1, List.append_nil, step]
    have same : WireInv (W ++ []) (log ++ []) s ∧ CallInv qs (W ++ []) s := by
      rw [List.append_nil]
      exact ⟨h.quiet (by simp) (fun i y hy => .inl hy), hq⟩
    rw [poll, wireOf]
    cases hy : s.calls[i]? with
    | none => exact same
    | some y =>
      have hh := hold_of hy
      have fails : ∀ (es : List Effect) (cmd : Option Cmd), (∀ j a c, .returned j a c ∉ es) →
          ∀ s' : Sys, s'.calls = (s.setCall i { y with st := .failed .other }).calls →
          WireInv (W ++ []) (log ++ es) s' ∧ CallInv qs (W ++ []) s' := by
        intro es _ hes s' hs'
        rw [List.append_nil]
        refine ⟨h.quiet hes (by rw [hs']; exact set_quiet hy rfl),
          hq.quiet (st := .failed .other) hy (by rw [hs']; rfl) ?_ (fun _ _ hx => nomatch hx)⟩
        rintro inner (hx | ⟨f, hx⟩) <;> cases hx
      have hoth : ∀ c, s.hold i = some c → ∀ j, j ≠ i → s.hold j ≠ some c := by
        intro c hc j hj hjc
        exact hj (hpl.inj hjc hc)
      simp only
      cases hst : y.st with
      | waiting inner =>
        simp only
        cases hpool : s.pool with
        | some p => exact same
        | none => exact fails [] none (by simp) _ rfl
      | replied inner f =>
        rw [hst] at hh
        cases f with
        | ready c =>
          have hh : s.hold i = some c := hh
          have hlc := (hpl.held c i).2 hh
          exact wire_begin (pre := []) h hq rfl hy hst (h.given i y inner c hy hst)
            (by rw [hlc]; simp) (by rw [hlc]; simp) (by simp) (hoth c hh)
        | failed => exact fails [] none (by simp) _ rfl
        | connecting a =>
          cases r with
          | connected =>
            have hun : life s.next log = some .unborn := (hpl.unborn s.next).2 (Nat.le_refl _)
            have := wire_begin (s0 := { s with next := s.next + 1 }) (pre := [.opened i a s.next])
              (c := s.next) h hq rfl hy hst (by rw [h.unborn _ hun]; exact .nil)
              (by rw [hun]; simp) (fun _ => ⟨a, List.mem_singleton.2 rfl⟩) (by simp)
              (by
                intro j _ hj
                have := (hpl.held s.next j).2 hj
                rw [hun] at this
                cases this)
            simp only [if_true]
            exact this
          | failed =>
            exact fails [.refused i a] none (by simp) _ (send_calls _ _)
          | notReady => exact same
          | written => exact same
          | head _ _ => exact same
          | body _ => exact same
      | active c inner =>
        rw [hst] at hh
        have hh : s.hold i = some c := hh
        have hlc := (hpl.held c i).2 hh
        simp only
        generalize ho : ioStep i c inner.phase r = o
        obtain ⟨h1, h2, h3, h4, h5⟩ := active_cases i y.proc inner r c (h.active i y inner c hy hst)
          o.toList (by rw [← ho])
        have hw : onConn c (W ++ o.toList) = onConn c W ++ onConn c o.toList := onConn_append ..
        have hns : ∀ d j r', o ≠ some (d, .sends j r') := by
          intro d j r' he
          rw [he] at ho
          unfold ioStep at ho
          split at ho <;> cases ho
        obtain ⟨st, hs1, hs2, hs3⟩ := settle_calls i y c inner s (callStep y.proc inner r)
        refine ⟨?_, ?_⟩
        · exact h.settle (pre := [.io i c]) rfl hy h1 inner _ (by rw [hlc]; simp) (by rw [hlc]; simp)
            (by simp) (hoth c hh) (by rw [hw]; exact h2) (by rw [hw]; exact h3)
            (by rw [hw]; exact fun v b hx => (h4 v b hx).1) (by rw [hw]; exact h5)
        · refine hq.change hy hs1 ?_ (fun d j r' he => absurd he (hns d j r')) ?_
          · rintro inner (hx | ⟨f, hx⟩)
            · exact absurd hx (hs2 inner).1
            · exact absurd hx ((hs2 inner).2 f)
          · intro v b hx
            obtain ⟨E, x, e1, e2, e3⟩ := (h4 v b (hs3 v b hx)).2
            exact .inr ⟨c, E, x, by rw [hw]; exact e1, e2, e3⟩
      | done v b => exact same
      | failed k => exact same
      | panicked => exact same
      | dropped => exact same

omit [FloatText] in
theorem asked_append (l l' : List SysEvent) : asked (l ++ l') = asked l ++ asked l' :=
  List.filterMap_append

theorem wire_run {qs : List (Proc × Addr × Val × Bytes)} {W : List (Conn × WireStep)}
    {log : List Effect} {s : Sys} (hinv : Inv log s) (h : WireInv W log s) (hq : CallInv qs W s)
    (evs : List SysEvent) :
    WireInv (W ++ wireLog evs s) (log ++ (run evs s).1) (run evs s).2 ∧
      CallInv (qs ++ asked evs) (W ++ wireLog evs s) (run evs s).2 := by
  induction evs generalizing qs W log s with
  | nil => simpa [wireLog, run, asked] using ⟨h, hq⟩
  | cons e evs ih =>
    obtain ⟨h1, h2⟩ := wire_step hinv h hq e
    obtain ⟨h3, h4⟩ := ih (inv_step hinv e) h1 h2
    have ha : asked (e :: evs) = asked [e] ++ asked evs := asked_append [e] evs
    rw [wireLog, run, ha]
    simp only [List.append_assoc] at h3 h4
    exact ⟨h3, h4⟩

theorem wire_new (size : Nat) : WireInv [] [] (new size) ∧ CallInv [] [] (new size) := by
  refine ⟨⟨?_, ?_, ?_, ?_, ?_⟩, ⟨rfl, ?_, ?_, ?_, List.nodup_nil, ?_⟩⟩
  · intro c hc; exact .nil
  · intro c hc; rfl
  · intro i y inner c hy; simp [new] at hy
  · intro i y inner c hy; simp [new] at hy
  · intro c; exact InTurn.nil.turns
  · intro i y hy; simp [new] at hy
  · intro c i r hi; cases hi
  · intro c i r hi; cases hi
  · intro i y v b hy; simp [new] at hy

end Sys
end Htrpc
