/-
What the end of a call tells its caller (C95).
-/
import Verif.Props.Turns
import Verif.Props.Progress
import Verif.Props.Request
import Verif.Props.Decode
import Verif.Lemmas.Shape
import Verif.Lemmas.World
import Verif.Spec.Errors

namespace Htrpc
open Spec

section
variable [FloatText]

/-- The states of a call, with what it has done. -/
inductive Told (evs : List SysEvent) (pool : Option Pool) (log : List Effect) (i : Nat) (p : Proc)
    (a : Addr) (v : Val) (b : Bytes) : PCallSt → List (Conn × WireStep) → Prop where
  | waiting : Told evs pool log i p a v b (.waiting (.new v b)) []
  | replied {f} : (f = .failed → 0 < refusedTo a log) → (∀ d, f = .connecting d → d = a) →
      Told evs pool log i p a v b (.replied (.new v b) f) []
  | write {c r} : serRequest p.method p.entry v b = .ok r →
      Told evs pool log i p a v b (.active c ⟨none, .write r⟩) [(c, .sends i r)]
  | readHead {c r} : serRequest p.method p.entry v b = .ok r →
      Told evs pool log i p a v b (.active c ⟨none, .readHead⟩) [(c, .sends i r), (c, .sent i)]
  | readBody {c r code hs} : serRequest p.method p.entry v b = .ok r → p.method ≠ .head →
      Told evs pool log i p a v b (.active c ⟨none, .readBody code hs⟩)
        [(c, .sends i r), (c, .sent i), (c, .head i code hs)]
  | done {c r code hs w x T} : serRequest p.method p.entry v b = .ok r →
      Answered i c r code hs x T → deResponse p.resTy code hs = .ok w →
      Told evs pool log i p a v b (.done w x) T
  | unsent : serRequest p.method p.entry v b = .err .invalid →
      Told evs pool log i p a v b (.failed .invalid) []
  | unread {c r code hs x T} : serRequest p.method p.entry v b = .ok r →
      Answered i c r code hs x T → deResponse p.resTy code hs = .err .invalid →
      Told evs pool log i p a v b (.failed .invalid) T
  | orphan : pool = none → Told evs pool log i p a v b (.failed .other) []
  | refused : 0 < refusedTo a log → Told evs pool log i p a v b (.failed .other) []
  | broken {c r T} : serRequest p.method p.entry v b = .ok r → Unanswered i c r T →
      .poll i .failed ∈ evs → Told evs pool log i p a v b (.failed .other) T
  | panicked : serRequest p.method p.entry v b = .panic → Told evs pool log i p a v b .panicked []
  | dropped {T} : Told evs pool log i p a v b .dropped T

theorem Told.mono {evs evs' : List SysEvent} {pool pool' : Option Pool} {log log' : List Effect}
    {i : Nat} {p : Proc} {a : Addr} {v : Val} {b : Bytes} {st : PCallSt} {T : List (Conn × WireStep)}
    (h : Told evs pool log i p a v b st T) (h1 : ∀ e ∈ evs, e ∈ evs') (h2 : pool = none → pool' = none)
    (h3 : refusedTo a log ≤ refusedTo a log') : Told evs' pool' log' i p a v b st T := by
  cases h with
  | waiting => exact .waiting
  | replied h hd => exact .replied (fun e => Nat.lt_of_lt_of_le (h e) h3) hd
  | write h => exact .write h
  | readHead h => exact .readHead h
  | readBody h h' => exact .readBody h h'
  | done h h' h'' => exact .done h h' h''
  | unsent h => exact .unsent h
  | unread h h' h'' => exact .unread h h' h''
  | orphan h => exact .orphan (h2 h)
  | refused h => exact .refused (Nat.lt_of_lt_of_le h h3)
  | broken h h' h'' => exact .broken h h' (h1 _ h'')
  | panicked h => exact .panicked h
  | dropped => exact .dropped

theorem serRequest_method {m : Method} {e : EntryPoint} {v : Val} {b : Bytes} {r : Request}
    (h : serRequest m e v b = .ok r) : r.method = m := by
  rw [serRequest] at h
  obtain ⟨_, -, h⟩ := Res.bind_ok_eq h
  obtain ⟨_, -, h⟩ := Res.bind_ok_eq h
  cases h
  rfl

theorem serRequest_cases (m : Method) (e : EntryPoint) (v : Val) (b : Bytes) :
    (∃ r, serRequest m e v b = .ok r) ∨ serRequest m e v b = .err .invalid ∨
      serRequest m e v b = .panic := by
  by_cases h : ClientPanics e v
  · exact .inr (.inr ((C25_panics_iff m e v b).2 h))
  · rcases C25_otherwise_ok_or_invalid m e v b h with h | h
    · exact .inl h
    · exact .inr (.inl h)

/-- A call gets its connection. -/
theorem told_begin {evs : List SysEvent} {pool : Option Pool} {log : List Effect} {i : Nat} {p : Proc}
    {a : Addr} {v : Val} {b : Bytes} (c : Conn) :
    Told evs pool log i p a v b (settled c (.new v b) (callStep p (.new v b) .connected))
      (begins i p (.new v b) c).toList := by
  unfold begins
  simp only [callStep, CallInner.new]
  rcases serRequest_cases p.method p.entry v b with ⟨r, h⟩ | h | h
  · simp only [h]; exact .write h
  · simp only [h]; exact .unsent h
  · simp only [h]; exact .panicked h

theorem told_decode {evs : List SysEvent} {pool : Option Pool} {log : List Effect} {i : Nat} {p : Proc}
    {a : Addr} {v : Val} {b : Bytes} {c : Conn} {inner : CallInner} {r : Request} {code : Nat}
    {hs : List Header} {x : Bytes} {T : List (Conn × WireStep)}
    (hr : serRequest p.method p.entry v b = .ok r) (ha : Answered i c r code hs x T) :
    Told evs pool log i p a v b (settled c inner (callDecode p code hs x)) T := by
  unfold callDecode
  rcases C58_response p.resTy code hs with ⟨w, h⟩ | h
  · rw [h]; exact .done hr ha h
  · rw [h]; exact .unread hr ha h

/-- A round of a call on its connection. -/
theorem told_active {evs : List SysEvent} {pool : Option Pool} {log : List Effect} {i : Nat} {p : Proc}
    {a : Addr} {v : Val} {b : Bytes} {c : Conn} {inner : CallInner} {T : List (Conn × WireStep)}
    (h : Told evs pool log i p a v b (.active c inner) T) (r : IoResult)
    (hf : r = .failed → .poll i .failed ∈ evs) :
    Told evs pool log i p a v b (settled c inner (callStep p inner r))
      (T ++ (ioStep i c inner.phase r).toList) := by
  generalize hst : PCallSt.active c inner = st at h
  have h0 := h
  cases h with
  | write hr =>
    cases hst
    cases r with
    | failed => exact .broken hr .writing (hf rfl)
    | written => exact .readHead hr
    | notReady => exact h0
    | connected => exact h0
    | head _ _ => exact h0
    | body _ => exact h0
  | readHead hr =>
    cases hst
    cases r with
    | failed => exact .broken hr .sent (hf rfl)
    | head code hs =>
      simp only [callStep]
      have hm := serRequest_method hr
      split
      · next hh => exact told_decode hr (.head (hm.trans hh) rfl)
      · next hh => exact .readBody hr hh
    | notReady => exact h0
    | connected => exact h0
    | written => exact h0
    | body _ => exact h0
  | readBody hr hh =>
    cases hst
    have hm := serRequest_method hr
    cases r with
    | failed => exact .broken hr (.head (by rw [hm]; exact hh)) (hf rfl)
    | body x => exact told_decode hr (.full (by rw [hm]; exact hh))
    | notReady => exact h0
    | connected => exact h0
    | written => exact h0
    | head _ _ => exact h0
  | _ => cases hst

theorem wireOf_call {s : Sys} {e : SysEvent} {x : Conn × WireStep} (h : wireOf s e = some x) :
    ∃ r, e = .poll x.2.call r := by
  unfold wireOf at h
  split at h
  · next i r =>
    refine ⟨r, ?_⟩
    have hb : ∀ {p : Proc} {inner : CallInner} {c : Conn}, begins i p inner c = some x →
        x.2.call = i := by
      intro p inner c h
      unfold begins at h
      split at h
      · cases h; rfl
      · cases h
    split at h
    · cases h
    · split at h
      · rw [hb h]
      · split at h
        · rw [hb h]
        · cases h
      · unfold ioStep at h
        split at h <;> cases h <;> rfl
      · cases h
  · cases h

omit [FloatText] in
theorem byCall_append (i : Nat) (w w' : List (Conn × WireStep)) :
    byCall i (w ++ w') = byCall i w ++ byCall i w' := List.filter_append ..

theorem byCall_other {s : Sys} {e : SysEvent} {i : Nat} (h : ∀ r, e ≠ .poll i r) :
    byCall i (wireOf s e).toList = [] := by
  cases ho : wireOf s e with
  | none => rfl
  | some x =>
    obtain ⟨r, rfl⟩ := wireOf_call ho
    have : x.2.call ≠ i := fun hx => h r (by rw [hx])
    simp [byCall, this]

theorem byCall_own {s : Sys} {i : Nat} {r : IoResult} :
    byCall i (wireOf s (.poll i r)).toList = (wireOf s (.poll i r)).toList := by
  cases ho : wireOf s (.poll i r) with
  | none => rfl
  | some x =>
    obtain ⟨r', h⟩ := wireOf_call ho
    cases h
    simp [byCall]

theorem wireLog_one (s : Sys) (e : SysEvent) : wireLog [e] s = (wireOf s e).toList := by
  simp [wireLog]

theorem pool_stays (s : Sys) (e : SysEvent) (h : s.pool = none) : (s.step e).2.pool = none := by
  have := C53_dropped_stays s [e] h
  simpa [Sys.run] using this

/-- Every call is in a state that tells what it has done. -/
theorem told_reach (size : Nat) (evs : List SysEvent) :
    (∀ i y v b, (Sys.run evs (.new size)).2.calls[i]? = some y →
      (asked evs)[i]? = some (y.proc, y.addr, v, b) →
      Told evs (Sys.run evs (.new size)).2.pool (Sys.run evs (.new size)).1 i y.proc y.addr v b y.st
        (byCall i (wireLog evs (.new size)))) ∧
    ∀ i, (Sys.run evs (.new size)).2.calls.length ≤ i → byCall i (wireLog evs (.new size)) = [] := by
  induction evs using snoc_induction with
  | nil => exact ⟨fun i y v b hy => by simp [Sys.run, Sys.new] at hy, fun i _ => rfl⟩
  | snoc evs e ih =>
    obtain ⟨ih, fresh⟩ := ih
    have hreach := C51_rejected size (evs ++ [e])
    have haim := (reach_inv size (evs ++ [e])).connecting
    have hask := asked_call size evs
    have hlen : (Sys.run evs (.new size)).2.calls.length = (asked evs).length :=
      (wire_reach size evs).2.len
    have hrun : Sys.run (evs ++ [e]) (.new size) =
        ((Sys.run evs (.new size)).1 ++ ((Sys.run evs (.new size)).2.step e).1,
          ((Sys.run evs (.new size)).2.step e).2) := by
      rw [sys_run_append]; simp [Sys.run]
    rw [hrun] at hreach haim ⊢
    rw [wireLog_append, wireLog_one]
    simp only [byCall_append]
    generalize (Sys.run evs (.new size)).2 = s at *
    generalize (Sys.run evs (.new size)).1 = log at *
    generalize wireLog evs (.new size) = W at *
    have hlog : ∀ a, refusedTo a log ≤ refusedTo a (log ++ (s.step e).1) := by
      intro a; rw [Sys.refusedTo_append]; exact Nat.le_add_right _ _
    refine ⟨fun i y' v b hy' ha' => ?_, fun i hi => ?_⟩
    · cases hy : s.calls[i]? with
      | none =>
        have hge : s.calls.length ≤ i := by
          rcases Nat.lt_or_ge i s.calls.length with h | h
          · rw [List.getElem?_eq_getElem h] at hy; cases hy
          · exact h
        have hlt : i < (s.step e).2.calls.length := (List.getElem?_eq_some_iff.1 hy').1
        by_cases hc : ∃ p a v b, e = .call p a v b
        · obtain ⟨p, a, v', b', rfl⟩ := hc
          have hcalls : (s.step (.call p a v' b')).2.calls =
              s.calls ++ [⟨p, a, .waiting (.new v' b')⟩] := by
            simp [Sys.step, Sys.call, Sys.send_calls]
          rw [hcalls, List.length_append, List.length_singleton] at hlt
          obtain rfl : i = s.calls.length := by omega
          rw [hcalls, List.getElem?_append_right (Nat.le_refl _), Nat.sub_self] at hy'
          cases hy'
          rw [asked_append, hlen, List.getElem?_append_right (Nat.le_refl _), Nat.sub_self] at ha'
          cases ha'
          rw [fresh _ hge, byCall_other (by simp)]
          exact .waiting
        · rw [step_length s e fun p a v b h => hc ⟨p, a, v, b, h⟩] at hlt
          omega
      | some y =>
        obtain ⟨v0, b0, ha⟩ := hask i y hy
        have ha2 : (asked (evs ++ [e]))[i]? = some (y.proc, y.addr, v0, b0) := by
          rw [asked_append, List.getElem?_append_left (List.getElem?_eq_some_iff.1 ha).1]
          exact ha
        rw [ha'] at ha2
        simp only [Option.some.injEq, Prod.mk.injEq] at ha2
        obtain ⟨h1, h2, rfl, rfl⟩ := ha2
        have hold := (ih i y v b hy ha).mono (evs' := evs ++ [e]) (pool' := (s.step e).2.pool)
          (fun x hx => List.mem_append_left _ hx) (pool_stays s e) (hlog _)
        rw [← h1, ← h2] at hold
        by_cases hp : ∃ r, e = .poll i r
        · obtain ⟨r, rfl⟩ := hp
          have hs := poll_calls s i r y hy
          have hy1 : (s.step (.poll i r)).2.calls[i]? =
              some { y with st := polled s.pool.isSome s.next y.proc r y.st } := by
            rw [show (s.step (.poll i r)).2 = (s.poll i r).2 from rfl, hs]
            exact set_get_self hy
          rw [hy'] at hy1
          obtain rfl := Option.some.inj hy1
          rw [byCall_own]
          have hpe : (s.step (.poll i r)).2.pool = (s.poll i r).2.pool := rfl
          simp only [wireOf, hy]
          dsimp only at hold ⊢
          generalize hT : byCall i W = T at hold ⊢
          generalize hst : y.st = st at hold ⊢
          cases hold with
          | waiting =>
            cases hpool : s.pool with
            | some _ => exact .waiting
            | none => exact .orphan (pool_stays s _ hpool)
          | @replied f hf hd =>
            cases f with
            | ready c => exact told_begin c
            | failed => exact .refused (hf rfl)
            | connecting d =>
              cases r with
              | connected => exact told_begin s.next
              | failed =>
                refine .refused ?_
                have hlog' : (s.step (.poll i .failed)).1 = [.refused i d] := by
                  simp only [Sys.step, Sys.poll, hy, hst]
                rw [Sys.refusedTo_append, hlog', hd d rfl]
                simp [refusedTo]
              | notReady => exact .replied hf hd
              | written => exact .replied hf hd
              | head _ _ => exact .replied hf hd
              | body _ => exact .replied hf hd
          | write h => exact told_active (.write h) r (by rintro rfl; simp)
          | readHead h => exact told_active (.readHead h) r (by rintro rfl; simp)
          | readBody h h' => exact told_active (.readBody h h') r (by rintro rfl; simp)
          | done h h' h'' => simp only [Option.toList, List.append_nil]; exact .done h h' h''
          | unsent h => exact .unsent h
          | unread h h' h'' => simp only [Option.toList, List.append_nil]; exact .unread h h' h''
          | orphan h => exact .orphan h
          | refused h => exact .refused h
          | broken h h' h'' => simp only [Option.toList, List.append_nil]; exact .broken h h' h''
          | panicked h => exact .panicked h
          | dropped => exact .dropped
        · have hp : ∀ r, e ≠ .poll i r := fun r hr => hp ⟨r, hr⟩
          rw [byCall_other hp, List.append_nil]
          obtain ⟨y1, hy1, -, hch⟩ := step_changes s e i y hy
          rw [hy'] at hy1
          cases hy1
          generalize hst' : y'.st = st' at hch ⊢
          generalize hst : y.st = st at hch hold
          cases hch with
          | same => exact hold
          | reply =>
            generalize hT : byCall i W = T at hold
            cases hold with
            | waiting =>
              exact .replied (fun hf => hreach i y' _ hy' (by rw [hst', hf]))
                fun d hd => haim i y' _ d hy' (by rw [hst', hd])
          | poll => exact absurd rfl (hp _)
          | dropped => exact .dropped
          | late => exact hold
    · have hge : s.calls.length ≤ i := by
        by_cases hc : ∃ p a v b, e = .call p a v b
        · obtain ⟨p, a, v', b', rfl⟩ := hc
          have hcalls : (s.step (.call p a v' b')).2.calls =
              s.calls ++ [⟨p, a, .waiting (.new v' b')⟩] := by
            simp [Sys.step, Sys.call, Sys.send_calls]
          rw [hcalls, List.length_append] at hi
          exact Nat.le_trans (Nat.le_add_right _ _) hi
        · rwa [step_length s e fun p a v b h => hc ⟨p, a, v, b, h⟩] at hi
      rw [fresh i hge, List.nil_append]
      by_cases hp : ∃ r, e = .poll i r
      · obtain ⟨r, rfl⟩ := hp
        have : s.calls[i]? = none := List.getElem?_eq_none hge
        simp only [wireOf, this]
        rfl
      · exact byCall_other fun r hr => hp ⟨r, hr⟩

/-! ### C95 -/

variable (size : Nat) (evs : List SysEvent) (i : Nat) (y : PCall)

/-- **C95.** A call that fails with `Invalid` has either not sent anything, because its request cannot
be expressed; or it has sent its request and has read a complete response which has no meaning for the
declared type. -/
theorem C95_invalid (hy : (Sys.run evs (.new size)).2.calls[i]? = some y)
    (hst : y.st = .failed .invalid) :
    ∃ v b, (asked evs)[i]? = some (y.proc, y.addr, v, b) ∧
      ((serRequest y.proc.method y.proc.entry v b = .err .invalid ∧
          byCall i (wireLog evs (.new size)) = []) ∨
        ∃ c r code hs x, serRequest y.proc.method y.proc.entry v b = .ok r ∧
          Answered i c r code hs x (byCall i (wireLog evs (.new size))) ∧
          ∀ w, deResponse y.proc.resTy code hs ≠ .ok w) := by
  obtain ⟨v, b, ha⟩ := asked_call size evs i y hy
  refine ⟨v, b, ha, ?_⟩
  have h := (told_reach size evs).1 i y v b hy ha
  rw [hst] at h
  generalize byCall i (wireLog evs (.new size)) = T at h ⊢
  cases h with
  | unsent h => exact .inl ⟨h, rfl⟩
  | unread h1 h2 h3 => exact .inr ⟨_, _, _, _, _, h1, h2, fun w hw => by rw [h3] at hw; cases hw⟩

/-- **C95.** A call that fails with `Other` has not read a complete response. Either it has not sent
anything, and then the pool was dropped or an attempt to connect to its address failed; or its
connection failed after it had begun to write the request. -/
theorem C95_other (hy : (Sys.run evs (.new size)).2.calls[i]? = some y)
    (hst : y.st = .failed .other) :
    ∃ v b, (asked evs)[i]? = some (y.proc, y.addr, v, b) ∧
      ((byCall i (wireLog evs (.new size)) = [] ∧
          ((Sys.run evs (.new size)).2.pool = none ∨
            0 < refusedTo y.addr (Sys.run evs (.new size)).1)) ∨
        ∃ c r, serRequest y.proc.method y.proc.entry v b = .ok r ∧
          Unanswered i c r (byCall i (wireLog evs (.new size))) ∧ .poll i .failed ∈ evs) := by
  obtain ⟨v, b, ha⟩ := asked_call size evs i y hy
  refine ⟨v, b, ha, ?_⟩
  have h := (told_reach size evs).1 i y v b hy ha
  rw [hst] at h
  generalize byCall i (wireLog evs (.new size)) = T at h ⊢
  cases h with
  | orphan h => exact .inl ⟨rfl, .inl h⟩
  | refused h => exact .inl ⟨rfl, .inr h⟩
  | broken h1 h2 h3 => exact .inr ⟨_, _, h1, h2, h3⟩

/-- **C95.** A call that completes has sent its request once, and its result is the meaning of the
response that it has read completely. -/
theorem C95_done (hy : (Sys.run evs (.new size)).2.calls[i]? = some y) (w : Val) (x : Bytes)
    (hst : y.st = .done w x) :
    ∃ v b c r code hs, (asked evs)[i]? = some (y.proc, y.addr, v, b) ∧
      serRequest y.proc.method y.proc.entry v b = .ok r ∧
      Answered i c r code hs x (byCall i (wireLog evs (.new size))) ∧
      deResponse y.proc.resTy code hs = .ok w := by
  obtain ⟨v, b, ha⟩ := asked_call size evs i y hy
  have h := (told_reach size evs).1 i y v b hy ha
  rw [hst] at h
  generalize byCall i (wireLog evs (.new size)) = T at h ⊢
  cases h with
  | done h1 h2 h3 => exact ⟨v, b, _, _, _, _, ha, h1, h2, h3⟩

/-- **C95.** A call that panics has not sent anything: it is the serialization of its request that
panics, never the response. -/
theorem C95_panicked (hy : (Sys.run evs (.new size)).2.calls[i]? = some y) (hst : y.st = .panicked) :
    byCall i (wireLog evs (.new size)) = [] ∧
      ∃ v b, (asked evs)[i]? = some (y.proc, y.addr, v, b) ∧
        ∀ x, serRequest y.proc.method y.proc.entry v b ≠ .err x ∧
          ∀ r, serRequest y.proc.method y.proc.entry v b ≠ .ok r := by
  obtain ⟨v, b, ha⟩ := asked_call size evs i y hy
  have h := (told_reach size evs).1 i y v b hy ha
  rw [hst] at h
  generalize byCall i (wireLog evs (.new size)) = T at h ⊢
  cases h with
  | panicked h => exact ⟨rfl, v, b, ha, fun x => by rw [h]; exact ⟨nofun, nofun⟩⟩

omit [FloatText] in
theorem answered_not_unanswered {c c' : Conn} {r r' : Request} {code : Nat} {hs : List Header}
    {x : Bytes} {T : List (Conn × WireStep)} (h : Answered i c r code hs x T) :
    T ≠ [] ∧ ¬ Unanswered i c' r' T := by
  cases h with
  | head h => exact ⟨by simp, fun h' => by cases h' with | head h' => exact h' h⟩
  | full h => exact ⟨by simp, fun h' => by cases h'⟩

/-- **C95.** So the kind of the error says whether the server has answered: a call whose request can be
expressed fails with `Invalid` exactly if it has read a complete response, and with `Other` exactly if
it has not. -/
theorem C95_kind (hy : (Sys.run evs (.new size)).2.calls[i]? = some y) (k : Kind)
    (hst : y.st = .failed k) (v : Val) (b : Bytes)
    (ha : (asked evs)[i]? = some (y.proc, y.addr, v, b))
    (hs : ∃ r, serRequest y.proc.method y.proc.entry v b = .ok r) :
    k = .invalid ↔
      ∃ c r code hs x, Answered i c r code hs x (byCall i (wireLog evs (.new size))) := by
  obtain ⟨r0, hr0⟩ := hs
  constructor
  · rintro rfl
    obtain ⟨v', b', ha', h | ⟨c, r, code, hs, x, -, h, -⟩⟩ := C95_invalid size evs i y hy hst
    · rw [ha] at ha'
      cases ha'
      rw [hr0] at h
      cases h.1
    · exact ⟨c, r, code, hs, x, h⟩
  · rintro ⟨c, r, code, hs, x, h⟩
    cases k with
    | invalid => rfl
    | other =>
      obtain ⟨v', b', -, h' | ⟨c', r', -, h', -⟩⟩ := C95_other size evs i y hy hst
      · exact absurd h'.1 (answered_not_unanswered (c' := c) (r' := r) i h).1
      · exact absurd h' (answered_not_unanswered i h).2

end

/-! ### Examples -/

section Examples

/-- The first call gets a response with a status that no variant has; the connection of the second
fails when it has written its request; the third cannot connect. -/
def exFailures : List SysEvent :=
  [.call exProc exA exCallArgs [1], .handle 0, .poll 0 .connected, .poll 0 .written,
   .poll 0 (.head 599 []), .poll 0 (.body [7]),
   .call exProc exA exCallArgs [1], .handle 1, .handle 1, .poll 1 .connected, .poll 1 .written,
   .poll 1 .failed,
   .call exProc exB exCallArgs [1], .handle 2, .handle 2, .poll 2 .failed]

/-- `C95_invalid`, `C95_other`, `C95_kind`: all cases occur. -/
example : letI := toyFloat
    ∃ c c' r s, Sys.run exFailures (.new 3) = s ∧
      s.2.calls = [⟨exProc, exA, .failed .invalid⟩, ⟨exProc, exA, .failed .other⟩,
        ⟨exProc, exB, .failed .other⟩] ∧
      serRequest exProc.method exProc.entry exCallArgs [1] = .ok r ∧
      Answered 0 c r 599 [] [7] (byCall 0 (wireLog exFailures (.new 3))) ∧
      Unanswered 1 c' r (byCall 1 (wireLog exFailures (.new 3))) ∧
      byCall 2 (wireLog exFailures (.new 3)) = [] ∧ 0 < refusedTo exB s.1 := by
  let := toyFloat
  obtain ⟨r, hr⟩ := exCall_sent [1]
  have hd : deResponse exProc.resTy 599 [] = .err .invalid := rfl
  have hm : exProc.method ≠ .head := by decide
  have hrm := serRequest_method hr
  have h : ∃ s, Sys.run exFailures (.new 3) = s ∧
      s.2.calls = [⟨exProc, exA, .failed .invalid⟩, ⟨exProc, exA, .failed .other⟩,
        ⟨exProc, exB, .failed .other⟩] ∧ 0 < refusedTo exB s.1 := by
    refine ⟨_, rfl, ?_⟩
    simp [exFailures, Sys.run, Sys.step, Sys.call, Sys.send, Sys.new, Sys.poll, Sys.handle,
      Cmd.event, Pool.step, Pool.handleAcquire, Pool.acquire, Pool.withSize, BTreeMap.firstFrom,
      Sys.reply, Sys.setCall, CallInner.new, hr, Sys.settle, callStep, callDecode, hd, hm,
      ConnId.lt, exA, exB, refusedTo]
  have hw : ∃ c', byCall 0 (wireLog exFailures (.new 3)) =
        [(0, .sends 0 r), (0, .sent 0), (0, .head 0 599 []), (0, .body 0 [7])] ∧
      byCall 1 (wireLog exFailures (.new 3)) = [(c', .sends 1 r), (c', .sent 1)] ∧
      byCall 2 (wireLog exFailures (.new 3)) = [] := by
    refine ⟨1, ?_⟩
    simp [byCall, WireStep.call, wireLog, wireOf, ioStep, begins, exFailures, Sys.step, Sys.call,
      Sys.send, Sys.new, Sys.poll, Sys.handle,
      Cmd.event, Pool.step, Pool.handleAcquire, Pool.acquire, Pool.withSize, BTreeMap.firstFrom,
      Sys.reply, Sys.setCall, CallInner.new, hr, Sys.settle, callStep, callDecode, hd, hm,
      ConnId.lt, exA, exB]
  obtain ⟨s, h1, h2, h3⟩ := h
  obtain ⟨c', w0, w1, w2⟩ := hw
  refine ⟨0, c', r, s, h1, h2, hr, ?_, ?_, w2, h3⟩
  · rw [w0]; exact .full (hrm ▸ hm)
  · rw [w1]; exact .sent

end Examples
end Htrpc
