/-
Properties of a call (C55).
-/
import Verif.Spec.Client
import Verif.Model.Client
import Verif.Lemmas.Total
import Verif.Props.Request

namespace Htrpc
open Spec

variable [FloatText]

/-- How far a call has come: the phases entered so far and the results seen so far. -/
inductive CallAt (p : Proc) (v : Val) (body : Bytes) (seen : List IoResult) :
    List CallPhase → CallInner → Prop where
  | connect : CallAt p v body seen [] ⟨some (v, body), .connect⟩
  | write {r} : serRequest p.method p.entry v body = .ok r →
      CallAt p v body seen [.write r] ⟨none, .write r⟩
  | readHead {r} : serRequest p.method p.entry v body = .ok r →
      CallAt p v body seen [.write r, .readHead] ⟨none, .readHead⟩
  | readBody {r code hs} : serRequest p.method p.entry v body = .ok r → p.method ≠ .head →
      .head code hs ∈ seen →
      CallAt p v body seen [.write r, .readHead, .readBody code hs] ⟨none, .readBody code hs⟩

/-- How a call ended. -/
inductive CallEnds (p : Proc) (v : Val) (body : Bytes) (seen : List IoResult) :
    List CallPhase → CallEnd → Prop where
  | pending {phs st} : CallAt p v body seen phs st → CallEnds p v body seen phs (.pending st)
  | io {phs st} : .failed ∈ seen → CallAt p v body seen phs st →
      CallEnds p v body seen phs (.failed .other)
  | request {k} : serRequest p.method p.entry v body = .err k →
      CallEnds p v body seen [] (.failed k)
  | panicked : serRequest p.method p.entry v body = .panic → CallEnds p v body seen [] .panicked
  | head {r code hs w} : serRequest p.method p.entry v body = .ok r → p.method = .head →
      .head code hs ∈ seen → deResponse p.resTy code hs = .ok w →
      CallEnds p v body seen [.write r, .readHead] (.ready w [])
  | headRejected {r code hs} : serRequest p.method p.entry v body = .ok r → p.method = .head →
      .head code hs ∈ seen → deResponse p.resTy code hs = .err .invalid →
      CallEnds p v body seen [.write r, .readHead] (.failed .invalid)
  | body {r code hs w b} : serRequest p.method p.entry v body = .ok r → p.method ≠ .head →
      .head code hs ∈ seen → .body b ∈ seen → deResponse p.resTy code hs = .ok w →
      CallEnds p v body seen [.write r, .readHead, .readBody code hs] (.ready w b)
  | bodyRejected {r code hs b} : serRequest p.method p.entry v body = .ok r → p.method ≠ .head →
      .head code hs ∈ seen → .body b ∈ seen → deResponse p.resTy code hs = .err .invalid →
      CallEnds p v body seen [.write r, .readHead, .readBody code hs] (.failed .invalid)

theorem CallAt.mono {p : Proc} {v : Val} {body : Bytes} {seen seen' : List IoResult}
    {phs : List CallPhase} {st : CallInner} (h : CallAt p v body seen phs st)
    (hs : ∀ r ∈ seen, r ∈ seen') : CallAt p v body seen' phs st := by
  cases h with
  | connect => exact .connect
  | write h => exact .write h
  | readHead h => exact .readHead h
  | readBody h1 h2 h3 => exact .readBody h1 h2 (hs _ h3)

theorem CallEnds.mono {p : Proc} {v : Val} {body : Bytes} {seen seen' : List IoResult}
    {phs : List CallPhase} {e : CallEnd} (h : CallEnds p v body seen phs e)
    (hs : ∀ r ∈ seen, r ∈ seen') : CallEnds p v body seen' phs e := by
  cases h with
  | pending h => exact .pending (h.mono hs)
  | io h1 h2 => exact .io (hs _ h1) (h2.mono hs)
  | request h => exact .request h
  | panicked h => exact .panicked h
  | head h1 h2 h3 h4 => exact .head h1 h2 (hs _ h3) h4
  | headRejected h1 h2 h3 h4 => exact .headRejected h1 h2 (hs _ h3) h4
  | body h1 h2 h3 h4 h5 => exact .body h1 h2 (hs _ h3) (hs _ h4) h5
  | bodyRejected h1 h2 h3 h4 h5 => exact .bodyRejected h1 h2 (hs _ h3) (hs _ h4) h5

/-- One round keeps the bookkeeping. -/
theorem callStep_at {p : Proc} {v : Val} {body : Bytes} {seen : List IoResult}
    {phs : List CallPhase} {st : CallInner} (h : CallAt p v body seen phs st) (r : IoResult)
    (hr : r ∈ seen) : match callStep p st r with
      | .pending => True
      | .next st' => CallAt p v body seen (phs ++ [st'.phase]) st'
      | .ready w b => CallEnds p v body seen phs (.ready w b)
      | .failed k => CallEnds p v body seen phs (.failed k)
      | .panicked => CallEnds p v body seen phs .panicked := by
  cases r with
  | notReady => exact trivial
  | failed => exact .io hr h
  | connected =>
    cases h with
    | connect =>
      simp only [callStep]
      cases hs : serRequest p.method p.entry v body with
      | ok r => exact .write hs
      | err k => exact .request hs
      | panic => exact .panicked hs
    | write => exact trivial
    | readHead => exact trivial
    | readBody => exact trivial
  | written =>
    cases h with
    | connect => exact trivial
    | write hs => exact .readHead hs
    | readHead => exact trivial
    | readBody => exact trivial
  | head code hs =>
    cases h with
    | connect => exact trivial
    | write => exact trivial
    | readBody => exact trivial
    | readHead hq =>
      simp only [callStep]
      by_cases hm : p.method = .head
      · rw [if_pos hm, callDecode]
        rcases (deResponse_sat p.resTy code hs).ok_or_invalid with ⟨w, hw⟩ | hw
        · rw [hw]; exact .head hq hm hr hw
        · rw [hw]; exact .headRejected hq hm hr hw
      · rw [if_neg hm]; exact .readBody hq hm hr
  | body b =>
    cases h with
    | connect => exact trivial
    | write => exact trivial
    | readHead => exact trivial
    | @readBody q code hs hq hm hh =>
      simp only [callStep, callDecode]
      rcases (deResponse_sat p.resTy code hs).ok_or_invalid with ⟨w, hw⟩ | hw
      · rw [hw]; exact .body hq hm hh hr hw
      · rw [hw]; exact .bodyRejected hq hm hh hr hw

theorem callRun_ends {p : Proc} {v : Val} {body : Bytes} (rs : List IoResult)
    {seen : List IoResult} {phs : List CallPhase} {st : CallInner}
    (h : CallAt p v body seen phs st) (hseen : ∀ r ∈ rs, r ∈ seen) :
    CallEnds p v body seen (phs ++ (callRun p st rs).1) (callRun p st rs).2 := by
  induction rs generalizing phs st with
  | nil => rw [callRun, List.append_nil]; exact .pending h
  | cons r rs ih =>
    have hr := hseen r List.mem_cons_self
    have hrs : ∀ r ∈ rs, r ∈ seen := fun r hr => hseen r (List.mem_cons_of_mem _ hr)
    have hstep := callStep_at h r hr
    rw [callRun]
    cases hc : callStep p st r with
    | pending => exact ih h hrs
    | next st' =>
      rw [hc] at hstep
      have := ih hstep hrs
      rw [List.append_assoc] at this
      exact this
    | ready w b => rw [hc] at hstep; simpa using hstep
    | failed k => rw [hc] at hstep; simpa using hstep
    | panicked => rw [hc] at hstep; simpa using hstep

theorem call_ends (p : Proc) (v : Val) (body : Bytes) (rs : List IoResult) :
    CallEnds p v body rs (callRun p (.new v body) rs).1 (callRun p (.new v body) rs).2 := by
  exact callRun_ends rs (.connect : CallAt p v body rs [] (.new v body)) fun _ h => h

/-- **C55.** Whatever the connection does, a call enters a prefix of: write the request, read the
head of the response, read its body; the request is the one built from the arguments, and the body
is not read for `HEAD`. -/
theorem C55_phases (p : Proc) (v : Val) (body : Bytes) (rs : List IoResult) :
    (callRun p (.new v body) rs).1 = [] ∨
    ∃ r, serRequest p.method p.entry v body = .ok r ∧
      ((callRun p (.new v body) rs).1 = [.write r] ∨
       (callRun p (.new v body) rs).1 = [.write r, .readHead] ∨
       p.method ≠ .head ∧ ∃ code hs, .head code hs ∈ rs ∧
         (callRun p (.new v body) rs).1 = [.write r, .readHead, .readBody code hs]) := by
  have at_phases : ∀ {phs st}, CallAt p v body rs phs st → phs = [] ∨
      ∃ r, serRequest p.method p.entry v body = .ok r ∧ (phs = [.write r] ∨
        phs = [.write r, .readHead] ∨ p.method ≠ .head ∧ ∃ code hs, .head code hs ∈ rs ∧
          phs = [.write r, .readHead, .readBody code hs]) := by
    intro phs st h
    cases h with
    | connect => exact .inl rfl
    | write h => exact .inr ⟨_, h, .inl rfl⟩
    | readHead h => exact .inr ⟨_, h, .inr (.inl rfl)⟩
    | readBody h1 h2 h3 => exact .inr ⟨_, h1, .inr (.inr ⟨h2, _, _, h3, rfl⟩)⟩
  have h := call_ends p v body rs
  generalize (callRun p (.new v body) rs).1 = phs at h ⊢
  generalize (callRun p (.new v body) rs).2 = e at h
  cases h with
  | pending h => exact at_phases h
  | io _ h => exact at_phases h
  | request _ => exact .inl rfl
  | panicked _ => exact .inl rfl
  | head h1 => exact .inr ⟨_, h1, .inr (.inl rfl)⟩
  | headRejected h1 => exact .inr ⟨_, h1, .inr (.inl rfl)⟩
  | body h1 h2 h3 => exact .inr ⟨_, h1, .inr (.inr ⟨h2, _, _, h3, rfl⟩)⟩
  | bodyRejected h1 h2 h3 => exact .inr ⟨_, h1, .inr (.inr ⟨h2, _, _, h3, rfl⟩)⟩

/-- **C55.** A call that completes has written its request, and its response is decoded from a
status and headers that were received; the body is the one received, and empty for `HEAD`. -/
theorem C55_ready (p : Proc) (v : Val) (body : Bytes) (rs : List IoResult) (w : Val) (b : Bytes)
    (h : (callRun p (.new v body) rs).2 = .ready w b) :
    ∃ r code hs, serRequest p.method p.entry v body = .ok r ∧ .head code hs ∈ rs ∧
      deResponse p.resTy code hs = .ok w ∧
      (if p.method = .head then
        (callRun p (.new v body) rs).1 = [.write r, .readHead] ∧ b = []
       else (callRun p (.new v body) rs).1 = [.write r, .readHead, .readBody code hs] ∧
        .body b ∈ rs) := by
  have hc := call_ends p v body rs
  rw [h] at hc
  generalize (callRun p (.new v body) rs).1 = phs at hc ⊢
  cases hc with
  | head h1 h2 h3 h4 => exact ⟨_, _, _, h1, h3, h4, by rw [if_pos h2]; exact ⟨rfl, rfl⟩⟩
  | body h1 h2 h3 h4 h5 => exact ⟨_, _, _, h1, h3, h5, by rw [if_neg h2]; exact ⟨rfl, h4⟩⟩

/-- **C55.** A failing call reports `Other` for a failure of the connection, and otherwise the error
of building the request or `Invalid` for a response that does not decode. -/
theorem C55_failed (p : Proc) (v : Val) (body : Bytes) (rs : List IoResult) (k : Kind)
    (h : (callRun p (.new v body) rs).2 = .failed k) :
    (.failed ∈ rs ∧ k = .other) ∨ serRequest p.method p.entry v body = .err k ∨
      (k = .invalid ∧ ∃ code hs, .head code hs ∈ rs ∧
        deResponse p.resTy code hs = .err .invalid) := by
  have hc := call_ends p v body rs
  rw [h] at hc
  generalize (callRun p (.new v body) rs).1 = phs at hc
  cases hc with
  | io h1 _ => exact .inl ⟨h1, rfl⟩
  | request h => exact .inr (.inl h)
  | headRejected _ _ h3 h4 => exact .inr (.inr ⟨rfl, _, _, h3, h4⟩)
  | bodyRejected _ _ h3 _ h5 => exact .inr (.inr ⟨rfl, _, _, h3, h5⟩)

/-- **C55.** A call panics only where building its request does. -/
theorem C55_panicked (p : Proc) (v : Val) (body : Bytes) (rs : List IoResult)
    (h : (callRun p (.new v body) rs).2 = .panicked) :
    serRequest p.method p.entry v body = .panic := by
  have hc := call_ends p v body rs
  rw [h] at hc
  generalize (callRun p (.new v body) rs).1 = phs at hc
  cases hc with
  | panicked h => exact h

/-- Running on. -/
theorem callRun_append (p : Proc) (rs rs' : List IoResult) (st st' : CallInner)
    (h : (callRun p st rs).2 = .pending st') :
    callRun p st (rs ++ rs') = ((callRun p st rs).1 ++ (callRun p st' rs').1,
      (callRun p st' rs').2) := by
  induction rs generalizing st with
  | nil => cases h; rfl
  | cons r rs ih =>
    rw [callRun] at h
    rw [List.cons_append, callRun, callRun]
    cases hc : callStep p st r with
    | pending => rw [hc] at h; exact ih st h
    | next st2 =>
      rw [hc] at h
      simp only at h ⊢
      rw [ih st2 h]
      rfl
    | ready w b => rw [hc] at h; cases h
    | failed k => rw [hc] at h; cases h
    | panicked => rw [hc] at h; cases h

/-- **C55.** A failure at any moment before the end makes the call fail at once: no phase is entered
after it, whatever happens. -/
theorem C55_failure_ends (p : Proc) (v : Val) (body : Bytes) (rs rs' : List IoResult)
    (st : CallInner) (h : (callRun p (.new v body) rs).2 = .pending st) :
    callRun p (.new v body) (rs ++ .failed :: rs') =
      ((callRun p (.new v body) rs).1, .failed .other) := by
  rw [callRun_append p rs _ _ st h, callRun]
  simp [callStep]

theorem callRun_skip (p : Proc) (st : CallInner) (rs : List IoResult) :
    callRun p st rs = callRun p st (rs.filter Happened) := by
  induction rs generalizing st with
  | nil => rfl
  | cons r rs ih =>
    by_cases hr : r = .notReady
    · subst hr
      rw [List.filter_cons_of_neg (by simp [Happened]), callRun]
      exact ih st
    · rw [List.filter_cons_of_pos (by simpa [Happened] using hr), callRun, callRun]
      cases callStep p st r with
      | pending => exact ih st
      | next st' => simp only; rw [ih st']
      | ready => rfl
      | failed => rfl
      | panicked => rfl

/-- **C55.** If the request can be built and the response decodes, the call completes with it as
soon as connecting, writing and reading have succeeded, however often it has to wait. -/
theorem C55_completes (p : Proc) (v : Val) (body : Bytes) (rs : List IoResult) (r : Request)
    (code : Nat) (hs : List Header) (w : Val) (b : Bytes)
    (hreq : serRequest p.method p.entry v body = .ok r)
    (hres : deResponse p.resTy code hs = .ok w)
    (hrs : rs.filter Happened =
      if p.method = .head then [.connected, .written, .head code hs]
      else [.connected, .written, .head code hs, .body b]) :
    (callRun p (.new v body) rs).2 = .ready w (if p.method = .head then [] else b) := by
  rw [callRun_skip, hrs]
  by_cases hm : p.method = .head
  · rw [if_pos hm, if_pos hm]
    simp [callRun, callStep, CallInner.new, hm, callDecode, hres]
    rw [← hm, hreq]
  · rw [if_neg hm, if_neg hm]
    simp [callRun, callStep, CallInner.new, hreq, hm, callDecode, hres]

end Htrpc

/-! ### Examples -/

namespace Htrpc
open Spec

section Examples

/-- A procedure `GET /a/{}` whose response is `Ok` or `NotFound`. -/
def exProc : Proc where
  method := .other 0
  entry := [.val ['a'], .var]
  resTy := .enum [("Ok".toList, .unit), ("NotFound".toList, .unit)]

/-- Its request `{ path: (7,) }`. -/
def exCallArgs : Val := .struct [("path".toList, .tuple [.int .u8 7])]

theorem exCall_sent (body : Bytes) : letI := toyFloat
    ∃ r, serRequest exProc.method exProc.entry exCallArgs body = .ok r := by
  let := toyFloat
  have := C23_in_order exProc.method exProc.entry (some (.tuple [.int .u8 7])) none none body
  rw [if_neg (by simp), requestOf] at this
  obtain ⟨path, h⟩ := (C09_arity exProc.entry ['/'] (.tuple [.int .u8 7]) [.int .u8 7] (.tuple _)
    (by intro w hw; simp at hw; subst hw; exact .int _ _)).1 rfl
  simp only [requestPath, requestQuery, requestHeaders, h] at this
  exact ⟨_, this⟩

/-- `C55_completes`: waiting before connecting and while reading the body. -/
example : letI := toyFloat
    (callRun exProc (.new exCallArgs [1])
      [.notReady, .connected, .written, .head 404 [], .notReady, .body [2, 3]]).2 =
      .ready (.unitVariant "NotFound".toList) [2, 3] := by
  let := toyFloat
  obtain ⟨r, hr⟩ := exCall_sent [1]
  exact C55_completes exProc exCallArgs [1] _ r 404 [] _ [2, 3] hr rfl rfl

/-- `C55_failure_ends`: the connection is lost after the request was written. -/
example (rs : List IoResult) : letI := toyFloat
    (callRun exProc (.new exCallArgs []) ([.connected, .written] ++ .failed :: rs)).2 =
      .failed .other := by
  let := toyFloat
  obtain ⟨r, hr⟩ := exCall_sent []
  refine congrArg Prod.snd (C55_failure_ends _ _ _ _ _ ⟨none, .readHead⟩ ?_)
  simp [callRun, callStep, CallInner.new, hr]

end Examples

end Htrpc
