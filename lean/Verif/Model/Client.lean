/-
src/client.rs: one call.
-/
import Verif.Model.ReqSer
import Verif.Model.RespDe

namespace Htrpc

/-- src/procedure.rs `Procedure`: method, entry point and response type. -/
structure Proc where
  method : Method
  entry : EntryPoint
  resTy : Ty

/-- The result of polling the future of the current phase (src/client.rs:84). -/
inductive IoResult where
  | notReady
  | failed
  /-- Phase A: there is a connection. -/
  | connected
  /-- Phase B: the request was written. -/
  | written
  /-- Phase C: status code and headers of the response. -/
  | head (code : Nat) (hs : List Header)
  /-- Phase D: the body. -/
  | body (b : Bytes)
deriving DecidableEq, Repr

/-- src/client.rs:69-74: what the future of the current phase does. -/
inductive CallPhase where
  | connect
  | write (r : Request)
  | readHead
  | readBody (code : Nat) (hs : List Header)
deriving DecidableEq, Repr

/-- src/client.rs:64-75 `CallInner`; the request with the body that `RpcRequest::body` returns. -/
structure CallInner where
  request : Option (Val × Bytes)
  phase : CallPhase

/-- src/client.rs:37-40, src/pool.rs:277-280. -/
def CallInner.new (v : Val) (body : Bytes) : CallInner := ⟨some (v, body), .connect⟩

/-- One round of the loop of src/client.rs:83-129. -/
inductive CallOutcome where
  /-- `NotReady`. -/
  | pending
  /-- The next phase. -/
  | next (st : CallInner)
  /-- The response and the body given to it with `set_body`. -/
  | ready (v : Val) (body : Bytes)
  | failed (k : Kind)
  | panicked

variable [FloatText]

/-- src/client.rs:117-124. -/
def callDecode (p : Proc) (code : Nat) (hs : List Header) (body : Bytes) : CallOutcome :=
  match deResponse p.resTy code hs with
  | .ok v => .ready v body
  | .err k => .failed k
  | .panic => .panicked

/-- One round of the loop of src/client.rs:83-129, given the result of polling the phase.  Failures
are of kind `Other` (src/error.rs:61-65, 75-83).  For `HEAD` the future of line 107 is ready at once, so
phase D is left in the same round.  A result that does not belong to the phase cannot occur and
counts as `NotReady`. -/
def callStep (p : Proc) (st : CallInner) : IoResult → CallOutcome
  | .notReady => .pending
  | .failed => .failed .other
  | .connected =>
    match st.phase with
    | .connect =>
      match st.request with
      | none => .panicked
      | some (v, body) =>
        match serRequest p.method p.entry v body with
        | .ok r => .next ⟨none, .write r⟩
        | .err k => .failed k
        | .panic => .panicked
    | _ => .pending
  | .written =>
    match st.phase with
    | .write _ => .next { st with phase := .readHead }
    | _ => .pending
  | .head code hs =>
    match st.phase with
    | .readHead =>
      if p.method = .head then callDecode p code hs []
      else .next { st with phase := .readBody code hs }
    | _ => .pending
  | .body b =>
    match st.phase with
    | .readBody code hs => callDecode p code hs b
    | _ => .pending

/-- How far a call has come. -/
inductive CallEnd where
  | pending (st : CallInner)
  | ready (v : Val) (body : Bytes)
  | failed (k : Kind)
  | panicked

/-- src/client.rs:82-130 `poll`, and polling again until it is not pending anymore: the phases
entered, and how far the call has come with these results. -/
def callRun (p : Proc) (st : CallInner) : List IoResult → List CallPhase × CallEnd
  | [] => ([], .pending st)
  | r :: rs =>
    match callStep p st r with
    | .pending => callRun p st rs
    | .next st =>
      let (phs, e) := callRun p st rs
      (st.phase :: phs, e)
    | .ready v b => ([], .ready v b)
    | .failed k => ([], .failed k)
    | .panicked => ([], .panicked)

end Htrpc
