/-
What goes over the connections of a pool.
-/
import Verif.Spec.PoolSystem

namespace Htrpc.Spec

/-- What call `i` does on a connection. -/
inductive WireStep where
  /-- It begins to write this request (src/client.rs:86-99). -/
  | sends (i : Nat) (r : Request)
  /-- The request is written completely. -/
  | sent (i : Nat)
  /-- It has read the head of a response. -/
  | head (i : Nat) (code : Nat) (hs : List Header)
  /-- It has read the body of a response. -/
  | body (i : Nat) (b : Bytes)
deriving DecidableEq, Repr

section
variable [FloatText]

/-- The request which a call writes as soon as it has a connection. -/
def begins (i : Nat) (p : Proc) (inner : CallInner) (c : Conn) : Option (Conn × WireStep) :=
  match callStep p inner .connected with
  | .next ⟨_, .write r⟩ => some (c, .sends i r)
  | _ => none

/-- What a call in this phase does on its connection. -/
def ioStep (i : Nat) (c : Conn) : CallPhase → IoResult → Option (Conn × WireStep)
  | .write _, .written => some (c, .sent i)
  | .readHead, .head code hs => some (c, .head i code hs)
  | .readBody _ _, .body b => some (c, .body i b)
  | _, _ => none

/-- What goes over which connection if this happens in this state. -/
def wireOf (s : Sys) : SysEvent → Option (Conn × WireStep)
  | .poll i r =>
    match s.calls[i]? with
    | none => none
    | some y =>
      match y.st with
      | .replied inner (.ready c) => begins i y.proc inner c
      | .replied inner (.connecting _) => if r = .connected then begins i y.proc inner s.next else none
      | .active c inner => ioStep i c inner.phase r
      | _ => none
  | _ => none

/-- Everything that goes over connections in an execution. -/
def wireLog : List SysEvent → Sys → List (Conn × WireStep)
  | [], _ => []
  | e :: es, s => (wireOf s e).toList ++ wireLog es (s.step e).2

end

/-- The part of one connection. -/
def onConn (c : Conn) (w : List (Conn × WireStep)) : List WireStep :=
  w.filterMap fun x => if x.1 = c then some x.2 else none

/-- A request and its response; there is no body to be read for `HEAD`. -/
inductive Exchanged (i : Nat) : List WireStep → Prop where
  | head {r code hs} : r.method = .head → Exchanged i [.sends i r, .sent i, .head i code hs]
  | full {r code hs b} : r.method ≠ .head →
      Exchanged i [.sends i r, .sent i, .head i code hs, .body i b]

/-- Requests with their responses, one after another. -/
inductive InTurn : List WireStep → Prop where
  | nil : InTurn []
  | snoc {l i x} : InTurn l → Exchanged i x → InTurn (l ++ x)

/-- Requests with their responses, one after another, the last of them possibly not finished. -/
def Turns (l : List WireStep) : Prop :=
  ∃ done x rest i, l = done ++ x ∧ InTurn done ∧ Exchanged i (x ++ rest)

/-- The requests, with the calls that sent them. -/
def requestsOn (l : List WireStep) : List (Nat × Request) :=
  l.filterMap fun
    | .sends i r => some (i, r)
    | _ => none

/-- The calls: procedure, address, request and body. -/
def asked (evs : List SysEvent) : List (Proc × Addr × Val × Bytes) :=
  evs.filterMap fun
    | .call p a v body => some (p, a, v, body)
    | _ => none

/-- A request and its response, with the result of the call. -/
inductive Completed [FloatText] (i : Nat) (p : Proc) (v : Val) : Bytes → List WireStep → Prop where
  | head {r code hs} : r.method = .head → deResponse p.resTy code hs = .ok v →
      Completed i p v [] [.sends i r, .sent i, .head i code hs]
  | full {r code hs b} : r.method ≠ .head → deResponse p.resTy code hs = .ok v →
      Completed i p v b [.sends i r, .sent i, .head i code hs, .body i b]

end Htrpc.Spec
