/-
What is expected of the server, request by request.
-/
import Verif.Model.Server
import Verif.Spec.Routing

namespace Htrpc.Spec

variable [FloatText] [UrlText] [JsonText] [Wire]

/-- What is to be done with a request. -/
inductive Verdict where
  /-- Refuse it with this problem. -/
  | refuse (p : Problem)
  /-- Give this value to the handler of this service. -/
  | call (s : Service) (v : Val)

/-- 400 with the reason. -/
def badRequest (cfg : ServerCfg) (h : ReqHead) : Problem :=
  .trackable { title := (cfg.explain h).1, status := 400, detail := (cfg.explain h).2.1,
               inst := none, history := (cfg.explain h).2.2 }

/-- The registrations that count. -/
def table (cfg : ServerCfg) : List (Reg Service) := accepted (cfg.services.map Service.reg)

/-- The decision table. -/
inductive Judged (cfg : ServerCfg) (h : ReqHead) : Verdict → Prop where
  /-- The target is no URL. -/
  | noUrl : parseTarget cfg.oracle h.target = none → Judged cfg h (.refuse (badRequest cfg h))
  /-- There is no entry point for the path. -/
  | noPath {t segs} : parseTarget cfg.oracle h.target = some t → t.segs = some segs →
      dispatch h.method segs (table cfg) = .error .notFound →
      Judged cfg h (.refuse (.aboutBlank { title := cfg.phrase .notFound, status := 404 }))
  /-- There is no handler for the method. -/
  | noMethod {t segs} : parseTarget cfg.oracle h.target = some t → t.segs = some segs →
      dispatch h.method segs (table cfg) = .error .methodNotAllowed →
      Judged cfg h (.refuse (.aboutBlank { title := cfg.phrase .methodNotAllowed, status := 405 }))
  /-- The request does not decode. -/
  | undecodable {t segs s} : parseTarget cfg.oracle h.target = some t → t.segs = some segs →
      dispatch h.method segs (table cfg) = .ok s →
      (∀ v, deRequest s.entry s.reqTy t h.headers ≠ .ok v) →
      Judged cfg h (.refuse (badRequest cfg h))
  /-- The handler is to be called. -/
  | call {t segs s v} : parseTarget cfg.oracle h.target = some t → t.segs = some segs →
      dispatch h.method segs (table cfg) = .ok s →
      deRequest s.entry s.reqTy t h.headers = .ok v →
      Judged cfg h (.call s v)

/-- The target is a URL without a path that consists of segments, such as `a:b`. -/
def Pathless (cfg : ServerCfg) (h : ReqHead) : Prop :=
  ∃ t, parseTarget cfg.oracle h.target = some t ∧ t.segs = none

/-- The response for a problem with a known status. -/
def problemResponse (s : Status) (p : Problem) : Response where
  status := s
  headers := [(utf8 "content-type".toList, utf8 "application/problem+json".toList),
    contentLength (JsonText.render p.toJson)]
  body := JsonText.render p.toJson

/-- What is written for a response to a request: for `HEAD` everything but the body. -/
def onWire (h : ReqHead) (r : Response) : Response :=
  match h.method with
  | .head => { r with body := [] }
  | .other _ => r

/-- Everything that happens for one request, from reading its head until the response is written
completely. -/
inductive Exchange (cfg : ServerCfg) (h : ReqHead) : List ConnEffect → Prop where
  | refused {p s b} : Judged cfg h (.refuse p) → s.code = p.statusCode.toNat →
      Exchange cfg h [.read h, .drained b, .answer (onWire h (problemResponse s p)), .written]
  | served {s v w resp body r} : Judged cfg h (.call s v) → serResponse resp body = .ok r →
      Exchange cfg h [.read h, .invoked s v w, .returned resp body,
        .answer (onWire h r), .written]

/-- What has happened for a request that is not finished. -/
inductive Started (cfg : ServerCfg) (h : ReqHead) : List ConnEffect → Prop where
  | read : Started cfg h [.read h]
  | refusing {p s b} : Judged cfg h (.refuse p) → s.code = p.statusCode.toNat →
      Started cfg h [.read h, .drained b, .answer (onWire h (problemResponse s p))]
  | invoked {s v w} : Judged cfg h (.call s v) →
      Started cfg h [.read h, .invoked s v w]
  | returned {s v w resp body} : Judged cfg h (.call s v) →
      Started cfg h [.read h, .invoked s v w, .returned resp body]
  | serving {s v w resp body r} : Judged cfg h (.call s v) → serResponse resp body = .ok r →
      Started cfg h [.read h, .invoked s v w, .returned resp body,
        .answer (onWire h r)]

/-- Everything that was observed of a connection: finished exchanges one after another, then
possibly one that is not finished, then possibly the end.  The end is quiet only between
exchanges. -/
inductive Transcript (cfg : ServerCfg) : List ConnEffect → Prop where
  | exchange {h l rest} : Exchange cfg h l → Transcript cfg rest → Transcript cfg (l ++ rest)
  | idle : Transcript cfg []
  | finished : Transcript cfg [.finished]
  | failed : Transcript cfg [.warned]
  | started {h l} : Started cfg h l → Transcript cfg l
  | broken {h l} : Started cfg h l → Transcript cfg (l ++ [.warned])
  | panicked {h} : Pathless cfg h → Transcript cfg [.read h, .panicked]

/-! ### Parts of what was observed -/

/-- The requests that were read. -/
def reads (log : List ConnEffect) : List ReqHead :=
  log.filterMap fun
    | .read h => some h
    | _ => none

/-- The calls of handlers: the service, the request as decoded, and with its body. -/
def calls (log : List ConnEffect) : List (Service × Val × Val) :=
  log.filterMap fun
    | .invoked s v w => some (s, v, w)
    | _ => none

/-- The responses that were written at least in part. -/
def answers (log : List ConnEffect) : List Response :=
  log.filterMap fun
    | .answer r => some r
    | _ => none

/-- What the handlers returned. -/
def returned (log : List ConnEffect) : List (Val × Bytes) :=
  log.filterMap fun
    | .returned v b => some (v, b)
    | _ => none

/-- How many responses were written completely. -/
def writtenCount (log : List ConnEffect) : Nat :=
  (log.filter fun
    | .written => true
    | _ => false).length

/-- A request is read. -/
def isRead : ConnEffect → Bool
  | .read _ => true
  | _ => false

/-- An effect after which nothing may happen. -/
def isFinal : ConnEffect → Bool
  | .finished | .warned | .panicked => true
  | _ => false

/-- The requests that were read, each with what happened until the next one was read or the
connection ended. -/
def blocks : List ConnEffect → List (ReqHead × List ConnEffect)
  | [] => []
  | .read h :: l => (h, l.takeWhile fun e => !isRead e && !isFinal e) :: blocks l
  | _ :: l => blocks l

/-- The handler that is to be called for a request, and the value it decodes to. -/
def wanted (cfg : ServerCfg) (h : ReqHead) : Option (Service × Val) := do
  let t ← parseTarget cfg.oracle h.target
  let segs ← t.segs
  match dispatch h.method segs (table cfg) with
  | .error _ => none
  | .ok s =>
    match deRequest s.entry s.reqTy t h.headers with
    | .ok v => some (s, v)
    | _ => none

/-! ### Bytes -/

/-- A request as bytes: the head is recognised, and then the body, whatever follows. -/
structure Message (h : ReqHead) (b : Bytes) (bytes : Bytes) : Prop where
  parts : ∃ hb bb, bytes = hb ++ bb ∧ (∀ more, Wire.head (hb ++ more) = .done h more) ∧
    ∃ f, Wire.body h.headers = some f ∧ ∀ more, f (bb ++ more) = .done b more

/-- Requests one after another. -/
inductive Messages : List (ReqHead × Bytes) → Bytes → Prop where
  | nil : Messages [] []
  | cons {h b bytes ms rest} : Message h b bytes → Messages ms rest →
      Messages ((h, b) :: ms) (bytes ++ rest)

/-- No head of a request is found in these bytes. -/
def NoHead (junk : Bytes) : Prop := ∀ p h rest, p <+: junk → Wire.head p ≠ .done h rest

/-- All bytes that arrive in a history. -/
def arriving : List ConnEvent → Bytes
  | [] => []
  | .recv bs :: es => bs ++ arriving es
  | .close _ :: _ => []
  | _ :: es => arriving es

/-- What the `read_body` of the users makes of a decoded request and a body, as a relation: request
with body `w` from the decoded request `v` for the service `s` and the body `b`. -/
abbrev ReadBody := Service → Val → Bytes → Val → Prop

/-- Whenever `read_body` of the user is done, it has read exactly the body of the request, and its
result is related to this. -/
def ReadsWhole (cfg : ServerCfg) (g : ReadBody) : ConnState → List ConnEvent → Prop
  | _, [] => True
  | c, e :: es =>
    (∀ w rest, e = .bodyRead w rest → ∀ h s v, c.phase = .readBody h s v →
      ∀ f, Wire.body h.headers = some f → ∃ b, f c.input = .done b rest ∧ g s v b w) ∧
    ReadsWhole cfg g (c.step cfg e).1 es

/-- What became of the body of a request. -/
inductive BodyUse where
  /-- It has not been read. -/
  | pending
  /-- The server has dropped it. -/
  | dropped (b : Bytes)
  /-- A handler was called. -/
  | handed (s : Service) (v w : Val)

/-- The requests that were read, with what became of their bodies. -/
def received : List ConnEffect → List (ReqHead × BodyUse)
  | [] => []
  | .read h :: .drained b :: l => (h, .dropped b) :: received l
  | .read h :: .invoked s v w :: l => (h, .handed s v w) :: received l
  | .read h :: l => (h, .pending) :: received l
  | _ :: l => received l

/-- A request that was read is the one that was sent, and its body is the one that was sent with
it. -/
def SameRequest (g : ReadBody) (r : ReqHead × BodyUse) (m : ReqHead × Bytes) : Prop :=
  r.1 = m.1 ∧
    match r.2 with
    | .pending => True
    | .dropped b => b = m.2
    | .handed s v w => g s v m.2 w

/-! ### Several connections -/

/-- What happens on connection `i`. -/
def eventsOn (i : Nat) (es : List ServerEvent) : List ConnEvent :=
  es.filterMap fun
    | .conn j e => if j = i then some e else none
    | _ => none

/-- What was observed of connection `i`. -/
def effectsOn (i : Nat) (log : List ServerEffect) : List ConnEffect :=
  log.filterMap fun
    | .conn j e => if j = i then some e else none
    | _ => none

/-- The connections that were spawned. -/
def spawned (log : List ServerEffect) : List Nat :=
  log.filterMap fun
    | .spawned i => some i
    | _ => none

end Htrpc.Spec
