/-
src/server.rs: the server.
-/
import Verif.Model.Problem
import Verif.Model.ReqDe
import Verif.Model.RespSer
import Verif.Model.Router
import Verif.Model.Url

namespace Htrpc

/-! ### The transport -/

/-- Method, target and headers of a request, as read by miasht. -/
structure ReqHead where
  method : Method
  target : Str
  headers : List Header
deriving DecidableEq, Repr

/-- What a parser makes of the bytes received so far: it needs more of them, they are malformed, or
it is done, with the bytes that follow. -/
inductive Parsed (α : Type) where
  | more
  | bad
  | done (a : α) (rest : Bytes)
deriving Repr

/-- Contract of miasht (not modelled): how requests are written as bytes.  Limits on the length of
the head and the number of headers (src/server.rs:149) belong to this. -/
class Wire where
  /-- `Connection::read_request` on the bytes received so far. -/
  head : Bytes → Parsed ReqHead
  /-- `into_body_reader` for these headers, `none` if it fails; then reading the whole body from the
  bytes received so far. -/
  body : List Header → Option (Bytes → Parsed Bytes)
  /-- There is no head without bytes. -/
  head_nil : head [] = .more
  /-- A head that was read does not depend on the bytes that follow. -/
  head_append : ∀ bs h rest more, head bs = .done h rest → head (bs ++ more) = .done h (rest ++ more)
  /-- Nor does a body. -/
  body_append : ∀ hs f bs b rest more, body hs = some f → f bs = .done b rest →
    f (bs ++ more) = .done b (rest ++ more)
  /-- Bytes that are not understood are not understood later. -/
  head_bad : ∀ bs more, head bs = .bad → head (bs ++ more) = .bad
  /-- Nor is a body. -/
  body_bad : ∀ hs f bs more, body hs = some f → f bs = .bad → f (bs ++ more) = .bad
  /-- What follows a body was there before. -/
  body_rest : ∀ hs f bs b rest, body hs = some f → f bs = .done b rest → rest <:+ bs

/-! ### Configuration -/

/-- src/server.rs:49-53: a registered procedure with its handler, which is only known by name. -/
structure Service where
  method : Method
  entry : EntryPoint
  reqTy : Ty
  name : Nat

/-- src/server.rs:100-102: what is given to the router. -/
def Service.reg (s : Service) : Reg Service := ⟨s.method, s.entry, s⟩

/-- src/server.rs:27-46 `RpcServerBuilder`, after all calls of `register` (failed ones included),
and what is not modelled: URL parsing of authorities, the reason phrases of miasht, and the texts
of the errors made for a request (description, cause and history). -/
structure ServerCfg where
  services : List Service
  oracle : UrlOracle
  phrase : Status → Str
  explain : ReqHead → Str × Option Str × Option (List Str)

/-- src/server.rs:113: the router with all procedures. -/
def ServerCfg.router (cfg : ServerCfg) : Trie Service :=
  (registerAll (cfg.services.map Service.reg) Trie.empty).1

/-- src/router.rs:26-42 `Router::route` for a URL; the `expect` panics. -/
def routeUrl {H : Type} (r : Trie H) (m : Method) (t : Target) : Res (Except RouteErr H) :=
  match t.segs with
  | none => .panic
  | some segs => .ok (r.route m segs)

/-- src/router.rs:36, 41: the statuses. -/
def RouteErr.status : RouteErr → Status
  | .notFound => .notFound
  | .methodNotAllowed => .methodNotAllowed

/-! ### One connection -/

/-- How the peer or the network ended the incoming bytes. -/
inductive Closed where
  /-- End of file: reading on fails with `UnexpectedEof`. -/
  | eof
  /-- Reading on fails with `ConnectionReset`. -/
  | reset
  /-- Reading on fails with another I/O error. -/
  | failure
deriving DecidableEq, Repr

/-- src/server.rs:169-178: what the future of the current phase does. -/
inductive ConnPhase [UrlText] where
  /-- Phase A at the beginning: the connection is established. -/
  | connecting
  /-- Phase B: read the head of a request. -/
  | readHead
  /-- Phase C: read and drop the body, then answer with the problem (lines 213-227, 231-245,
  64-80). -/
  | refusing (h : ReqHead) (p : Problem)
  /-- Phase C: `read_body` of the request (lines 82-84). -/
  | readBody (h : ReqHead) (s : Service) (v : Val)
  /-- Phase C: the handler runs (lines 85-95). -/
  | handling
  /-- Phase A: the response is written. -/
  | writing
  /-- The future is done: successfully, with an error, or by a panic. -/
  | finished
  | failed
  | panicked

/-- src/server.rs:169-178 `HandleHttpRequest`, with the bytes that have arrived on the connection
and have not been read yet. -/
structure ConnState [UrlText] where
  phase : ConnPhase
  method : Method
  input : Bytes
  closed : Option Closed

/-- src/server.rs:151-156. -/
def ConnState.new [UrlText] : ConnState := ⟨.connecting, .other 0, [], none⟩

/-- What can be observed of a connection. -/
inductive ConnEffect where
  /-- The head of a request was read. -/
  | read (h : ReqHead)
  /-- The body of a request was read and dropped. -/
  | drained (b : Bytes)
  /-- The handler was called with `w`, which `read_body` made of the decoded request `v`. -/
  | invoked (s : Service) (v w : Val)
  /-- The handler is done, with a response and its body. -/
  | returned (v : Val) (body : Bytes)
  /-- This is being written from now on: the body is that on the wire. -/
  | answer (r : Response)
  /-- It is written completely. -/
  | written
  | finished
  /-- src/server.rs:277-279. -/
  | warned
  | panicked

/-- Something happens on a connection: bytes arrive, or one round of the loop of
src/server.rs:181-271 with this result of polling the current phase. -/
inductive ConnEvent where
  | recv (bs : Bytes)
  | close (k : Closed)
  | notReady
  /-- The connection is established, or this failed. -/
  | connected (ok : Bool)
  /-- Reading from the connection: the result depends on the bytes that have arrived. -/
  | input
  /-- `read_body`, which is code of the user, is done with this request and has left these bytes. -/
  | bodyRead (w : Val) (rest : Bytes)
  | bodyFailed
  /-- The future of the handler, code of the user, is done with this response and body. -/
  | handled (v : Val) (body : Bytes)
  /-- The response has been written, or this failed. -/
  | written (ok : Bool)

namespace ConnState
variable [FloatText] [UrlText] [JsonText] [Wire]

/-- src/server.rs:182, 277-279: an error ends the connection with a warning. -/
def fail (c : ConnState) : ConnState × List ConnEffect := ({ c with phase := .failed }, [.warned])

/-- A panic. -/
def panic (c : ConnState) : ConnState × List ConnEffect :=
  ({ c with phase := .panicked }, [.panicked])

/-- src/server.rs:89-94, 73-76, 219-224, 237-242 and then 250-265: the response is serialized and
writing begins, without the body for `HEAD`. -/
def respond (c : ConnState) (v : Val) (body : Bytes) : ConnState × List ConnEffect :=
  match serResponse v body with
  | .ok r =>
    let r := if c.method = .head then { r with body := [] } else r
    ({ c with phase := .writing }, [.answer r])
  | .err _ => c.fail
  | .panic => c.panic

/-- src/server.rs:64-67, 82, 213, 231: `into_body_reader`; if it fails, so does the connection. -/
def withBody (c : ConnState) (h : ReqHead) (phase : ConnPhase) : ConnState × List ConnEffect :=
  match Wire.body h.headers with
  | none => c.fail
  | some _ => ({ c with phase }, [])

/-- src/server.rs:211, 228, 73: the problem for a request that is not understood. -/
def badRequest (cfg : ServerCfg) (h : ReqHead) : Problem :=
  let (title, source, events) := cfg.explain h
  .newTrackable .badRequest title source events

/-- src/server.rs:54-82: the function registered with the router, up to reading the body. -/
def handle (cfg : ServerCfg) (c : ConnState) (h : ReqHead) (s : Service) (t : Target) :
    ConnState × List ConnEffect :=
  match deRequest s.entry s.reqTy t h.headers with
  | .err _ => c.withBody h (.refusing h (badRequest cfg h))
  | .ok v => c.withBody h (.readBody h s v)
  | .panic => c.panic

/-- src/server.rs:201-249: a request was read. -/
def accept (cfg : ServerCfg) (c : ConnState) (h : ReqHead) : ConnState × List ConnEffect :=
  let c := { c with method := h.method }
  match parseRelativeUrl cfg.oracle h.target with
  | .err _ => c.withBody h (.refusing h (badRequest cfg h))
  | .panic => c.panic
  | .ok t =>
    match routeUrl cfg.router h.method t with
    | .ok (.error e) => c.withBody h (.refusing h (.newAboutBlank cfg.phrase e.status))
    | .ok (.ok s) => c.handle cfg h s t
    | .err _ => c.fail
    | .panic => c.panic

/-- src/server.rs:184-199: the result of `read_request`. -/
def pollHead (cfg : ServerCfg) (c : ConnState) : ConnState × List ConnEffect :=
  match Wire.head c.input with
  | .done h rest =>
    let (c, effs) := accept cfg { c with input := rest } h
    (c, .read h :: effs)
  | .bad => c.fail
  | .more =>
    match c.closed with
    | none => (c, [])
    | some .eof => ({ c with phase := .finished }, [.finished])
    | some .reset => ({ c with phase := .finished }, [.finished])
    | some .failure => c.fail

/-- src/server.rs:213-227, 231-245, 65-79: the result of `read_all_bytes`. -/
def pollRefusing (c : ConnState) (h : ReqHead) (p : Problem) : ConnState × List ConnEffect :=
  match Wire.body h.headers with
  | none => c.fail
  | some f =>
    match f c.input with
    | .done b rest =>
      let resp := ProblemResponse.ofProblem p
      let (c, effs) := respond { c with input := rest } resp.toVal resp.bodyBytes
      (c, .drained b :: effs)
    | .bad => c.fail
    | .more =>
      match c.closed with
      | none => (c, [])
      | some _ => c.fail

/-- What `read_body` can leave of the bytes: some of them were read, but none beyond the body. -/
def leaves (f : Bytes → Parsed Bytes) (input rest : Bytes) : Bool :=
  rest.isSuffixOf input &&
    match f input with
    | .done _ after => after.isSuffixOf rest
    | _ => true

/-- One event.  Results that do not belong to the current phase cannot occur; they change nothing
here. -/
def step (cfg : ServerCfg) (c : ConnState) : ConnEvent → ConnState × List ConnEffect
  | .recv bs =>
    match c.closed with
    | none => ({ c with input := c.input ++ bs }, [])
    | some _ => (c, [])
  | .close k =>
    match c.closed with
    | none => ({ c with closed := some k }, [])
    | some _ => (c, [])
  | .notReady => (c, [])
  | .connected ok =>
    match c.phase with
    | .connecting => if ok then ({ c with phase := .readHead }, []) else c.fail
    | _ => (c, [])
  | .input =>
    match c.phase with
    | .readHead => c.pollHead cfg
    | .refusing h p => c.pollRefusing h p
    | _ => (c, [])
  | .bodyRead w rest =>
    match c.phase with
    | .readBody h s v =>
      match Wire.body h.headers with
      | none => (c, [])
      | some f =>
        if leaves f c.input rest then
          -- lines 85-87
          ({ c with phase := .handling, input := rest }, [.invoked s v w])
        else (c, [])
    | _ => (c, [])
  | .bodyFailed =>
    match c.phase with
    | .readBody _ _ _ => c.fail
    | _ => (c, [])
  | .handled v body =>
    match c.phase with
    | .handling =>
      let (c, effs) := c.respond v body
      (c, .returned v body :: effs)
    | _ => (c, [])
  | .written ok =>
    match c.phase with
    | .writing => if ok then ({ c with phase := .readHead }, [.written]) else c.fail
    | _ => (c, [])

/-- src/server.rs:276-280 `poll`, and polling again and again: the state and everything that was
observed. -/
def run (cfg : ServerCfg) (c : ConnState) : List ConnEvent → ConnState × List ConnEffect
  | [] => (c, [])
  | e :: es =>
    let (c, effs) := c.step cfg e
    let (c, effs') := c.run cfg es
    (c, effs ++ effs')

end ConnState

/-! ### The accept loop -/

/-- src/server.rs:124-125: what the accept loop is doing. -/
inductive ListenPhase where
  | binding
  | listening
  /-- The future of the server is done, with an error of this kind. -/
  | failed (k : Kind)
deriving DecidableEq, Repr

/-- src/server.rs:120-126 `RpcServer` and the connections it has spawned. -/
structure ServerState [UrlText] where
  phase : ListenPhase
  conns : List ConnState

/-- src/server.rs:107-117 `start`. -/
def ServerState.new [UrlText] : ServerState := ⟨.binding, []⟩

/-- Something happens to the server. -/
inductive ServerEvent where
  /-- The address is bound, or this failed. -/
  | bound (ok : Bool)
  /-- The listener has a client; its connection still has to be established. -/
  | client
  /-- The listener fails. -/
  | listenFailed
  /-- The listener ends. -/
  | listenEnded
  /-- Something happens on a connection. -/
  | conn (i : Nat) (e : ConnEvent)

/-- What can be observed of the server. -/
inductive ServerEffect where
  /-- src/server.rs:135-139. -/
  | started
  /-- A connection was spawned (src/server.rs:157). -/
  | spawned (i : Nat)
  /-- The future of the server fails. -/
  | failed (k : Kind)
  /-- Something was observed of a connection. -/
  | conn (i : Nat) (e : ConnEffect)

namespace ServerState
variable [FloatText] [UrlText] [JsonText] [Wire]

/-- One event: one round of src/server.rs:132-164, or of the fiber of a connection.  I/O errors are
of kind `Other` (src/error.rs:61-65).  What a panic in one fiber does to the others depends on the
executor and is left out. -/
def step (cfg : ServerCfg) (s : ServerState) : ServerEvent → ServerState × List ServerEffect
  | .bound ok =>
    match s.phase with
    | .binding =>
      if ok then ({ s with phase := .listening }, [.started])
      else ({ s with phase := .failed .other }, [.failed .other])
    | _ => (s, [])
  | .client =>
    match s.phase with
    | .listening => ({ s with conns := s.conns ++ [.new] }, [.spawned s.conns.length])
    | _ => (s, [])
  | .listenFailed =>
    match s.phase with
    | .listening => ({ s with phase := .failed .other }, [.failed .other])
    | _ => (s, [])
  | .listenEnded =>
    match s.phase with
    | .listening => ({ s with phase := .failed .invalid }, [.failed .invalid])
    | _ => (s, [])
  | .conn i e =>
    match s.conns[i]? with
    | none => (s, [])
    | some c =>
      let (c, effs) := c.step cfg e
      ({ s with conns := s.conns.set i c }, effs.map (.conn i))

/-- A history. -/
def run (cfg : ServerCfg) (s : ServerState) : List ServerEvent → ServerState × List ServerEffect
  | [] => (s, [])
  | e :: es =>
    let (s, effs) := s.step cfg e
    let (s, effs') := s.run cfg es
    (s, effs ++ effs')

end ServerState

end Htrpc
