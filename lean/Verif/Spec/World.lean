/-
Pooled clients and servers, connected by HTTP, that run for ever: what it takes that all calls end.
-/
import Verif.Spec.System
import Verif.Spec.Live
import Verif.Spec.Progress
import Verif.Lemmas.Http

namespace Htrpc.Spec

variable [FloatText] [UrlText] [JsonText]

/-- An infinite history: of a pool with its calls, and of a server at the other end of each
connection. At each time, something happens on every side, which may be that nothing is ready. -/
structure World where
  size : Nat
  clients : Nat → SysEvent
  cfg : Conn → ServerCfg
  servers : Conn → Nat → ConnEvent
  /-- The reason phrases of the servers. -/
  phrase : Status → Bytes
  /-- What `read_body` of the users makes of bodies. -/
  read : Conn → ReadBody

namespace World

/-- The pool and the calls at a time. -/
def sys (w : World) (n : Nat) : Sys := (Sys.run (upTo w.clients n) (.new w.size)).2

/-- What the calls have done on a connection. -/
def wire (w : World) (n : Nat) (c : Conn) : List WireStep :=
  onConn c (wireLog (upTo w.clients n) (.new w.size))

variable [Http.MethodNames]

/-- What the server has done on a connection. -/
def log (w : World) (n : Nat) (c : Conn) : List ConnEffect :=
  letI := Http.httpWire
  (ConnState.run (w.cfg c) .new (upTo (w.servers c) n)).2

/-- A result which the pool or the network has ready for call `i`: the call was answered by the pool, or
the pool is gone; the connection is established; the request is written; the head or the body of a
response can be read from what the server has written so far, behind what was read before. -/
inductive Offered (w : World) (n i : Nat) : IoResult → Prop where
  | gone {y inner r} : (w.sys n).calls[i]? = some y → y.st = .waiting inner →
      (w.sys n).pool = none → Offered w n i r
  | given {y inner c r} : (w.sys n).calls[i]? = some y → y.st = .replied inner (.ready c) →
      Offered w n i r
  | suspended {y inner r} : (w.sys n).calls[i]? = some y → y.st = .replied inner .failed →
      Offered w n i r
  | connected {y inner a} : (w.sys n).calls[i]? = some y → y.st = .replied inner (.connecting a) →
      Offered w n i .connected
  | written {y c inner r} : (w.sys n).calls[i]? = some y → y.st = .active c inner →
      inner.phase = .write r → Offered w n i .written
  | head {y c inner d rest code hs rest'} : (w.sys n).calls[i]? = some y → y.st = .active c inner →
      inner.phase = .readHead → d <+: Spec.written w.phrase (answers (w.log n c)) →
      ReadsOff [] d (w.wire n c) rest → Http.readResponseHead rest = .done (code, hs) rest' →
      Offered w n i (.head code hs)
  | body {y c inner code hs d rest f b rest'} : (w.sys n).calls[i]? = some y →
      y.st = .active c inner → inner.phase = .readBody code hs →
      d <+: Spec.written w.phrase (answers (w.log n c)) → ReadsOff [] d (w.wire n c) rest →
      Http.readBody hs = some f → f rest = .done b rest' → Offered w n i (.body b)

/-- The network and the servers do their work: what arrives is what was sent, on both sides; a request
that was written completely arrives completely some time; at the servers nothing fails from outside,
`read_body` of the users reads the whole body, and the handlers return responses that HTTP can
express. -/
structure Works (w : World) : Prop where
  linked : ∀ n c, Linked (w.wire n c) (upTo (w.servers c) n) (w.log n c) w.phrase
  delivered : ∀ n c i, (w.wire n c).getLast? = some (.sent i) → ∃ m,
    ((requestsOn (w.wire n c)).flatMap fun x => Http.writeRequest x.2) <+:
      arriving (upTo (w.servers c) m)
  bodies : ∀ n c, letI := Http.httpWire
    ReadsWhole (w.cfg c) (w.read c) .new (upTo (w.servers c) n)
  smooth : ∀ n c, letI := Http.httpWire
    Smooth (w.cfg c) .new (upTo (w.servers c) n)
  safe : ∀ n c, SafelyReturned (w.log n c)

/-- Nobody is kept waiting for ever for what is ready: the pool handles its commands, calls are given
the results that are there for them, and connections of servers what they wait for. -/
structure Fair (w : World) : Prop where
  pool : ∀ n, ∃ m, n ≤ m ∧
    ((∃ now, w.clients m = .handle now) ∨ (w.sys m).pool = none ∨ (w.sys m).queue = [])
  calls : ∀ n i, (∃ r, Offered w n i r) → ∃ m, n ≤ m ∧
    ((∃ r, w.clients m = .poll i r ∧ Offered w m i r) ∨ ¬ ∃ r, Offered w m i r)
  servers : ∀ c, letI := Http.httpWire
    Spec.Fair (w.cfg c) (w.servers c)

/-- The requests of the calls can be expressed in HTTP (as far as they can be built at all). -/
def Expressible (w : World) (types : Nat → List (Str × Ty)) : Prop :=
  ∀ n i p a v b r, (asked (upTo w.clients n))[i]? = some (p, a, v, b) →
    serRequest p.method p.entry v b = .ok r →
    ∃ fs, v = .struct fs ∧ Issues ⟨p.method, p.entry, fs, types i, b⟩ r

/-- Nothing from outside makes call `i` to this address fail: no operation of the network for it fails, it
is not dropped, the pool is there as long as it waits for the pool, and connecting to its address never
fails for anybody. -/
structure Unharmed (w : World) (i : Nat) (a : Addr) : Prop where
  network : ∀ n, w.clients n ≠ .poll i .failed
  kept : ∀ n, w.clients n ≠ .dropCall i
  pool : ∀ n y inner, (w.sys n).calls[i]? = some y → y.st = .waiting inner → (w.sys n).pool ≠ none
  address : ∀ n, refusedTo a (Sys.run (upTo w.clients n) (.new w.size)).1 = 0

/-- Call `i` has ended like this, for good. -/
def Ends (w : World) (i N : Nat) (st : PCallSt) : Prop :=
  Finished st ∧ ∀ m, N ≤ m → ∃ y, (w.sys m).calls[i]? = some y ∧ y.st = st

end World

end Htrpc.Spec
