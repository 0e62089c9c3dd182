/-
The times at which handlers are called for calls of clients.
-/
import Verif.Spec.World

namespace Htrpc.Spec.World

variable [FloatText] [UrlText] [JsonText]

/-- Call `i` was made before time `n`. -/
def Made (w : World) (n i : Nat) : Prop := i < (w.sys n).calls.length

/-- Before time `n` call `i` has completed with this response. -/
def Completed (w : World) (n i : Nat) (v : Val) (body : Bytes) : Prop :=
  ∃ y, (w.sys n).calls[i]? = some y ∧ y.st = .done v body

variable [Http.MethodNames]

/-- The network does not invent anything: what arrives is what was sent, on both sides. Moreover
`read_body` of the users reads the whole body, and the handlers return responses that HTTP can express.
That anything ever arrives is not required. -/
structure Honest (w : World) : Prop where
  linked : ∀ n c, Linked (w.wire n c) (upTo (w.servers c) n) (w.log n c) w.phrase
  bodies : ∀ n c, letI := Http.httpWire
    ReadsWhole (w.cfg c) (w.read c) .new (upTo (w.servers c) n)
  safe : ∀ n c, SafelyReturned (w.log n c)

/-- Before time `n` a handler was called for the request of call `i`, in this way. -/
def Invoked (w : World) (n i : Nat) (x : Service × Val × Val) : Prop :=
  ∃ (c : Conn) (k : Nat) (r : Request) (h : ReqHead) (l : List ConnEffect),
    (requestsOn (w.wire n c))[k]? = some (i, r) ∧ (blocks (w.log n c))[k]? = some (h, l) ∧
    x ∈ calls l

/-- Before time `n` a handler has returned this for the request of call `i`. -/
def Returned (w : World) (n i : Nat) (x : Val × Bytes) : Prop :=
  ∃ (c : Conn) (k : Nat) (r : Request) (h : ReqHead) (l : List ConnEffect),
    (requestsOn (w.wire n c))[k]? = some (i, r) ∧ (blocks (w.log n c))[k]? = some (h, l) ∧
    x ∈ returned l

/-- The handler for call `i` is called before the one for call `j`, if that is called at all: there is a
time between the two. -/
def Precedes (w : World) (i j : Nat) : Prop :=
  ∃ n, (∃ x, w.Invoked n i x) ∧ ∀ x, ¬ w.Invoked n j x

/-- The handlers behind some pools together are an atomic object: operations take effect one at a time,
`acts t` at time `t` if any, and lead from state to state as `apply` says; an operation takes effect once, not
before its handler is called, and before that returns, which it does with the result of `apply`. -/
structure Atomic {σ P : Type} (ws : P → World) (apply : σ → Service × Val × Val → σ × (Val × Bytes))
    (acts : Nat → Option (P × Nat)) (st : Nat → σ) : Prop where
  once : ∀ t t' o, acts t = some o → acts t' = some o → t = t'
  idle : ∀ t, acts t = none → st (t + 1) = st t
  effect : ∀ t p i, acts t = some (p, i) →
    ∃ x, (ws p).Invoked (t + 1) i x ∧ st (t + 1) = (apply (st t) x).1
  result : ∀ n p i y, (ws p).Returned n i y →
    ∃ t x, t < n ∧ acts t = some (p, i) ∧ (ws p).Invoked (t + 1) i x ∧ y = (apply (st t) x).2

end Htrpc.Spec.World
