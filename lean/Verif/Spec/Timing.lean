/-
Histories of a connection that only differ in their timing.
-/
import Verif.Spec.Server

namespace Htrpc.Spec

variable [FloatText] [UrlText] [JsonText] [Wire]

/-- What comes from outside in a history: of the bytes `bytes` those that have arrived so far, in any
pieces; after all of them, and not before, the end `fin` of the incoming bytes; `read_body` of the users,
unless it fails, makes `read s v b` of a request and its body, and their handlers respond to a request with
`respond log`, where `log` is everything that has happened on the connection until then. -/
structure Supplied (cfg : ServerCfg) (read : Service → Val → Bytes → Val)
    (respond : List ConnEffect → Val × Bytes) (bytes : Bytes) (fin : Option Closed)
    (es : List ConnEvent) : Prop where
  arrives : arriving es <+: bytes
  ends : ∀ a k z, es = a ++ .close k :: z → (∀ k', .close k' ∉ a) →
    fin = some k ∧ arriving a = bytes
  reads : ReadsWhole cfg (fun s v b w => w = read s v b) .new es
  responds : ∀ a v b z, es = a ++ .handled v b :: z →
    (ConnState.run cfg .new a).1.phase = .handling → (v, b) = respond (ConnState.run cfg .new a).2

/-- What fails from outside: establishing the connection, `read_body` of the user, or writing. -/
inductive Breaks (c : ConnState) : ConnEvent → Prop where
  | connect : c.phase = .connecting → Breaks c (.connected false)
  | body {h s v} : c.phase = .readBody h s v → Breaks c .bodyFailed
  | write : c.phase = .writing → Breaks c (.written false)

/-- And nothing fails from outside. -/
structure Given (cfg : ServerCfg) (read : Service → Val → Bytes → Val)
    (respond : List ConnEffect → Val × Bytes) (bytes : Bytes) (fin : Option Closed)
    (es : List ConnEvent) : Prop extends Supplied cfg read respond bytes fin es where
  smooth : ∀ a e z, es = a ++ e :: z → ¬ Breaks (ConnState.run cfg .new a).1 e

end Htrpc.Spec
