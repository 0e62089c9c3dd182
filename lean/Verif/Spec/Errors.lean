/-
How far a call has got on its connection.
-/
import Verif.Spec.Turns

namespace Htrpc.Spec

/-- The call that does this. -/
def WireStep.call : WireStep → Nat
  | .sends i _ => i
  | .sent i => i
  | .head i _ _ => i
  | .body i _ => i

/-- What one call does on connections. -/
def byCall (i : Nat) (w : List (Conn × WireStep)) : List (Conn × WireStep) :=
  w.filter fun x => x.2.call = i

/-- The call has written this request over this connection, and has read a response completely. -/
inductive Answered (i : Nat) (c : Conn) (r : Request) (code : Nat) (hs : List Header) (b : Bytes) :
    List (Conn × WireStep) → Prop where
  | head : r.method = .head → b = [] →
      Answered i c r code hs b [(c, .sends i r), (c, .sent i), (c, .head i code hs)]
  | full : r.method ≠ .head →
      Answered i c r code hs b [(c, .sends i r), (c, .sent i), (c, .head i code hs), (c, .body i b)]

/-- The call has begun to write this request over this connection, and has not read a complete
response. -/
inductive Unanswered (i : Nat) (c : Conn) (r : Request) : List (Conn × WireStep) → Prop where
  | writing : Unanswered i c r [(c, .sends i r)]
  | sent : Unanswered i c r [(c, .sends i r), (c, .sent i)]
  | head {code hs} : r.method ≠ .head →
      Unanswered i c r [(c, .sends i r), (c, .sent i), (c, .head i code hs)]

end Htrpc.Spec
