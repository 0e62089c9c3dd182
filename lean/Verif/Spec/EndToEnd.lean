/-
What is expected of a remote procedure call as a whole.
-/
import Verif.Spec.Client
import Verif.Spec.Segment
import Verif.Spec.Request
import Verif.Spec.Response
import Verif.Spec.Server

namespace Htrpc.Spec

variable [FloatText] [UrlText] [JsonText] [Wire]

/-- A request value in the supported class for a service which counts (it is registered, and not as
a duplicate), with the type of its header part: constants that need no escaping, arguments as in
`PathPart`, `QueryPart` and `HeaderPart`, and no other registration in the way. -/
inductive Supported (cfg : ServerCfg) (s : Service) : Val → Option Ty → Prop where
  | intro {p q h : Option Val} {pt qt ht : Option Ty} {ss : List Str} :
      s.reg ∈ table cfg → PlainConsts s.entry →
      s.reqTy = .struct (requestFields pt qt ht) →
      PathPart s.entry p pt ss → QueryPart q qt → HeaderPart h ht → (q ≠ none → p ≠ none) →
      Carried (instantiate s.entry ss) →
      ¬ Shadowed (table cfg) s.entry ((instantiate s.entry ss).map asSegment) →
      Supported cfg s (.struct (requestFields p q h)) ht

/-- A message arrives with these headers if these were sent: the transport may add headers that the
type does not ask for, before and behind. -/
inductive Transported (ht : Option Ty) (sent : List Header) : List Header → Prop where
  | intro {pre post} : AsciiNames pre → AsciiNames post → Foreign ht pre → Foreign ht post →
      Transported ht sent (pre ++ sent ++ post)

/-- What a client wants: this service, with this request and body. -/
structure Wish where
  service : Service
  value : Val
  body : Bytes

/-- A message that reaches the server carries what a client wants: it is the request which the client
writes for it. -/
inductive Carries (cfg : ServerCfg) (m : Wish) : ReqHead × Bytes → Prop where
  | intro {ht r hs} : Supported cfg m.service m.value ht →
      serRequest m.service.method m.service.entry m.value m.body = .ok r →
      Transported ht r.headers hs → Carries cfg m (⟨r.method, r.target, hs⟩, r.body)

/-- What happens between reading the request for a wish and the next request, possibly not yet
entirely: the handler is called with the value and the body, and its response is written. -/
inductive Serving (g : ReadBody) (h : ReqHead) (m : Wish) : List ConnEffect → Prop where
  | read : Serving g h m []
  | invoked {w} : g m.service m.value m.body w → Serving g h m [.invoked m.service m.value w]
  | returned {w resp body} : g m.service m.value m.body w →
      Serving g h m [.invoked m.service m.value w, .returned resp body]
  | answering {w resp body r} : g m.service m.value m.body w → serResponse resp body = .ok r →
      Serving g h m [.invoked m.service m.value w, .returned resp body, .answer (onWire h r)]
  | answered {w resp body r} : g m.service m.value m.body w → serResponse resp body = .ok r →
      Serving g h m [.invoked m.service m.value w, .returned resp body, .answer (onWire h r),
        .written]

/-- What a client sees of the network if its request is written and this response arrives, in any
number of rounds. -/
def Sees (p : Proc) (code : Nat) (hs : List Header) (body : Bytes) (rs : List IoResult) : Prop :=
  rs.filter Happened =
    if p.method = .head then [.connected, .written, .head code hs]
    else [.connected, .written, .head code hs, .body body]

end Htrpc.Spec
