/-
What is expected of pooled clients and servers together, connected by HTTP.
-/
import Verif.Spec.IntegrityHttp
import Verif.Spec.Turns

namespace Htrpc.Spec

variable [FloatText] [UrlText] [JsonText]

/-- What calls read on a connection is read from these bytes, one after another; `rest` is left.  `hs`
are the headers of the last response. -/
inductive ReadsOff : List Header → Bytes → List WireStep → Bytes → Prop where
  | nil {hs d} : ReadsOff hs d [] d
  | sends {hs d i r l rest} : ReadsOff hs d l rest → ReadsOff hs d (.sends i r :: l) rest
  | sent {hs d i l rest} : ReadsOff hs d l rest → ReadsOff hs d (.sent i :: l) rest
  | head {hs d i code hs' d' l rest} : Http.readResponseHead d = .done (code, hs') d' →
      ReadsOff hs' d' l rest → ReadsOff hs d (.head i code hs' :: l) rest
  | body {hs d i f b d' l rest} : Http.readBody hs = some f → f d = .done b d' →
      ReadsOff hs d' l rest → ReadsOff hs d (.body i b :: l) rest

/-- The bytes which a server writes, with reason phrases. -/
def written (phrase : Status → Bytes) (as : List Response) : Bytes :=
  as.flatMap fun a => Http.writeResponse (phrase a.status) a

/-- One connection of pooled clients, from both ends: `l` is what the calls do on it, `es` what happens
on it at the server, and `log` what the server does then. What arrives at the server is what was sent
so far, as HTTP, or less; what the clients read is from what the server has written, or less. -/
structure Linked [Http.MethodNames] (l : List WireStep) (es : List ConnEvent)
    (log : List ConnEffect) (phrase : Status → Bytes) : Prop where
  there : arriving es <+: (requestsOn l).flatMap fun x => Http.writeRequest x.2
  back : ∃ d rest, d <+: written phrase (answers log) ∧ ReadsOff [] d l rest
  phrases : ∀ s, ∀ b ∈ phrase s, ValueByte b

/-- The handlers return responses whose headers HTTP can express, and which do not describe the body
otherwise than htrpc does. -/
def SafelyReturned (log : List ConnEffect) : Prop :=
  ∀ resp body, (resp, body) ∈ returned log → ∀ r, serResponse resp body = .ok r →
    SafeHeaders r.headers ∧ Framed r.headers body

end Htrpc.Spec
