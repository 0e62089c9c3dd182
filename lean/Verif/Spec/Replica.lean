/-
Servers with the same table and with handlers that are functions.
-/
import Verif.Spec.System

namespace Htrpc.Spec
/-- Every handler returns this function of what it is called with. -/
def ActsAs (F : Service → Val → Val × Bytes) (log : List ConnEffect) : Prop :=
  ∀ h l, (h, l) ∈ blocks log → ∀ s v w resp body, calls l = [(s, v, w)] → returned l = [(resp, body)] →
    (resp, body) = F s w

/-- Pooled clients, and servers of this configuration at the ends of all connections; `read_body` and the handlers are
these functions, and requests and responses are such as HTTP can express. -/
structure Replicated [FloatText] [UrlText] [JsonText] [Http.MethodNames] [Wire] (cfg : ServerCfg) (R : Service → Val → Bytes → Val)
    (F : Service → Val → Val × Bytes) (size : Nat) (evs : List SysEvent) (es : Conn → List ConnEvent)
    (phrase : Status → Bytes) (types : Nat → List (Str × Ty)) : Prop where
  requests : ∀ i p a v b r, (asked evs)[i]? = some (p, a, v, b) → serRequest p.method p.entry v b = .ok r →
    ∃ fs, v = .struct fs ∧ Issues ⟨p.method, p.entry, fs, types i, b⟩ r
  linked : ∀ c, Linked (onConn c (wireLog evs (.new size))) (es c) (ConnState.run cfg .new (es c)).2 phrase
  bodies : ∀ c, ReadsWhole cfg (fun s v b w => w = R s v b) .new (es c)
  safe : ∀ c, SafelyReturned (ConnState.run cfg .new (es c)).2
  acts : ∀ c, ActsAs F (ConnState.run cfg .new (es c)).2

end Htrpc.Spec
