/-
Clients that wait for the server before they send the rest of a request.
-/
import Verif.Spec.Server

namespace Htrpc.Spec

variable [FloatText] [UrlText] [JsonText] [Wire]

/-- Nothing arrives behind these bytes before the server has begun more than `k` answers. -/
def HoldsBack (cfg : ServerCfg) (sent : Bytes) (k : Nat) (es : List ConnEvent) : Prop :=
  ∀ l e l', es = l ++ e :: l' → ¬ arriving (l ++ [e]) <+: sent → k < (answers (ConnState.run cfg .new l).2).length

end Htrpc.Spec
