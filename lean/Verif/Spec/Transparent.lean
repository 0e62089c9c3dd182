/-
What it means that a call arrives over the wire.
-/
import Verif.Model.Limits
import Verif.Spec.Exact
import Verif.Spec.Http
import Verif.Spec.Server

namespace Htrpc.Spec
open Htrpc Http

variable [FloatText] [UrlText] [JsonText] [MethodNames]

/-- The server takes these bytes, which are followed by `more`, for a request for this service with this
value and this body, and goes on with `more`. -/
def Delivered (cfg : ServerCfg) (bytes more : Bytes) (s : Service) (v : Val) (body : Bytes) : Prop :=
  ∃ h rest f, limitHead maxHeadSize maxHeaders (bytes ++ more) (readHead (bytes ++ more)) = .done h rest ∧
    Judged cfg h (.call s v) ∧ readBody h.headers = some f ∧ f rest = .done body more

/-- A client that has sent a request with this method takes these bytes, which are followed by `more`, for
a response with this value and this body, and goes on with `more`. -/
def Returned (m : Method) (bytes more : Bytes) (t : Ty) (v : Val) (body : Bytes) : Prop :=
  ∃ c hs, Reads m (bytes ++ more) c hs body more ∧ deResponse t c hs = .ok v

end Htrpc.Spec
