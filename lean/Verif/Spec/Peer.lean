/-
What servers that need not be htrpc write on a connection.
-/
import Verif.Spec.Callee
import Verif.Spec.System

namespace Htrpc.Spec

/-- Responses to requests with these methods, one after another. -/
inductive ResponseTexts : List Method → Bytes → Prop where
  | nil : ResponseTexts [] []
  | cons {m c hs b text ms rest} : ResponseText m c hs b text → ResponseTexts ms rest →
      ResponseTexts (m :: ms) (text ++ rest)

/-- However these bytes go on, they do not begin with a response to a request with this method. -/
def NoResponse (m : Method) (bytes : Bytes) : Prop :=
  ∀ more c hs b text, ResponseText m c hs b text → ¬ text <+: bytes ++ more

/-- The methods of the requests that are sent. -/
def methods (l : List WireStep) : List Method := (requestsOn l).map fun x => x.2.method

end Htrpc.Spec
