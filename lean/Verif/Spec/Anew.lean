/-
How the incoming bytes of a connection ended.
-/
import Verif.Model.Server

namespace Htrpc.Spec

/-- The event that ended the incoming bytes, if any. -/
def ending : List ConnEvent → List ConnEvent
  | [] => []
  | .close k :: _ => [.close k]
  | _ :: es => ending es

end Htrpc.Spec
