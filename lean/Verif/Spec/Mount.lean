/-
Tables of services under a common prefix.
-/
import Verif.Model.Router

namespace Htrpc.Spec
variable {H : Type}

/-- The same services with these segments before their entry points. -/
def mount (pre : List Str) (rs : List (Reg H)) : List (Reg H) :=
  rs.map fun r => { r with entry := pre.map Seg.val ++ r.entry }

/-- The entry point begins with the constant `a`. -/
def Under (a : Str) (e : EntryPoint) : Prop := e.head? = some (.val a)

instance (a : Str) (e : EntryPoint) : Decidable (Under a e) := by unfold Under; infer_instance

end Htrpc.Spec
