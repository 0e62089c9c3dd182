/-
What is expected of embedded values.
-/
import Verif.Model.Embed
import Verif.Spec.Request

namespace Htrpc.Spec

variable {T : Type}

/-- The JSON codec recovers what it has written. -/
def JsonRecovers (cs : Codecs T) : Prop :=
  ∀ p x s, cs.toJson p x = some s → cs.ofJson s = some x

/-- Fields that are ordinary ones in the supported class, or JSON that can be written. -/
inductive JsonFields (ordinary : Val → Prop) (cs : Codecs T) :
    List (Str × Item T) → List (Str × ItemTy) → Prop where
  | nil : JsonFields ordinary cs [] []
  | plain {n v t fs ts} : ordinary v ∨ v = .none → HasTy v t → JsonFields ordinary cs fs ts →
      JsonFields ordinary cs ((n, .plain v) :: fs) ((n, .plain t) :: ts)
  | json {n p x s fs ts} : cs.toJson p x = some s → JsonFields ordinary cs fs ts →
      JsonFields ordinary cs ((n, .json p x) :: fs) ((n, .json p) :: ts)

end Htrpc.Spec
