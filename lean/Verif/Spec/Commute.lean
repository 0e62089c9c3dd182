/-
Things that happen to calls.
-/
import Verif.Spec.Work
import Verif.Spec.Closing

namespace Htrpc.Spec

/-- The call that is polled or dropped. -/
def ofCall : SysEvent → Option Nat
  | .poll i _ => some i
  | .dropCall i => some i
  | _ => none

/-- The call says something to its pool: it puts back a connection or reports a failure. -/
def Speaks (es : List Effect) : Prop := putsBack es + refusedCount es ≠ 0

/-- The call opens a connection. -/
def Opens (es : List Effect) : Prop := openedTotal es ≠ 0

instance (es : List Effect) : Decidable (Speaks es) := by unfold Speaks; infer_instance
instance (es : List Effect) : Decidable (Opens es) := by unfold Opens; infer_instance

variable [FloatText]

/-- The order of the two events makes no difference: each of them has the effects that it would have alone, and what is
left is the same. -/
def Commute (s : Sys) (e e' : SysEvent) : Prop :=
  ((s.step e').2.step e).1 = (s.step e).1 ∧ ((s.step e).2.step e').1 = (s.step e').1 ∧
    ((s.step e).2.step e').2 = ((s.step e').2.step e).2

end Htrpc.Spec
