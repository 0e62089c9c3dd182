/-
What another service does to those that are there already.
-/
import Verif.Spec.Routing

namespace Htrpc.Spec

variable {H : Type}

/-- The path is led into a part of the table that is there only because of the entry point `e`: a
beginning of `e` that no registration has agrees with the beginning of the path, and no constant
leads the path elsewhere before. -/
def Captures (rs : List (Reg H)) (e : EntryPoint) (path : List Str) : Prop :=
  ∃ pre, pre ≠ [] ∧ pre <+: e ∧ Matches pre (path.take pre.length) ∧
    (∀ r ∈ rs, ¬ pre <+: r.entry) ∧ ¬ Shadowed rs pre path

/-- The path ends at a beginning of the entry point. -/
def EndsInside (e : EntryPoint) (path : List Str) : Prop := ∃ pre, pre <+: e ∧ Matches pre path

/-- What a table answers in which there is one registration. -/
def Alone (r : Reg H) (m : Method) (path : List Str) (x : Except RouteErr H) : Prop :=
  (r.method = m ∧ Matches r.entry path → x = .ok r.handler) ∧
  (¬ (r.method = m ∧ Matches r.entry path) → EndsInside r.entry path → x = .error .methodNotAllowed) ∧
  (¬ EndsInside r.entry path → x = .error .notFound)

end Htrpc.Spec
