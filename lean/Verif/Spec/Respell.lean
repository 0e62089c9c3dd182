/-
Tables of services with other constants, other methods and other handlers.
-/
import Verif.Model.Router

namespace Htrpc.Spec
variable {H K : Type}

/-- A segment of an entry point with another constant. -/
def respellSeg (f : Str → Str) : Seg → Seg
  | .val s => .val (f s)
  | .var => .var

/-- The same services with other constants, other methods and other handlers. -/
def respell (f : Str → Str) (g : Method → Method) (k : H → K) (rs : List (Reg H)) : List (Reg K) :=
  rs.map fun r => ⟨g r.method, r.entry.map (respellSeg f), k r.handler⟩

/-- Some entry point has this constant. -/
def Occurs (rs : List (Reg H)) (s : Str) : Prop := ∃ r ∈ rs, Seg.val s ∈ r.entry

/-- Both paths have the same segments, except for those that are no constants of any entry point. -/
inductive AlikeFor (rs : List (Reg H)) : List Str → List Str → Prop where
  | nil : AlikeFor rs [] []
  | same (s : Str) {p q : List Str} : AlikeFor rs p q → AlikeFor rs (s :: p) (s :: q)
  | other {s t : Str} {p q : List Str} : ¬ Occurs rs s → ¬ Occurs rs t → AlikeFor rs p q → AlikeFor rs (s :: p) (t :: q)

end Htrpc.Spec
