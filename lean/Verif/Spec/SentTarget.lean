/-
What a client's request says about its target, independently of how it is written down.
-/
import Verif.Spec.Segment
import Verif.Spec.Struct

namespace Htrpc.Spec
variable [FloatText]

/-- The texts of the segments that a request asks for: those of the entry point, with the arguments of
the path in the places of the variables. -/
inductive PathTexts (e : EntryPoint) : Option Val → List Str → Prop where
  | none : Seg.var ∉ e → PathTexts e none (instantiate e [])
  | args {v vs ss} : PathArgs v vs → SentAll vs ss → vs.length = varCount e →
      PathTexts e (some v) (instantiate e ss)

/-- The parameters that a request asks for: the entries of the query. -/
inductive QueryEntries : Option Val → List (Str × Str) → Prop where
  | none : QueryEntries none []
  | some {v ps} : Written SentOpt id v ps → QueryEntries (some v) ps

end Htrpc.Spec
