/-
Entry points: src/procedure.rs.
-/
import Verif.Model.Text

namespace Htrpc

/-- src/procedure.rs:105-111 `PathSegment`. -/
inductive Seg where
  | val (s : Str)
  | var
deriving DecidableEq, Repr

/-- src/procedure.rs:114-120 `PathSegment::as_option`. -/
def Seg.asOption : Seg → Option Str
  | .val s => some s
  | .var => none

/-- src/procedure.rs:62-64 `EntryPoint`. -/
abbrev EntryPoint := List Seg

/-- src/procedure.rs:95-100 `EntryPoint::var_count`. -/
def varCount (e : EntryPoint) : Nat := (e.filter (· = Seg.var)).length

/-- `miasht::Method` (src/types.rs:2).  Only HEAD is treated specially anywhere in htrpc
(src/client.rs:106, src/server.rs:254); the others are distinguished by a tag. -/
inductive Method where
  | head
  | other (tag : Nat)
deriving DecidableEq, Repr

end Htrpc
