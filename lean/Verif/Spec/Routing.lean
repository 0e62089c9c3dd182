/-
What routing means, independently of the trie of src/router.rs.
-/
import Verif.Model.Router

namespace Htrpc.Spec

/-- A segment of an entry point agrees with a segment of a path. -/
def SegMatches (s : Seg) (p : Str) : Prop :=
  match s with
  | .val c => c = p
  | .var => True

/-- An entry point matches a path: as many segments, each constant equal to the path segment at
its position. -/
inductive Matches : EntryPoint → List Str → Prop where
  | nil : Matches [] []
  | cons {s e p ps} : SegMatches s p → Matches e ps → Matches (s :: e) (p :: ps)

variable {H : Type}

/-- The registrations whose entry point starts with `s`, with that segment removed. -/
def after (s : Seg) (T : List (Reg H)) : List (Reg H) :=
  T.filterMap fun r =>
    match r.entry with
    | s' :: e => if s' = s then some { r with entry := e } else none
    | [] => none

/-- The dispatch rule: walk the path, keep the entry points with the constant if there is one,
otherwise those with a variable. -/
def dispatch (m : Method) : List Str → List (Reg H) → Except RouteErr H
  | [], T =>
    match T.find? fun r => decide (r.entry = [] ∧ r.method = m) with
    | some r => .ok r.handler
    | none => .error .methodNotAllowed
  | p :: ps, T =>
    if after (.val p) T ≠ [] then dispatch m ps (after (.val p) T)
    else if after .var T ≠ [] then dispatch m ps (after .var T)
    else .error .notFound

/-- Two registrations that exclude each other. -/
def Conflict (r r' : Reg H) : Prop := r.method = r'.method ∧ r.entry = r'.entry

instance (r r' : Reg H) : Decidable (Conflict r r') := by unfold Conflict; infer_instance

/-- Add a registration unless it conflicts with one already there. -/
def accept (T : List (Reg H)) (r : Reg H) : List (Reg H) :=
  if ∃ r' ∈ T, Conflict r' r then T else T ++ [r]

/-- The registrations that take effect: those that conflict with no earlier one. -/
def accepted (rs : List (Reg H)) : List (Reg H) := rs.foldl accept []

/-- No two registrations conflict. -/
def ConflictFree (rs : List (Reg H)) : Prop := rs.Pairwise fun r r' => ¬ Conflict r r'

/-- Some registration has, after the same segments as `e`, the constant of `path` where `e` has a
variable. -/
def Shadowed (rs : List (Reg H)) (e : EntryPoint) (path : List Str) : Prop :=
  ∃ pre suf p, e = pre ++ Seg.var :: suf ∧ path[pre.length]? = some p ∧
    ∃ r ∈ rs, (pre ++ [Seg.val p]) <+: r.entry

end Htrpc.Spec
