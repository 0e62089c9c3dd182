/-
Specification of maps that are read from a list of entries.
-/
import Verif.Spec.Struct

namespace Htrpc.Spec
open Htrpc

/-- The entries of a map, each name read as a key and each value as a value. -/
def readEntries {β : Type} (read : Ty → β → Option Val) (k v : Ty) :
    List (β × β) → Option (List (Val × Val))
  | [] => some []
  | (n, x) :: es =>
    match read k n, read v x, readEntries read k v es with
    | some a, some b, some m => some ((a, b) :: m)
    | _, _, _ => none

/-- The entry `(a, b)` is the last one with its key. -/
def LastEntry (es : List (Val × Val)) (a b : Val) : Prop :=
  ∃ before after, es = before ++ (a, b) :: after ∧ ∀ e ∈ after, e.1 ≠ a

/-- The map made of a list of entries: each key has the value of its last entry. -/
def MapOf (es m : List (Val × Val)) : Prop :=
  DistinctKeys m ∧ ∀ a b, (a, b) ∈ m ↔ LastEntry es a b

end Htrpc.Spec
