/-
JSON documents as serde_json (behind serdeconv) hands them to a `Deserialize` implementation.
-/
import Verif.Model.Basic

namespace Htrpc

/-- A JSON document.  Objects keep order and repeated members, as the deserializer of serde_json
does.  Numbers that are not integers are only known to be such. -/
inductive Json where
  | null
  | bool (b : Bool)
  | num (i : Int)
  | float (bits : UInt64)
  | str (s : Str)
  | arr (xs : List Json)
  | obj (members : List (Str × Json))
deriving Repr

mutual
/-- Documents without fractions, exponents and integers beyond 64 bits, the values of which depend
on the number parser. -/
def Json.plain : Json → Bool
  | .null => true
  | .bool _ => true
  | .num i => decide (-2 ^ 63 ≤ i ∧ i < 2 ^ 64)
  | .float _ => false
  | .str _ => true
  | .arr xs => plainAll xs
  | .obj ms => plainMembers ms
/-- All elements of an array are plain. -/
def Json.plainAll : List Json → Bool
  | [] => true
  | x :: xs => x.plain && plainAll xs
/-- All members of an object are plain. -/
def Json.plainMembers : List (Str × Json) → Bool
  | [] => true
  | (_, x) :: ms => x.plain && plainMembers ms
end

mutual
/-- How deep arrays and objects are nested. -/
def Json.depth : Json → Nat
  | .arr xs => depthAll xs + 1
  | .obj ms => depthMembers ms + 1
  | _ => 0
/-- The same of elements. -/
def Json.depthAll : List Json → Nat
  | [] => 0
  | x :: xs => max x.depth (depthAll xs)
/-- The same of members. -/
def Json.depthMembers : List (Str × Json) → Nat
  | [] => 0
  | (_, x) :: ms => max x.depth (depthMembers ms)
end

/-- Contract of serde_json: rendering and parsing of documents.  What is rendered is parsed to the
same document, unless it is nested deeper than serde_json allows.  `JsonCodec` meets it. -/
class JsonText where
  /-- serdeconv::to_json_string_pretty, as bytes. -/
  render : Json → Bytes
  /-- serdeconv::from_json_slice; `none` for texts that are not JSON. -/
  parse : Bytes → Option Json
  parse_render : ∀ j : Json, j.plain = true → j.depth ≤ 127 → parse (render j) = some j

/-- Contract of the url crate (not modelled): URLs are written as text and read back. -/
class UrlText where
  Url : Type
  text : Url → Str
  parse : Str → Option Url
  parse_text : ∀ u, parse (text u) = some u

end Htrpc
