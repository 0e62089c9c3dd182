/-
What is expected of JSON texts.
-/
import Verif.Model.JsonText
import Verif.Model.Embed
import Verif.Spec.Http

namespace Htrpc.Spec

mutual
/-- All strings of a document, names included. -/
def strings : Json → List Str
  | .str s => [s]
  | .arr xs => stringsAll xs
  | .obj ms => stringsOf ms
  | _ => []
/-- Those of the elements of an array. -/
def stringsAll : List Json → List Str
  | [] => []
  | x :: xs => strings x ++ stringsAll xs
/-- Those of the members of an object. -/
def stringsOf : List (Str × Json) → List Str
  | [] => []
  | (k, x) :: ms => k :: (strings x ++ stringsOf ms)
end

/-- Neither an array nor an object with anything in it. -/
inductive OneLine : Json → Prop where
  | null : OneLine .null
  | bool (b) : OneLine (.bool b)
  | num (i) : OneLine (.num i)
  | str (s) : OneLine (.str s)
  | arr : OneLine (.arr [])
  | obj : OneLine (.obj [])

/-- The character "delete", which JSON allows in strings and HTTP does not allow in headers. -/
def del : Char := Char.ofNat 127

/-- A type the values of which are documents (contract of the `Serialize` and `Deserialize`
implementations of an embedded type).  Numbers are integers of 64 bits. -/
structure Documents (T : Type) where
  doc : T → Json
  ofDoc : Json → Option T
  ofDoc_doc : ∀ x, ofDoc (doc x) = some x
  plain : ∀ x, (doc x).plain = true
  shallow : ∀ x, (doc x).depth ≤ 127

variable [FloatText]

/-- Such a type as JSON text. -/
def Documents.codecs {T : Type} (d : Documents T) (toMsgpack : T → Option Bytes)
    (ofMsgpack : Bytes → Option T) : Codecs T where
  toJson p x := some (JsonCodec.render p (d.doc x))
  ofJson s := (JsonCodec.parse s).bind d.ofDoc
  toMsgpack := toMsgpack
  ofMsgpack := ofMsgpack

end Htrpc.Spec
