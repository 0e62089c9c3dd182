/-
What is expected of remote procedure calls over HTTP with any requests and responses.
-/
import Verif.Spec.Http
import Verif.Spec.Integrity

namespace Htrpc.Spec

variable [FloatText] [UrlText] [JsonText]

/-- A client calls a procedure: method and entry point, the fields of the request with their types,
and the body. -/
structure Invocation where
  method : Method
  entry : EntryPoint
  fields : List (Str × Val)
  types : List (Str × Ty)
  body : Bytes

/-- The request that goes out for a call.  Any struct is allowed for which the type of its query has
distinct names, and that of its headers distinct names up to case, without the length of the body. The
headers can be expressed in HTTP, and do not describe the body otherwise than htrpc does. -/
structure Issues (c : Invocation) (r : Request) : Prop where
  typed : HasTyFields c.fields c.types
  distinct : DistinctNames c.types
  query : ∀ t, c.types.lookup "query".toList = some t → (names t).Nodup
  header : ∀ t, c.types.lookup "header".toList = some t → isStruct t = true ∧
    ((names t).map lowerText).Nodup ∧ "content-length".toList ∉ (names t).map lowerText
  sent : serRequest c.method c.entry (.struct c.fields) c.body = .ok r
  safe : SafeHeaders r.headers
  framed : Framed r.headers c.body

end Htrpc.Spec
