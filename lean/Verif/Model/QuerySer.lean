/-
src/serializers/url_query.rs: `UrlQuerySerializer`.
-/
import Verif.Model.Serde
import Verif.Model.Url

namespace Htrpc

/-- src/serializers/url_query.rs:10-14 `UrlQuerySerializer`; `out` is the query text written so
far. -/
structure QuerySer where
  isFirst : Bool
  key : Option Str
  out : Str
deriving DecidableEq, Repr

namespace QuerySer

/-- src/serializers/url_query.rs:17-23 `new`, on the query text `out` of the URL. -/
def new (out : Str) : QuerySer := { isFirst := true, key := none, out }

/-- src/serializers/url_query.rs:25-33 `append`. -/
def append (st : QuerySer) (s : Str) : QuerySer :=
  match st.key with
  | some k => { st with key := none, out := appendPair st.out k s }
  | none => { st with key := some s }

/-- src/serializers/url_query.rs:159-179: `serialize_map`, `serialize_struct`,
`serialize_struct_variant`. -/
def enter (st : QuerySer) : Res QuerySer := do
  Res.check st.isFirst
  .ok { st with isFirst := false }

variable [FloatText]

mutual
/-- src/serializers/url_query.rs:35-180: `value.serialize(&mut UrlQuerySerializer)`. -/
def ser : Val → QuerySer → Res QuerySer
  -- lines 47-51 (sic: "ture")
  | .bool b, st => .ok (st.append (if b then "ture".toList else "false".toList))
  -- lines 52-77
  | .int _ i, st => .ok (st.append (showInt i))
  -- lines 78-84
  | .f32 x, st => .ok (st.append (FloatText.show64 (FloatText.widen x)))
  | .f64 x, st => .ok (st.append (FloatText.show64 x))
  -- lines 85-91
  | .char c, st => .ok (st.append [c])
  | .str s, st => .ok (st.append s)
  -- lines 92-94
  | .bytes _, _ => .err .invalid
  -- lines 95-98
  | .none, st => do
    Res.check st.key.isSome
    .ok { st with key := none }
  -- lines 99-104
  | .some v, st => ser v st
  -- lines 105-110
  | .unit, _ => .err .invalid
  | .unitStruct _, _ => .err .invalid
  -- lines 111-118
  | .unitVariant n, st => .ok (st.append n)
  -- lines 119-136
  | .newtypeStruct v, st => ser v st
  | .newtypeVariant _ v, st => ser v st
  -- lines 137-158
  | .seq _, _ => .err .invalid
  | .tuple _, _ => .err .invalid
  | .tupleStruct _, _ => .err .invalid
  | .tupleVariant _ _, _ => .err .invalid
  -- lines 159-179, 181-231
  | .map kvs, st => do serMap kvs (← st.enter)
  | .struct fs, st => do serFields fs (← st.enter)
  | .structVariant _ fs, st => do serFields fs (← st.enter)
/-- src/serializers/url_query.rs:181-201 `SerializeMap`. -/
def serMap : List (Val × Val) → QuerySer → Res QuerySer
  | [], st => .ok st
  | (k, v) :: kvs, st => do
    let st ← ser k st
    let st ← ser v st
    serMap kvs st
/-- src/serializers/url_query.rs:202-231 `SerializeStruct`, `SerializeStructVariant`. -/
def serFields : List (Str × Val) → QuerySer → Res QuerySer
  | [], st => .ok st
  | (k, v) :: fs, st => do
    let st ← ser v { st with key := some k }
    serFields fs st
end

end QuerySer

/-- Serialize `v` into a URL without query; the query text
(src/serializers/rpc_request.rs:227-230). -/
def serQuery [FloatText] (v : Val) : Res Str := do
  let st ← QuerySer.ser v (QuerySer.new [])
  .ok st.out

end Htrpc
