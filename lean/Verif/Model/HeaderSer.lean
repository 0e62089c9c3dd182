/-
src/serializers/http_header.rs: `HttpHeaderSerializer`.
-/
import Verif.Model.Serde

namespace Htrpc

/-- A raw HTTP header: name and value bytes. -/
abbrev Header := Bytes × Bytes

/-- src/serializers/http_header.rs:10-14 `HttpHeaderSerializer`; `headers` are the headers added
so far with `add_raw_header`.  Text is represented by its bytes: `serialize_bytes` makes a `str`
from arbitrary bytes (line 94). -/
structure HeaderSer where
  isFirst : Bool
  key : Option Bytes
  headers : List Header
deriving DecidableEq, Repr

namespace HeaderSer

/-- src/serializers/http_header.rs:17-23 `new`. -/
def new (headers : List Header) : HeaderSer := { isFirst := true, key := none, headers }

/-- src/serializers/http_header.rs:25-33 `append`. -/
def append (st : HeaderSer) (s : Bytes) : HeaderSer :=
  match st.key with
  | some k => { st with key := none, headers := st.headers ++ [(k, s)] }
  | none => { st with key := some s }

/-- src/serializers/http_header.rs:162-182. -/
def enter (st : HeaderSer) : Res HeaderSer := do
  Res.check st.isFirst
  .ok { st with isFirst := false }

variable [FloatText]

mutual
/-- src/serializers/http_header.rs:35-183: `value.serialize(&mut HttpHeaderSerializer)`. -/
def ser : Val → HeaderSer → Res HeaderSer
  -- lines 47-51 (sic: "ture")
  | .bool b, st => .ok (st.append (utf8 (if b then "ture".toList else "false".toList)))
  -- lines 52-77
  | .int _ i, st => .ok (st.append (utf8 (showInt i)))
  -- lines 78-84
  | .f32 x, st => .ok (st.append (utf8 (FloatText.show64 (FloatText.widen x))))
  | .f64 x, st => .ok (st.append (utf8 (FloatText.show64 x)))
  -- lines 85-91
  | .char c, st => .ok (st.append (utf8 [c]))
  | .str s, st => .ok (st.append (utf8 s))
  -- lines 92-97
  | .bytes b, st => .ok (st.append b)
  -- lines 98-101
  | .none, st => do
    Res.check st.key.isSome
    .ok { st with key := none }
  -- lines 102-107
  | .some v, st => ser v st
  -- lines 108-110
  | .unit, _ => .err .invalid
  -- lines 111-121
  | .unitStruct n, st => .ok (st.append (utf8 n))
  | .unitVariant n, st => .ok (st.append (utf8 n))
  -- lines 122-139
  | .newtypeStruct v, st => ser v st
  | .newtypeVariant _ v, st => ser v st
  -- lines 140-161
  | .seq _, _ => .err .invalid
  | .tuple _, _ => .err .invalid
  | .tupleStruct _, _ => .err .invalid
  | .tupleVariant _ _, _ => .err .invalid
  -- lines 162-182, 184-234
  | .map kvs, st => do serMap kvs (← st.enter)
  | .struct fs, st => do serFields fs (← st.enter)
  | .structVariant _ fs, st => do serFields fs (← st.enter)
/-- src/serializers/http_header.rs:184-204 `SerializeMap`. -/
def serMap : List (Val × Val) → HeaderSer → Res HeaderSer
  | [], st => .ok st
  | (k, v) :: kvs, st => do
    let st ← ser k st
    let st ← ser v st
    serMap kvs st
/-- src/serializers/http_header.rs:205-234 `SerializeStruct`, `SerializeStructVariant`. -/
def serFields : List (Str × Val) → HeaderSer → Res HeaderSer
  | [], st => .ok st
  | (k, v) :: fs, st => do
    let st ← ser v { st with key := some (utf8 k) }
    serFields fs st
end

end HeaderSer

/-- Serialize `v` as headers behind the headers `hs`. -/
def serHeaders [FloatText] (hs : List Header) (v : Val) : Res (List Header) := do
  let st ← HeaderSer.ser v (HeaderSer.new hs)
  .ok st.headers

end Htrpc
