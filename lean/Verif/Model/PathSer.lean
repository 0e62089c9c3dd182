/-
src/serializers/url_path.rs: `UrlPathSerializer`.
-/
import Verif.Model.Serde
import Verif.Model.Url
import Verif.Model.Entry

namespace Htrpc

/-- src/serializers/url_path.rs:10-15 `UrlPathSerializer`.  `path` is the text of the URL's path
behind `PathSegmentsMut`; `rest` is `entry_point.segments()[index..]`, replacing `index`. -/
structure PathSer where
  path : Str
  entry : EntryPoint
  rest : List Seg
  started : Bool
deriving DecidableEq, Repr

namespace PathSer

/-- src/serializers/url_path.rs:18-29 `new`.  The URL of a request serializer is always an http
URL (src/serializers/rpc_request.rs:30), so `path_segments_mut` succeeds. -/
def new (entry : EntryPoint) (path : Str) : PathSer :=
  { path, entry, rest := entry, started := false }

/-- src/serializers/url_path.rs:43-53 `append_until_next_var`, on the remaining segments:
the new path text, the remaining segments, and whether the end was reached. -/
def appendUntilNextVar (path : Str) : List Seg → Str × List Seg × Bool
  | [] => (path, [], true)
  | .var :: rest => (path, .var :: rest, false)
  | .val s :: rest => appendUntilNextVar (pushSegment path s) rest

/-- src/serializers/url_path.rs:31-37 `bind_next_var`. -/
def bindNextVar (st : PathSer) (value : Str) : Res PathSer := do
  Res.check st.started
  match appendUntilNextVar st.path st.rest with
  | (_, _, true) => .err .invalid
  | (p, rest, false) => .ok { st with path := pushSegment p value, rest := rest.tail }

/-- src/serializers/url_path.rs:38-42 `finish`. -/
def finish (st : PathSer) : Res PathSer := do
  Res.check st.started
  match appendUntilNextVar st.path st.rest with
  | (p, rest, true) => .ok { st with path := p, rest := rest }
  | (_, _, false) => .err .invalid

/-- src/serializers/url_path.rs:166-193 `serialize_tuple`, `serialize_tuple_struct`,
`serialize_tuple_variant`; also the checks of `serialize_unit(_struct)` (123-136). -/
def start (st : PathSer) (len : Nat) : Res PathSer := do
  Res.check (!st.started)
  Res.check (varCount st.entry == len)
  .ok { st with started := true }

variable [FloatText]

mutual
/-- src/serializers/url_path.rs:58-209: `value.serialize(&mut UrlPathSerializer)`. -/
def ser : Val → PathSer → Res PathSer
  -- lines 70-74 (sic: "ture")
  | .bool b, st => bindNextVar st (if b then "ture".toList else "false".toList)
  -- lines 75-98
  | .int _ i, st => bindNextVar st (showInt i)
  -- lines 99-104
  | .f32 x, st => bindNextVar st (FloatText.show64 (FloatText.widen x))
  | .f64 x, st => bindNextVar st (FloatText.show64 x)
  -- lines 105-110
  | .char c, st => bindNextVar st [c]
  | .str s, st => bindNextVar st s
  -- lines 111-122
  | .bytes _, _ => .err .invalid
  | .none, _ => .err .invalid
  | .some _, _ => .err .invalid
  -- lines 123-136
  | .unit, st => do finish (← start st 0)
  | .unitStruct _, st => do finish (← start st 0)
  -- lines 137-144
  | .unitVariant n, st => bindNextVar st n
  -- lines 145-162
  | .newtypeStruct v, st => ser v st
  | .newtypeVariant _ v, st => ser v st
  -- lines 163-165
  | .seq _, _ => .err .invalid
  -- lines 166-193, then `serialize_element`/`serialize_field` and `end` (210-254)
  | .tuple vs, st => do finish (← serAll vs (← start st vs.length))
  | .tupleStruct vs, st => do finish (← serAll vs (← start st vs.length))
  | .tupleVariant _ vs, st => do finish (← serAll vs (← start st vs.length))
  -- lines 194-208
  | .map _, _ => .err .invalid
  | .struct _, _ => .err .invalid
  | .structVariant _ _, _ => .err .invalid
/-- The elements of a tuple, in order (lines 213-219, 228-234, 243-249). -/
def serAll : List Val → PathSer → Res PathSer
  | [], st => .ok st
  | v :: vs, st => do serAll vs (← ser v st)
end

end PathSer

/-- Serialize `v` as the path of a URL whose path is `path`; the new path text
(src/serializers/rpc_request.rs:207-213). -/
def serPath [FloatText] (entry : EntryPoint) (path : Str) (v : Val) : Res Str := do
  let st ← PathSer.ser v (PathSer.new entry path)
  .ok st.path

end Htrpc
