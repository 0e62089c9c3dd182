/-
src/serializers/rpc_request.rs: `RpcRequestSerializer`.
-/
import Verif.Model.PathSer
import Verif.Model.QuerySer
import Verif.Model.HeaderSer

namespace Htrpc

/-- The name of the `Content-Length` header as written by miasht. -/
def contentLengthName : Bytes := utf8 "Content-Length".toList

/-- src/serializers/rpc_request.rs:42, src/serializers/rpc_response.rs:50
`add_header(&ContentLength(len))`. -/
def contentLength (body : Bytes) : Header := (contentLengthName, utf8 (showNat body.length))

/-- `miasht::client::RequestBuilder`: request target and headers. -/
structure ReqBuilder where
  target : Str
  headers : List Header
deriving DecidableEq, Repr

/-- A request as sent by the client and read by the server. -/
structure Request where
  method : Method
  target : Str
  headers : List Header
  body : Bytes
deriving DecidableEq, Repr

/-- src/serializers/rpc_request.rs:14-21 `RpcRequestSerializer`.  `temp_url` is represented by its
path and query; the connection by whether it is still there. -/
structure ReqSer where
  path : Str
  query : Option Str
  pathInit : Bool
  conn : Bool
  request : Option ReqBuilder
deriving DecidableEq, Repr

namespace ReqSer

/-- src/serializers/rpc_request.rs:24-37 `new`. -/
def new : ReqSer :=
  { path := ['/'], query := none, pathInit := false, conn := true, request := none }

/-- src/serializers/rpc_request.rs:58, 231 `&temp_url[url::Position::BeforePath..]`. -/
def relativeUrl (path : Str) (query : Option Str) : Str :=
  match query with
  | none => path
  | some q => path ++ '?' :: q

variable [FloatText]

/-- src/serializers/rpc_request.rs:46-62 `take_request`.  The `assert!` of line 50, the
`track_try_unwrap!` of lines 52-56 and the `unwrap` of line 59 panic. -/
def takeRequest (entry : EntryPoint) (st : ReqSer) : Res (ReqBuilder × ReqSer) :=
  match st.request with
  | some r => .ok (r, { st with request := none })
  | none =>
    if st.conn = false then .panic
    else if st.pathInit then
      .ok (⟨relativeUrl st.path st.query, []⟩, { st with conn := false })
    else
      match serPath entry st.path .unit with
      | .ok p => .ok (⟨relativeUrl p st.query, []⟩, { st with path := p, conn := false })
      | _ => .panic

/-- src/serializers/rpc_request.rs:200-247 `SerializeStruct::serialize_field`. -/
def serField (entry : EntryPoint) (key : Str) (v : Val) (st : ReqSer) : Res ReqSer :=
  if key = "path".toList then do
    Res.check st.conn
    let p ← serPath entry st.path v
    .ok { st with path := p, pathInit := true }
  else if key = "query".toList then do
    Res.check st.conn
    let st ←
      if st.pathInit then .ok st
      else do
        -- lines 219-226 (sic: the query value is serialized as path)
        let p ← serPath entry st.path v
        .ok { st with path := p, pathInit := true }
    -- lines 227-230; `query_pairs_mut` turns an absent query into an empty one
    let q ← QuerySer.ser v (QuerySer.new (st.query.getD []))
    let st := { st with query := some q.out }
    .ok { st with conn := false, request := some ⟨relativeUrl st.path st.query, []⟩ }
  else if key = "header".toList then do
    let (r, st) ← takeRequest entry st
    let hs ← serHeaders r.headers v
    .ok { st with request := some { r with headers := hs } }
  else .err .invalid

/-- The fields of a struct in order. -/
def serFields (entry : EntryPoint) : List (Str × Val) → ReqSer → Res ReqSer
  | [], st => .ok st
  | (k, v) :: fs, st => do serFields entry fs (← serField entry k v st)

/-- src/serializers/rpc_request.rs:255-268 `SerializeStructVariant::serialize_field`.  The
`unwrap` of line 261 panics. -/
def serVariantField (key : Str) (v : Val) (st : ReqSer) : Res ReqSer :=
  if key = "header".toList then
    match st.request with
    | none => .panic
    | some r => do
      let hs ← serHeaders r.headers v
      .ok { st with request := some { r with headers := hs } }
  else .err .invalid

/-- The fields of a struct variant in order. -/
def serVariantFields : List (Str × Val) → ReqSer → Res ReqSer
  | [], st => .ok st
  | (k, v) :: fs, st => do serVariantFields fs (← serVariantField k v st)

/-- src/serializers/rpc_request.rs:64-196: `request.serialize(&mut RpcRequestSerializer)`. -/
def ser (entry : EntryPoint) : Val → ReqSer → Res ReqSer
  -- lines 141-158
  | .newtypeStruct v, st => ser entry v st
  | .newtypeVariant _ v, st => ser entry v st
  -- lines 184-195
  | .struct fs, st => serFields entry fs st
  | .structVariant _ fs, st => serVariantFields fs st
  -- lines 76-140, 159-183
  | _, _ => .err .invalid

/-- src/serializers/rpc_request.rs:40-44 `finish`. -/
def finish (entry : EntryPoint) (body : Bytes) (st : ReqSer) : Res ReqBuilder := do
  let (r, _) ← takeRequest entry st
  .ok { r with headers := r.headers ++ [contentLength body] }

end ReqSer

/-- src/client.rs:86-98: serialize a request for a procedure and add its body. -/
def serRequest [FloatText] (method : Method) (entry : EntryPoint) (v : Val) (body : Bytes) :
    Res Request := do
  let st ← ReqSer.ser entry v ReqSer.new
  let r ← ReqSer.finish entry body st
  .ok { method, target := r.target, headers := r.headers, body }

end Htrpc
