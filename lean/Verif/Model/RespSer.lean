/-
src/serializers/rpc_response.rs: `RpcResponseSerializer`.
-/
import Verif.Model.HeaderSer
import Verif.Model.ReqSer
import Verif.Model.Status

namespace Htrpc

/-- A response as sent by the server and read by the client. -/
structure Response where
  status : Status
  headers : List Header
  body : Bytes
deriving DecidableEq, Repr

/-- src/serializers/rpc_response.rs:16-19 `RpcResponseSerializer`: whether the connection is still
there, and the `ResponseBuilder` (status and headers). -/
structure RespSer where
  conn : Bool
  response : Option (Status × List Header)
deriving DecidableEq, Repr

namespace RespSer

/-- src/serializers/rpc_response.rs:36-41 `new`. -/
def new : RespSer := { conn := true, response := none }

/-- src/serializers/rpc_response.rs:205-206: the value rendered as JSON and parsed as `u16`.  The
JSON text of a value is a plain decimal number only for integers, possibly inside `Some` or
newtype structs. -/
def jsonU16 : Val → Option Nat
  | .int _ i => if 0 ≤ i ∧ i ≤ 65535 then some i.toNat else none
  | .some v => jsonU16 v
  | .newtypeStruct v => jsonU16 v
  | _ => none

/-- src/serializers/rpc_response.rs:129-133, 188-192: start the response with a named status. -/
def startNamed (variant : Str) (st : RespSer) : Res RespSer := do
  Res.check st.conn
  let s ← Res.ofOption (statusFromStr variant)
  .ok { conn := false, response := some (s, []) }

variable [FloatText]

/-- src/serializers/rpc_response.rs:220-223, 241-244: add headers; the `unwrap` panics. -/
def addHeaders (v : Val) (st : RespSer) : Res RespSer :=
  match st.response with
  | none => .panic
  | some (s, hs) => do
    let hs ← serHeaders hs v
    .ok { st with response := some (s, hs) }

/-- src/serializers/rpc_response.rs:198-227 `SerializeStruct::serialize_field`. -/
def serField (key : Str) (v : Val) (st : RespSer) : Res RespSer :=
  if key = "status".toList then do
    Res.check st.conn
    let code ← Res.ofOption (jsonU16 v)
    let s ← Res.ofOption (statusOfCode code)
    .ok { conn := false, response := some (s, []) }
  else if key = "header".toList then do
    Res.check (!st.conn)
    addHeaders v st
  else .err .invalid

/-- The fields of a struct in order. -/
def serFields : List (Str × Val) → RespSer → Res RespSer
  | [], st => .ok st
  | (k, v) :: fs, st => do serFields fs (← serField k v st)

/-- src/serializers/rpc_response.rs:235-248 `SerializeStructVariant::serialize_field`. -/
def serVariantField (key : Str) (v : Val) (st : RespSer) : Res RespSer :=
  if key = "header".toList then addHeaders v st else .err .invalid

/-- The fields of a struct variant in order. -/
def serVariantFields : List (Str × Val) → RespSer → Res RespSer
  | [], st => .ok st
  | (k, v) :: fs, st => do serVariantFields fs (← serVariantField k v st)

/-- src/serializers/rpc_response.rs:54-194: `response.serialize(&mut RpcResponseSerializer)`. -/
def ser : Val → RespSer → Res RespSer
  -- lines 123-134
  | .unitVariant n, st => startNamed n st
  -- lines 135-152
  | .newtypeStruct v, st => ser v st
  | .newtypeVariant _ v, st => ser v st
  -- lines 178-193
  | .struct fs, st => serFields fs st
  | .structVariant n fs, st => do serVariantFields fs (← startNamed n st)
  -- lines 66-122, 153-177
  | _, _ => .err .invalid

/-- src/serializers/rpc_response.rs:44-52 `finish`. -/
def finish (body : Bytes) (st : RespSer) : Res Response :=
  match st.response with
  | none => .err .invalid
  | some (s, hs) => .ok { status := s, headers := hs ++ [contentLength body], body }

end RespSer

/-- src/serializers/rpc_response.rs:22-33 `RpcResponseSerializer::serialize`. -/
def serResponse [FloatText] (v : Val) (body : Bytes) : Res Response := do
  let st ← RespSer.ser v RespSer.new
  RespSer.finish body st

end Htrpc
