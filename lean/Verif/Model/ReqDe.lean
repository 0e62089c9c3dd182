/-
src/deserializers/rpc_request.rs: `RpcRequestDeserializer`.
-/
import Verif.Model.PathDe
import Verif.Model.QueryDe
import Verif.Model.HeaderDe

namespace Htrpc

/-- serde's `StrDeserializer` driven by the key type of a map (used for fixed field names). -/
def strKey (s : Str) : Ty → Res Val
  | .str => .ok (.str s)
  | .bytes => .ok (.bytes (utf8 s))
  | .enum vs =>
    match vs.lookup s with
    | some .unit => .ok (.unitVariant s)
    | _ => .err .invalid
  | _ => .err .invalid

/-- src/deserializers/rpc_request.rs:10-16 `Phase`. -/
inductive ReqPhase where
  | init | path | query | header
deriving DecidableEq, Repr

/-- What the deserializer reads: the parsed URL and the headers of the request
(src/deserializers/rpc_request.rs:20-25). -/
structure ReqInput where
  entry : EntryPoint
  target : Target
  headers : List Header

namespace ReqDe

/-- src/deserializers/rpc_request.rs:232-260 `next_key_seed`: the key and the new phase. -/
def next : ReqPhase → Option (Str × ReqPhase)
  | .init => some ("path".toList, .path)
  | .path => some ("query".toList, .query)
  | .query => some ("header".toList, .header)
  | .header => none

/-- `next_key_seed` for an identifier. -/
def nextKey (p : ReqPhase) : Res (Option (Str × ReqPhase)) := .ok (next p)

variable [FloatText]

/-- src/deserializers/rpc_request.rs:262-284 `next_value_seed`.  Line 267 panics. -/
def value (i : ReqInput) (t : Ty) : Dec ReqPhase
  | .init => .panic
  | .path => do
    let v ← dePath i.entry t i.target.segs
    .ok (v, .path)
  | .query => do
    let v ← deQuery t i.target.query
    .ok (v, .query)
  | .header => do
    let v ← deHeaders t i.headers
    .ok (v, .header)

/-- `next_value_seed` for `IgnoredAny`: `deserialize_ignored_any` of the respective deserializer
(src/deserializers/url_path.rs:308-313, url_query.rs:298-303, http_header.rs:314-320). -/
def ignore (i : ReqInput) : ReqPhase → Res ReqPhase
  | .init => .panic
  | .path => do
    let _ ← PathDe.new i.entry i.target.segs
    .ok .path
  | .query => .ok .query
  | .header => do
    ignoreHeaders i.headers
    .ok .header

/-- src/deserializers/rpc_request.rs:37-228, driven by the type's `Deserialize`
implementation. -/
def de (i : ReqInput) : Ty → Res Val
  -- lines 159-164
  | .newtypeStruct t => do
    let v ← de i t
    .ok (.newtypeStruct v)
  -- lines 188-204
  | .struct fs => do
    let decs := fs.map fun f => (f.1, value i f.2)
    let (acc, _) ← visitStruct nextKey (ignore i) decs 4 [] .init
    let vs ← assemble acc fs
    .ok (.struct vs)
  | .map k v => do
    let key : Dec ReqPhase := fun p =>
      match next p with
      | some (s, p) => do
        let kv ← strKey s k
        .ok (kv, p)
      | none => .err .invalid
    let (kvs, _) ← visitMap (fun p => decide (p = .header)) key (value i v) 4 [] .init
    .ok (.map kvs)
  -- lines 45-158, 165-187, 205-221
  | _ => .err .invalid

end ReqDe

/-- src/server.rs:58-62: decode a request for a procedure. -/
def deRequest [FloatText] (entry : EntryPoint) (t : Ty) (target : Target) (hs : List Header) :
    Res Val :=
  ReqDe.de { entry, target, headers := hs } t

end Htrpc
