/-
src/deserializers/http_header.rs: `HttpHeaderDeserializer`.
-/
import Verif.Model.Visit
import Verif.Model.HeaderSer

namespace Htrpc

/-- `to_ascii_lowercase` of a byte. -/
def lowerByte (b : UInt8) : UInt8 :=
  if 65 ≤ b.toNat ∧ b.toNat ≤ 90 then UInt8.ofNat (b.toNat + 32) else b

/-- src/deserializers/http_header.rs:50 `k.to_lowercase()`.  Header names are ASCII tokens (the
HTTP parser accepts nothing else), so only ASCII letters are affected. -/
def lowerName (n : Bytes) : Bytes := n.map lowerByte

/-- src/deserializers/http_header.rs:11-34 `Phase`, `HttpHeaderDeserializer`; `atKey` says that
the phase is `Phase::Key`. -/
structure HeaderDe where
  inMap : Bool
  atKey : Bool
  headers : List Header
deriving DecidableEq, Repr

namespace HeaderDe

/-- src/deserializers/http_header.rs:37-43 `new`. -/
def new (headers : List Header) : HeaderDe := { inMap := false, atKey := true, headers }

/-- src/deserializers/http_header.rs:47-61 `next_bytes`. -/
def nextBytes (st : HeaderDe) : Res (Bytes × HeaderDe) :=
  match st.headers with
  | [] => .err .invalid
  | (k, v) :: rest =>
    if st.atKey then .ok (lowerName k, { st with atKey := false })
    else .ok (v, { st with atKey := true, headers := rest })

/-- src/deserializers/http_header.rs:178-192 `deserialize_str` without the visitor. -/
def nextStr (st : HeaderDe) : Res (Str × HeaderDe) := do
  let (b, st) ← nextBytes st
  let s ← Res.ofOption (fromUtf8 b)
  .ok (s, st)

/-- A value made from the next text by `f` (lines 344-351 `parse_slice`). -/
def scalar (f : Str → Option Val) (st : HeaderDe) : Res (Val × HeaderDe) := do
  let (s, st) ← nextStr st
  let v ← Res.ofOption (f s)
  .ok (v, st)

/-- src/deserializers/http_header.rs:275-282 `deserialize_map` before visiting. -/
def enterMap (st : HeaderDe) : Res HeaderDe := do
  Res.check (!st.inMap)
  .ok { st with inMap := true }

/-- src/deserializers/http_header.rs:324-334 `next_key_seed` for an identifier (308-313). -/
def nextKey (st : HeaderDe) : Res (Option (Str × HeaderDe)) :=
  if st.headers = [] then .ok none
  else do
    let (s, st) ← nextStr st
    .ok (some (s, st))

/-- src/deserializers/http_header.rs:314-320 `deserialize_ignored_any`. -/
def ignore (st : HeaderDe) : Res HeaderDe := do
  let (_, st) ← nextBytes st
  .ok st

/-- Bound on the number of entries left. -/
def fuel (st : HeaderDe) : Nat := st.headers.length + 1

variable [FloatText]

mutual
/-- src/deserializers/http_header.rs:63-321, driven by the type's `Deserialize` implementation. -/
def de : Ty → Dec HeaderDe
  -- lines 72-79
  | .bool => scalar fun s => (parseBool s).map .bool
  -- lines 81-151
  | .int t => scalar fun s => (parseInt t s).map (.int t)
  -- lines 153-169
  | .f32 => scalar fun s => (FloatText.parse32 s).map .f32
  | .f64 => scalar fun s => (FloatText.parse64 s).map .f64
  -- lines 171-176
  | .char => fun _ => .err .invalid
  -- lines 178-199
  | .str => scalar fun s => some (.str s)
  -- lines 201-216
  | .bytes => fun st => do
    let (b, st) ← nextBytes st
    .ok (.bytes b, st)
  -- lines 218-223
  | .option t => fun st => do
    let (v, st) ← de t st
    .ok (.some v, st)
  -- lines 225-230
  | .unit => fun _ => .err .invalid
  -- lines 232-240
  | .unitStruct n => scalar fun s => if s = n then some (.unitStruct n) else none
  -- lines 242-247
  | .newtypeStruct t => fun st => do
    let (v, st) ← de t st
    .ok (.newtypeStruct v, st)
  -- lines 249-273
  | .seq _ => fun _ => .err .invalid
  | .tuple _ => fun _ => .err .invalid
  | .tupleStruct _ => fun _ => .err .invalid
  -- lines 275-294, 322-342
  | .map k v => fun st => do
    let st ← enterMap st
    let (kvs, st) ← visitMap (fun st => decide (st.headers = [])) (de k) (de v) st.fuel [] st
    .ok (.map kvs, st)
  | .struct fs => fun st => do
    let st ← enterMap st
    let (acc, st) ← visitStruct nextKey ignore (deFields fs) st.fuel [] st
    let vs ← assemble acc fs
    .ok (.struct vs, st)
  -- lines 296-306
  | .enum _ => fun _ => .err .invalid
/-- The decoders of the fields. -/
def deFields : List (Str × Ty) → List (Str × Dec HeaderDe)
  | [] => []
  | (n, t) :: fs => (n, de t) :: deFields fs
end

end HeaderDe

/-- Decode the headers of a message (src/deserializers/rpc_request.rs:278-282,
src/deserializers/rpc_response.rs:259-263). -/
def deHeaders [FloatText] (t : Ty) (hs : List Header) : Res Val := do
  let (v, _) ← HeaderDe.de t (HeaderDe.new hs)
  .ok v

/-- Skip the headers of a message with `IgnoredAny`. -/
def ignoreHeaders (hs : List Header) : Res Unit := do
  let _ ← HeaderDe.ignore (HeaderDe.new hs)
  .ok ()

end Htrpc
