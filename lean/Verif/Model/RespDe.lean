/-
src/deserializers/rpc_response.rs: `RpcResponseDeserializer`.
-/
import Verif.Model.HeaderDe
import Verif.Model.ReqDe
import Verif.Model.Status

namespace Htrpc

/-- src/deserializers/rpc_response.rs:9-13 `Phase`. -/
inductive RespPhase where
  | init | status | header
deriving DecidableEq, Repr

/-- What the deserializer reads: status code and headers
(src/deserializers/rpc_response.rs:17-20). -/
structure RespInput where
  code : Nat
  headers : List Header

/-- serde's `U16Deserializer` driven by a type: only visitors of numbers accept a `u16`. -/
def deU16 [FloatText] (n : Nat) : Ty → Res Val
  | .int t => if t.fits (Int.ofNat n) then .ok (.int t (Int.ofNat n)) else .err .invalid
  | .f32 => .ok (.f32 (FloatText.ofNat32 n))
  | .f64 => .ok (.f64 (FloatText.ofNat64 n))
  | _ => .err .invalid

namespace RespDe

/-- src/deserializers/rpc_response.rs:225-245 `next_key_seed`. -/
def next : RespPhase → Option (Str × RespPhase)
  | .init => some ("status".toList, .status)
  | .status => some ("header".toList, .header)
  | .header => none

/-- `next_key_seed` for an identifier. -/
def nextKey (p : RespPhase) : Res (Option (Str × RespPhase)) := .ok (next p)

variable [FloatText]

/-- src/deserializers/rpc_response.rs:247-265 `next_value_seed`.  Line 253 panics. -/
def value (i : RespInput) (t : Ty) : Dec RespPhase
  | .init => .panic
  | .status => do
    let v ← deU16 i.code t
    .ok (v, .status)
  | .header => do
    let v ← deHeaders t i.headers
    .ok (v, .header)

/-- `next_value_seed` for `IgnoredAny`. -/
def ignore (i : RespInput) : RespPhase → Res RespPhase
  | .init => .panic
  | .status => .ok .status
  | .header => do
    ignoreHeaders i.headers
    .ok .header

/-- src/deserializers/rpc_response.rs:187-197, 304-309: a struct (variant) with these fields. -/
def deStruct (i : RespInput) (fs : List (Str × Ty)) (p : RespPhase) : Res (List (Str × Val)) := do
  let decs := fs.map fun f => (f.1, value i f.2)
  let (acc, _) ← visitStruct nextKey (ignore i) decs 3 [] p
  assemble acc fs

mutual
/-- src/deserializers/rpc_response.rs:30-221, driven by the type's `Deserialize`
implementation, in a given phase. -/
def de (i : RespInput) : Ty → RespPhase → Res Val
  -- lines 152-157
  | .newtypeStruct t, p => do
    let v ← de i t p
    .ok (.newtypeStruct v)
  -- lines 181-197
  | .struct fs, p => do
    let vs ← deStruct i fs p
    .ok (.struct vs)
  | .map k v, p => do
    let key : Dec RespPhase := fun p =>
      match next p with
      | some (s, p) => do
        let kv ← strKey s k
        .ok (kv, p)
      | none => .err .invalid
    let (kvs, _) ← visitMap (fun p => decide (p = .header)) key (value i v) 3 [] p
    .ok (.map kvs)
  -- lines 198-208, 273-285
  | .enum vs, _ => do
    let name ← Res.ofOption (statusCodeToStr i.code)
    deVariant i name vs
  -- lines 38-151, 158-180, 209-214
  | _, _ => .err .invalid
/-- src/deserializers/rpc_response.rs:287-310 `VariantAccess` for the variant with this name;
an undeclared name is an error (`unknown_variant`).  The phase is `Status` (line 280). -/
def deVariant (i : RespInput) (name : Str) : List (Str × VTy) → Res Val
  | [] => .err .invalid
  | (n, vt) :: vs =>
    if name = n then deContent i name vt
    else deVariant i name vs
/-- The content of a variant. -/
def deContent (i : RespInput) (name : Str) : VTy → Res Val
  | .unit => .ok (.unitVariant name)
  | .newtype t => do
    let v ← de i t .status
    .ok (.newtypeVariant name v)
  | .tuple _ => .err .invalid
  | .struct fs => do
    let fs ← deStruct i fs .status
    .ok (.structVariant name fs)
end

end RespDe

/-- src/client.rs:119-122: decode a response. -/
def deResponse [FloatText] (t : Ty) (code : Nat) (hs : List Header) : Res Val :=
  RespDe.de { code, headers := hs } t .init

end Htrpc
