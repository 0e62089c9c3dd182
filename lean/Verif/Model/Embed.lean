/-
src/json.rs, src/json_pretty.rs, src/msgpack.rs: values embedded as text or bytes, used with the
attribute `serde(with)` on the fields of a struct.
-/
import Verif.Model.Serde

namespace Htrpc

/-- Contract of serdeconv for the type `T` of a field (not modelled): writing and reading, each of
which may fail. -/
structure Codecs (T : Type) where
  /-- `to_json_string` and `to_json_string_pretty`. -/
  toJson : (pretty : Bool) → T → Option Str
  /-- `from_json_str`. -/
  ofJson : Str → Option T
  /-- `to_msgpack_vec`. -/
  toMsgpack : T → Option Bytes
  /-- `from_msgpack_slice`. -/
  ofMsgpack : Bytes → Option T

/-- A field of a struct, with or without the attribute `serde(with)`. -/
inductive Item (T : Type) where
  | plain (v : Val)
  | json (pretty : Bool) (x : T)
  | msgpack (x : T)

/-- What is declared of such a field. -/
inductive ItemTy where
  | plain (t : Ty)
  | json (pretty : Bool)
  | msgpack

/-- A byte as a value of type `u8`. -/
def byteVal (b : UInt8) : Val := .int .u8 b.toNat

variable {T : Type}

/-- What a field gives to the serializer.
src/json.rs:13-20, src/json_pretty.rs:13-20: a string.
src/msgpack.rs:13-20: a `Vec<u8>`, the `Serialize` implementation of which is that of sequences.
Errors are made with `Error::custom`, which is `Invalid` (src/error.rs:31-37). -/
def Item.toVal (cs : Codecs T) : Item T → Res Val
  | .plain v => .ok v
  | .json p x => do .ok (.str (← Res.ofOption (cs.toJson p x)))
  | .msgpack x => do .ok (.seq ((← Res.ofOption (cs.toMsgpack x)).map byteVal))

/-- The fields of a struct as the serializer sees them.  In the code the fields are converted one by
one while they are serialized; failures are `Invalid` in both cases. -/
def Item.toVals (cs : Codecs T) : List (Str × Item T) → Res (List (Str × Val))
  | [] => .ok []
  | (n, i) :: fs => do
    let v ← i.toVal cs
    let vs ← Item.toVals cs fs
    .ok ((n, v) :: vs)

/-- What the deserializer is asked for: src/json.rs:31 `String::deserialize`,
src/msgpack.rs:31 `Vec::deserialize`.  As for a `String`, a missing field is an error. -/
def ItemTy.raw : ItemTy → Ty
  | .plain t => t
  | .json _ => .str
  | .msgpack => .seq (.int .u8)

/-- The fields as the deserializer sees them. -/
def ItemTy.raws (ts : List (Str × ItemTy)) : List (Str × Ty) := ts.map fun t => (t.1, t.2.raw)

/-- The bytes of a sequence of `u8`. -/
def bytesOf : List Val → Option Bytes
  | [] => some []
  | .int .u8 i :: vs => (bytesOf vs).map (UInt8.ofNat i.toNat :: ·)
  | _ => none

/-- src/json.rs:32, src/msgpack.rs:32: what is made of the result. -/
def ItemTy.finish (cs : Codecs T) : ItemTy → Val → Res (Item T)
  | .plain _, v => .ok (.plain v)
  | .json p, .str s => do .ok (.json p (← Res.ofOption (cs.ofJson s)))
  | .msgpack, .seq vs => do
    .ok (.msgpack (← Res.ofOption (cs.ofMsgpack (← Res.ofOption (bytesOf vs)))))
  | _, _ => .err .invalid

/-- All fields of a struct.  In the code this happens while they are deserialized. -/
def ItemTy.finishAll (cs : Codecs T) : List (Str × ItemTy) → List (Str × Val) →
    Res (List (Str × Item T))
  | [], [] => .ok []
  | (n, t) :: ts, (_, v) :: vs => do
    let i ← t.finish cs v
    let is ← finishAll cs ts vs
    .ok ((n, i) :: is)
  | _, _ => .err .invalid

/-- Deserialize a struct with such fields by `de`, which is given the type. -/
def deItems (cs : Codecs T) (ts : List (Str × ItemTy)) (de : Ty → Res Val) :
    Res (List (Str × Item T)) := do
  match ← de (.struct (ItemTy.raws ts)) with
  | .struct vs => ItemTy.finishAll cs ts vs
  | _ => .err .invalid

end Htrpc
