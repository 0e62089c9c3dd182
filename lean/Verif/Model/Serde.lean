/-
serde's data model.

`Val` is what a value's `Serialize` implementation emits; `Ty` is what a derived `Deserialize`
implementation asks for.  A Rust type used for RPC provides both; `HasTy` relates them for
derived implementations.
-/
import Verif.Model.Text

namespace Htrpc

/-- The calls a `Serialize` implementation makes on a `Serializer` (serde 1, `serde::ser`).
Names of structs and enums and variant indices are dropped where no serializer of htrpc looks at
them; the name of a unit struct is kept (src/serializers/http_header.rs:111). -/
inductive Val where
  | bool (b : Bool)
  | int (t : IntTy) (i : Int)
  | f32 (bits : UInt32)
  | f64 (bits : UInt64)
  | char (c : Char)
  | str (s : Str)
  | bytes (b : Bytes)
  | none
  | some (v : Val)
  | unit
  | unitStruct (name : Str)
  | unitVariant (variant : Str)
  | newtypeStruct (v : Val)
  | newtypeVariant (variant : Str) (v : Val)
  | seq (vs : List Val)
  | tuple (vs : List Val)
  | tupleStruct (vs : List Val)
  | tupleVariant (variant : Str) (vs : List Val)
  | map (kvs : List (Val × Val))
  | struct (fields : List (Str × Val))
  | structVariant (variant : Str) (fields : List (Str × Val))
deriving Repr

mutual
/-- The `Deserialize` implementations considered: std's for the primitive and container types and
serde_derive's for structs and enums (without field attributes that change the protocol, such as
`default`, `flatten` or `deny_unknown_fields`). -/
inductive Ty where
  | bool
  | int (t : IntTy)
  | f32
  | f64
  | char
  | str
  | bytes
  | option (t : Ty)
  | unit
  | unitStruct (name : Str)
  | newtypeStruct (t : Ty)
  | seq (t : Ty)
  | tuple (ts : List Ty)
  | tupleStruct (ts : List Ty)
  | map (k v : Ty)
  | struct (fields : List (Str × Ty))
  | enum (variants : List (Str × VTy))
/-- Shapes of enum variants. -/
inductive VTy where
  | unit
  | newtype (t : Ty)
  | tuple (ts : List Ty)
  | struct (fields : List (Str × Ty))
end

mutual
/-- `HasTy v t`: `v` is what a value of the (derived) type `t` serializes to. -/
inductive HasTy : Val → Ty → Prop where
  | bool (b) : HasTy (.bool b) .bool
  | int (t i) : t.fits i = true → HasTy (.int t i) (.int t)
  | f32 (x) : HasTy (.f32 x) .f32
  | f64 (x) : HasTy (.f64 x) .f64
  | char (c) : HasTy (.char c) .char
  | str (s) : HasTy (.str s) .str
  | bytes (b) : HasTy (.bytes b) .bytes
  | none (t) : HasTy .none (.option t)
  | some {v t} : HasTy v t → HasTy (.some v) (.option t)
  | unit : HasTy .unit .unit
  | unitStruct (n) : HasTy (.unitStruct n) (.unitStruct n)
  | newtypeStruct {v t} : HasTy v t → HasTy (.newtypeStruct v) (.newtypeStruct t)
  | seq {vs t} : HasTyAll vs t → HasTy (.seq vs) (.seq t)
  | tuple {vs ts} : HasTys vs ts → HasTy (.tuple vs) (.tuple ts)
  | tupleStruct {vs ts} : HasTys vs ts → HasTy (.tupleStruct vs) (.tupleStruct ts)
  | map {kvs k v} : HasTyMap kvs k v → HasTy (.map kvs) (.map k v)
  | struct {fs ts} : HasTyFields fs ts → HasTy (.struct fs) (.struct ts)
  | unitVariant {n vts} : (n, VTy.unit) ∈ vts → HasTy (.unitVariant n) (.enum vts)
  | newtypeVariant {n v t vts} : (n, VTy.newtype t) ∈ vts → HasTy v t →
      HasTy (.newtypeVariant n v) (.enum vts)
  | tupleVariant {n vs ts vts} : (n, VTy.tuple ts) ∈ vts → HasTys vs ts →
      HasTy (.tupleVariant n vs) (.enum vts)
  | structVariant {n fs ts vts} : (n, VTy.struct ts) ∈ vts → HasTyFields fs ts →
      HasTy (.structVariant n fs) (.enum vts)
/-- Element-wise. -/
inductive HasTys : List Val → List Ty → Prop where
  | nil : HasTys [] []
  | cons {v t vs ts} : HasTy v t → HasTys vs ts → HasTys (v :: vs) (t :: ts)
/-- All of one type. -/
inductive HasTyAll : List Val → Ty → Prop where
  | nil (t) : HasTyAll [] t
  | cons {v t vs} : HasTy v t → HasTyAll vs t → HasTyAll (v :: vs) t
/-- Entries of a map. -/
inductive HasTyMap : List (Val × Val) → Ty → Ty → Prop where
  | nil (k v) : HasTyMap [] k v
  | cons {a b k v kvs} : HasTy a k → HasTy b v → HasTyMap kvs k v →
      HasTyMap ((a, b) :: kvs) k v
/-- Fields of a struct, in declaration order. -/
inductive HasTyFields : List (Str × Val) → List (Str × Ty) → Prop where
  | nil : HasTyFields [] []
  | cons {n v t fs ts} : HasTy v t → HasTyFields fs ts →
      HasTyFields ((n, v) :: fs) ((n, t) :: ts)
end

end Htrpc
