/-
What is expected of HTTP headers, independently of the serializer and the deserializer.
-/
import Verif.Spec.Struct
import Verif.Model.HeaderSer

namespace Htrpc.Spec

/-- Header names are ASCII (RFC 7230 tokens; the HTTP parser lets nothing else through). -/
def AsciiNames (hs : List Header) : Prop := ∀ h ∈ hs, ∀ b ∈ h.1, b.toNat < 0x80

/-- The lower case text of an ASCII header name. -/
def nameText (name : Bytes) : Str := name.map fun b => (Char.ofNat b.toNat).toLower

/-- Headers as named entries. -/
def entries (hs : List Header) : List (Str × Bytes) := hs.map fun h => (nameText h.1, h.2)

/-- A name as it is used for fields: ASCII without upper case letters. -/
def LowerName (n : Str) : Prop := ∀ c ∈ n, c.toNat < 0x80 ∧ c.isUpper = false

instance (n : Str) : Decidable (LowerName n) := by unfold LowerName; infer_instance

/-- Equal up to the case of ASCII letters. -/
def CaseEq (a b : UInt8) : Prop :=
  a = b ∨ (65 ≤ a.toNat ∧ a.toNat ≤ 90 ∧ b.toNat = a.toNat + 32) ∨
    (65 ≤ b.toNat ∧ b.toNat ≤ 90 ∧ a.toNat = b.toNat + 32)

/-- Names that are equal up to case. -/
inductive CaseEqName : Bytes → Bytes → Prop where
  | nil : CaseEqName [] []
  | cons {a b as bs} : CaseEq a b → CaseEqName as bs → CaseEqName (a :: as) (b :: bs)

/-- The same headers up to the case of the names. -/
inductive Recased : List Header → List Header → Prop where
  | nil : Recased [] []
  | cons {m n v hs hs'} : CaseEqName m n → Recased hs hs' → Recased ((m, v) :: hs) ((n, v) :: hs')

mutual
/-- A request or response type without a `header` field (maps have all fields). -/
def noHeader : Ty → Prop
  | .newtypeStruct t => noHeader t
  | .struct fs => ¬ Declared fs "header".toList
  | .map _ _ => False
  | .enum vs => noHeaderAll vs
  | _ => True
/-- The same for all variants. -/
def noHeaderAll : List (Str × VTy) → Prop
  | [] => True
  | (_, v) :: vs => noHeaderV v ∧ noHeaderAll vs
/-- The same for one variant. -/
def noHeaderV : VTy → Prop
  | .newtype t => noHeader t
  | .struct fs => ¬ Declared fs "header".toList
  | _ => True
end

variable [FloatText]

/-- The value of a header with the value `b`, as a `t`. -/
def readBytes : Ty → Bytes → Option Val
  | .bool, b => (fromUtf8 b).bind fun s => (parseBool s).map .bool
  | .int t, b => (fromUtf8 b).bind fun s => (parseInt t s).map (.int t)
  | .f32, b => (fromUtf8 b).bind fun s => (FloatText.parse32 s).map .f32
  | .f64, b => (fromUtf8 b).bind fun s => (FloatText.parse64 s).map .f64
  | .str, b => (fromUtf8 b).map .str
  | .bytes, b => some (.bytes b)
  | .option t, b => (readBytes t b).map .some
  | .unitStruct n, b => (fromUtf8 b).bind fun s => if s = n then some (.unitStruct n) else none
  | .newtypeStruct t, b => (readBytes t b).map .newtypeStruct
  | _, _ => none

/-- Values with bytes that are read back as the same value. -/
inductive PlainHeader : Val → Bytes → Prop where
  | plain {v s} : PlainArg v s → PlainHeader v (utf8 s)
  | bytes (b) : PlainHeader (.bytes b) b
  | unitStruct (n) : PlainHeader (.unitStruct n) (utf8 n)
  | some {v b} : PlainHeader v b → PlainHeader (.some v) b
  | newtype {v b} : PlainHeader v b → PlainHeader (.newtypeStruct v) b

/-- Fields of a struct and the headers they become, from which they can be read back. -/
abbrev HeaderFields := FieldEntries PlainHeader (· = Val.none)

/-- The bytes with which a header field is sent. -/
inductive SentHeader : Val → Bytes → Prop where
  | sent {v s} : SentAs v s → SentHeader v (utf8 s)
  | bytes (b) : SentHeader (.bytes b) b
  | unitStruct (n) : SentHeader (.unitStruct n) (utf8 n)
  | some {v s} : SentHeader v s → SentHeader (.some v) s
  | newtypeStruct {v s} : SentHeader v s → SentHeader (.newtypeStruct v) s
  | newtypeVariant {n v s} : SentHeader v s → SentHeader (.newtypeVariant n v) s

/-- Fields of a struct and the headers with which they are sent. -/
abbrev SentHeaders := FieldEntries SentHeader Omitted

/-- Named entries as headers. -/
def headersOf (es : List (Str × Bytes)) : List Header := es.map fun e => (utf8 e.1, e.2)

/-- Entries of a map with lower case names as keys and the headers they become, from which they can
be read back. -/
inductive HeaderMap : List (Val × Val) → List (Str × Bytes) → Prop where
  | nil : HeaderMap [] []
  | cons {n v b kvs es} : LowerName n → PlainHeader v b → HeaderMap kvs es →
      HeaderMap ((.str n, v) :: kvs) ((n, b) :: es)

end Htrpc.Spec
