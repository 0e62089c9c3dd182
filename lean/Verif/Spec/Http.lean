/-
What is expected of HTTP messages as bytes.
-/
import Verif.Model.Http
import Verif.Spec.EndToEnd
import Verif.Spec.Header

namespace Htrpc.Spec

/-- The bytes of tokens (RFC 7230, 3.2.6): letters, digits and fifteen others. -/
def NameByte (b : UInt8) : Prop :=
  (48 ≤ b.toNat ∧ b.toNat ≤ 57) ∨ (65 ≤ b.toNat ∧ b.toNat ≤ 90) ∨ (97 ≤ b.toNat ∧ b.toNat ≤ 122) ∨
    b ∈ utf8 "!#$%&'*+-.^_`|~".toList

/-- The bytes of header values and reason phrases (RFC 7230, 3.2): tabs, blanks and all other bytes that
are no control characters. -/
def ValueByte (b : UInt8) : Prop := b = 9 ∨ (32 ≤ b.toNat ∧ b.toNat ≤ 126) ∨ 128 ≤ b.toNat

instance : DecidablePred NameByte := fun b => by unfold NameByte; infer_instance

instance : DecidablePred ValueByte := fun b => by unfold ValueByte; infer_instance

/-- The name of a header is a token (RFC 7230, 3.2.6). -/
def SafeName (n : Bytes) : Prop := n ≠ [] ∧ ∀ b ∈ n, NameByte b

/-- The value of a header has no control characters, and no white space around it. -/
def SafeValue (v : Bytes) : Prop :=
  (∀ b ∈ v, ValueByte b) ∧
    ∀ b, v.head? = some b ∨ v.getLast? = some b → b ≠ 32 ∧ b ≠ 9

/-- Headers that HTTP can express. -/
def SafeHeaders (hs : List Header) : Prop := ∀ h ∈ hs, SafeName h.1 ∧ SafeValue h.2

/-- Headers that say where a body of this length ends: there is a length, there is only one, and the
body is not chunked. -/
def Framed (hs : List Header) (body : Bytes) : Prop :=
  contentLength body ∈ hs ∧
    (∀ h ∈ hs, nameText h.1 = "content-length".toList → h = contentLength body) ∧
    ∀ h ∈ hs, nameText h.1 ≠ "transfer-encoding".toList

/-- A request target that cannot be torn apart: printable ASCII, and separators only where the path
and the query begin. -/
inductive SafeTarget : Str → Prop where
  | path {p} : (∀ c ∈ p, 0x21 ≤ c.toNat ∧ c.toNat < 0x7F ∧ c ≠ '?' ∧ c ≠ '#') →
      SafeTarget ('/' :: p)
  | query {p q} : (∀ c ∈ p, 0x21 ≤ c.toNat ∧ c.toNat < 0x7F ∧ c ≠ '?' ∧ c ≠ '#') →
      (∀ c ∈ q, 0x21 ≤ c.toNat ∧ c.toNat < 0x7F ∧ c ≠ '?' ∧ c ≠ '#') →
      SafeTarget ('/' :: p ++ '?' :: q)

variable [FloatText]

/-- A header part that HTTP can express, and that does not describe the body itself. -/
inductive SafePart : Option Val → Prop where
  | absent : SafePart none
  | struct {fs es} : HeaderFields fs es →
      (∀ x ∈ es, SafeName (utf8 x.1) ∧ SafeValue x.2 ∧
        nameText (utf8 x.1) ≠ "content-length".toList ∧
        nameText (utf8 x.1) ≠ "transfer-encoding".toList) → SafePart (some (.struct fs))

/-- The header part of a request or response. -/
def headerPart : Val → Option Val
  | .newtypeStruct v => headerPart v
  | .struct fs => fs.lookup "header".toList
  | .structVariant _ fs => fs.lookup "header".toList
  | _ => none

/-- The request which a client writes for what it wants. -/
structure Sends [UrlText] [JsonText] (cfg : ServerCfg) (m : Wish) (r : Request) : Prop where
  supported : ∃ ht, Supported cfg m.service m.value ht
  safe : SafePart (headerPart m.value)
  sent : serRequest m.service.method m.service.entry m.value m.body = .ok r

/-- What a client reads from these bytes as the response to a request with the method `m`: status
code, headers and body; `rest` is left. -/
inductive Reads (m : Method) (bytes : Bytes) : Nat → List Header → Bytes → Bytes → Prop where
  | head {c hs rest} : m = .head → Http.readResponseHead bytes = .done (c, hs) rest →
      Reads m bytes c hs [] rest
  | full {c hs rest f b rest'} : m ≠ .head → Http.readResponseHead bytes = .done (c, hs) rest →
      Http.readBody hs = some f → f rest = .done b rest' → Reads m bytes c hs b rest'

end Htrpc.Spec
