/-
What a client can expect of any server that speaks HTTP/1.1: the grammar of responses (RFC 7230),
independently of the reader.
-/
import Verif.Spec.Interop

namespace Htrpc.Spec

/-- The first line of a response: a code of three digits and a phrase. The blank before an empty phrase
may be missing. -/
inductive StatusLine : Nat → Bytes → Prop where
  | phrase {ds p} : Digits ds → ds.length = 3 → (∀ b ∈ p, ValueByte b) →
      StatusLine (digitsValue ds) (utf8 "HTTP/1.1 ".toList ++ utf8 ds ++ [32] ++ p)
  | bare {ds} : Digits ds → ds.length = 3 →
      StatusLine (digitsValue ds) (utf8 "HTTP/1.1 ".toList ++ utf8 ds)

/-- A response to a request with this method, and its body, as bytes. There is no body behind the
response to `HEAD`. -/
inductive ResponseText (m : Method) : Nat → List Header → Bytes → Bytes → Prop where
  | head {c l hs hb} : m = .head → StatusLine c l → HeaderText hs hb →
      ResponseText m c hs [] (l ++ [13, 10] ++ hb ++ [13, 10])
  | full {c l hs hb body} : m ≠ .head → StatusLine c l → HeaderText hs hb →
      BodyLength hs body.length → ResponseText m c hs body (l ++ [13, 10] ++ hb ++ [13, 10] ++ body)

end Htrpc.Spec
