/-
Messages whose bodies are sent in chunks (RFC 7230, 4.1).
-/
import Verif.Model.Chunked
import Verif.Spec.Callee
import Verif.Spec.Interop
import Verif.Spec.Exact
import Verif.Spec.Malformed

namespace Htrpc.Spec

/-- A hexadecimal digit, of either case, and its value. -/
inductive HexDigit : UInt8 → Nat → Prop where
  | digit {b : UInt8} {k : Nat} : k < 10 → b.toNat = 48 + k → HexDigit b k
  | upper {b : UInt8} {k : Nat} : k < 6 → b.toNat = 65 + k → HexDigit b (10 + k)
  | lower {b : UInt8} {k : Nat} : k < 6 → b.toNat = 97 + k → HexDigit b (10 + k)

/-- Hexadecimal digits, perhaps with leading zeros, and their value. -/
inductive HexNumber : Bytes → Nat → Prop where
  | one {b k} : HexDigit b k → HexNumber [b] k
  | more {ds n b k} : HexNumber ds n → HexDigit b k → HexNumber (ds ++ [b]) (16 * n + k)

/-- The first line of a chunk of `n` bytes: the size, and perhaps an extension. -/
inductive SizeLine (n : Nat) : Bytes → Prop where
  | bare {ds} : HexNumber ds n → SizeLine n ds
  | extended {ds x} : HexNumber ds n → (∀ b ∈ x, ValueByte b) → SizeLine n (ds ++ [59] ++ x)

/-- A body in chunks, however it is cut. The last chunk is empty, and header lines may follow it. -/
inductive ChunkText : Bytes → Bytes → Prop where
  | last {l hs t} : SizeLine 0 l → HeaderText hs t → ChunkText [] (l ++ [13, 10] ++ t ++ [13, 10])
  | chunk {l c b t} : c ≠ [] → SizeLine c.length l → ChunkText b t →
      ChunkText (c ++ b) (l ++ [13, 10] ++ c ++ [13, 10] ++ t)

/-- A body as bytes behind these headers: as it is, if they say how long it is, or in chunks, if they say
this. -/
inductive BodyText (hs : List Header) : Bytes → Bytes → Prop where
  | plain {b} : BodyLength hs b.length → BodyText hs b b
  | chunked {b t x n v y} : hs = x ++ (n, v) :: y →
      (∀ h ∈ x, nameText h.1 ≠ "transfer-encoding".toList) →
      nameText n = "transfer-encoding".toList → (∀ b ∈ v, b.toNat < 128) →
      nameText v = "chunked".toList → ChunkText b t → BodyText hs b t

/-- Requests one after another, whose heads the server has room for. -/
inductive ChunkedTexts [Http.MethodNames] : List (ReqHead × Bytes) → Bytes → Prop where
  | nil : ChunkedTexts [] []
  | cons {h t b bb ms rest} : HeadText h t → Fits h t → BodyText h.headers b bb →
      ChunkedTexts ms rest →
      ChunkedTexts ((h, b) :: ms) (t ++ bb ++ rest)

/-- A response to a request with this method, and its body, as bytes. There is no body behind the
response to `HEAD`. -/
inductive ChunkedResponse (m : Method) (c : Nat) (hs : List Header) : Bytes → Bytes → Prop where
  | body {l hb b bb} : m ≠ .head → StatusLine c l → HeaderText hs hb → BodyText hs b bb →
      ChunkedResponse m c hs b (l ++ [13, 10] ++ hb ++ [13, 10] ++ bb)
  | head {l hb} : m = .head → StatusLine c l → HeaderText hs hb →
      ChunkedResponse m c hs [] (l ++ [13, 10] ++ hb ++ [13, 10])

/-- The headers but for those that say how the body is sent. -/
def unframed (hs : List Header) : List Header :=
  hs.filter fun h => decide (nameText h.1 ≠ "content-length".toList ∧
    nameText h.1 ≠ "transfer-encoding".toList)

/-- A type of requests that does not ask how the body is sent: the headers, if it has a field for them,
are a struct without these names. -/
def Unframed (t : Ty) : Prop :=
  ∃ fs, StructOf t fs ∧ ∀ u, ("header".toList, u) ∈ fs → isStruct u = true ∧
    "content-length".toList ∉ names u ∧ "transfer-encoding".toList ∉ names u

end Htrpc.Spec
