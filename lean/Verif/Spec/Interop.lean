/-
What any client that speaks HTTP/1.1 can expect of the server: the grammar of requests (RFC 7230),
independently of the reader.
-/
import Verif.Spec.Http
import Verif.Spec.System
import Verif.Spec.Verdict

namespace Htrpc.Spec

/-- Blanks and tabs. -/
def Blanks (bs : Bytes) : Prop := ∀ b ∈ bs, b = 32 ∨ b = 9

/-- The lines of headers: name, colon, value, with white space around the value. -/
inductive HeaderText : List Header → Bytes → Prop where
  | nil : HeaderText [] []
  | cons {n v a b hs bs} : SafeName n → SafeValue v → Blanks a → Blanks b → HeaderText hs bs →
      HeaderText ((n, v) :: hs) (n ++ [58] ++ a ++ v ++ b ++ [13, 10] ++ bs)

/-- The length of the body that is announced by headers: that of the first `Content-Length`, in
decimal; without one there is no body.  Chunked bodies are left out. -/
inductive BodyLength (hs : List Header) : Nat → Prop where
  | absent : (∀ h ∈ hs, nameText h.1 ≠ "transfer-encoding".toList) →
      (∀ h ∈ hs, nameText h.1 ≠ "content-length".toList) → BodyLength hs 0
  | given {a n ds b} : (∀ h ∈ hs, nameText h.1 ≠ "transfer-encoding".toList) →
      hs = a ++ (n, utf8 ds) :: b → (∀ h ∈ a, nameText h.1 ≠ "content-length".toList) →
      nameText n = "content-length".toList → Digits ds → BodyLength hs (digitsValue ds)

/-- A text of visible ASCII characters. -/
def Visible (t : Str) : Prop := t ≠ [] ∧ ∀ c ∈ t, 0x20 < c.toNat ∧ c.toNat < 0x7F

/-- The head of a request as bytes. -/
inductive HeadText [Http.MethodNames] : ReqHead → Bytes → Prop where
  | intro {m t hs hb} : Visible t → HeaderText hs hb →
      HeadText ⟨m, t, hs⟩
        (Http.MethodNames.name m ++ [32] ++ utf8 t ++ [32] ++ utf8 "HTTP/1.1".toList ++ [13, 10] ++
          hb ++ [13, 10])

/-- A request and its body as bytes. -/
inductive RequestText [Http.MethodNames] : ReqHead → Bytes → Bytes → Prop where
  | intro {m t hs hb body} : Visible t → HeaderText hs hb → BodyLength hs body.length →
      RequestText ⟨m, t, hs⟩ body
        (Http.MethodNames.name m ++ [32] ++ utf8 t ++ [32] ++ utf8 "HTTP/1.1".toList ++ [13, 10] ++
          hb ++ [13, 10] ++ body)

/-- Requests one after another. -/
inductive RequestTexts [Http.MethodNames] : List (ReqHead × Bytes) → Bytes → Prop where
  | nil : RequestTexts [] []
  | cons {h b bytes ms rest} : RequestText h b bytes → RequestTexts ms rest →
      RequestTexts ((h, b) :: ms) (bytes ++ rest)

/-- A target in origin form: it begins with exactly one slash. -/
def OriginForm (t : Str) : Prop := ∃ r, t = '/' :: r ∧ ∀ c s, r = c :: s → c ≠ '/' ∧ c ≠ '\\'

variable [FloatText] [UrlText] [JsonText]

/-- What happens for a request after its head was read, from the verdict to the end: it is refused and
the problem is written, or the handler is called, and what it has returned is written. -/
inductive Settled (g : ReadBody) (h : ReqHead) (b : Bytes) : Verdict → List ConnEffect → Prop where
  | refused {p s} : s.code = p.statusCode.toNat →
      Settled g h b (.refuse p) [.drained b, .answer (onWire h (problemResponse s p)), .written]
  | served {s v w resp body r} : g s v b w → serResponse resp body = .ok r →
      Settled g h b (.call s v)
        [.invoked s v w, .returned resp body, .answer (onWire h r), .written]

omit [UrlText] [JsonText] in
/-- What a client reads as the responses to requests with these methods; `rest` is left. -/
inductive ReadsAll : List Method → Bytes → List (Nat × List Header × Bytes) → Bytes → Prop where
  | nil {d} : ReadsAll [] d [] d
  | cons {m ms d c hs b d' l rest} : Reads m d c hs b d' → ReadsAll ms d' l rest →
      ReadsAll (m :: ms) d ((c, hs, b) :: l) rest

end Htrpc.Spec
