/-
Bytes that are no request, and requests that are too large.
-/
import Verif.Spec.Interop
import Verif.Spec.World

namespace Htrpc.Spec

variable [Http.MethodNames]

/-- These bytes do not begin with the head of a request. -/
def NoRequest (junk : Bytes) : Prop := ∀ h t, HeadText h t → ¬ t <+: junk

/-- There is an empty line in these bytes. -/
def EmptyLine (bytes : Bytes) : Prop := [13, 10, 13, 10] <:+: bytes

/-- A head that the server has room for: at most 8096 bytes and at most 32 headers. -/
def Fits (h : ReqHead) (head : Bytes) : Prop := head.length ≤ 8096 ∧ h.headers.length ≤ 32

/-- These bytes do not begin with the head of a request that the server has room for. -/
def Unfit (junk : Bytes) : Prop := ∀ h t, HeadText h t → t <+: junk → ¬ Fits h t

/-- Requests one after another with heads that the server has room for. -/
inductive FittingTexts : List (ReqHead × Bytes) → Bytes → Prop where
  | nil : FittingTexts [] []
  | cons {h head b ms rest} : HeadText h head → Fits h head → BodyLength h.headers b.length →
      FittingTexts ms rest → FittingTexts ((h, b) :: ms) (head ++ b ++ rest)

/-- All requests of the calls have first lines and headers that the servers have room for. -/
def World.AllFit [FloatText] [UrlText] [JsonText] (w : World) : Prop :=
  ∀ (n i : Nat) (p : Proc) a v b r, (asked (upTo w.clients n))[i]? = some (p, a, v, b) →
    serRequest p.method p.entry v b = .ok r →
    (Http.writeRequest r).length ≤ 8096 + b.length ∧ r.headers.length ≤ 32

end Htrpc.Spec
