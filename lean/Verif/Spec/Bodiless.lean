/-
Responses which have no body because of their status (RFC 7230, 3.3.3), and what readers who know this find.
-/
import Verif.Spec.Callee

namespace Htrpc.Spec

/-- The statuses of responses without body, whatever their headers say. -/
def Bodiless (c : Nat) : Prop := 100 ≤ c ∧ c < 200 ∨ c = 204 ∨ c = 304

/-- A response to a request with this method (other than `CONNECT`), and its body, as bytes. -/
inductive RfcText (m : Method) : Nat → List Header → Bytes → Bytes → Prop where
  | bare {c l hs hb} : m = .head ∨ Bodiless c → StatusLine c l → HeaderText hs hb →
      RfcText m c hs [] (l ++ [13, 10] ++ hb ++ [13, 10])
  | full {c l hs hb body} : m ≠ .head → ¬ Bodiless c → StatusLine c l → HeaderText hs hb →
      BodyLength hs body.length → RfcText m c hs body (l ++ [13, 10] ++ hb ++ [13, 10] ++ body)

/-- Responses to requests with these methods, one after another. -/
inductive RfcTexts : List Method → List (Nat × List Header × Bytes) → Bytes → Prop where
  | nil : RfcTexts [] [] []
  | cons {m c hs b text ms l rest} : RfcText m c hs b text → RfcTexts ms l rest →
      RfcTexts (m :: ms) ((c, hs, b) :: l) (text ++ rest)

end Htrpc.Spec
