/-
Every sequence of bytes, as requests and what is left.
-/
import Verif.Spec.Malformed

namespace Htrpc.Spec

variable [Http.MethodNames]

/-- Why bytes are left after the last complete request. -/
inductive Rest where
  /-- They may become the head of a request, if more follow. -/
  | waiting
  /-- There is a head, but its body is not complete. -/
  | part (h : ReqHead)
  /-- There is no head of a request that the server has room for, whatever follows. -/
  | refused
  /-- There is a head, but its headers do not say where its body ends. -/
  | undelimited (h : ReqHead)

/-- These bytes are left for this reason. -/
inductive Remains : Rest → Bytes → Prop where
  | waiting {bs} : Unfit bs → ¬ EmptyLine bs → bs.length < 8096 → Remains .waiting bs
  | part {h t n bs} : HeadText h t → Fits h t → BodyLength h.headers n → bs.length < n →
      Remains (.part h) (t ++ bs)
  | refused {bs} : Unfit bs → EmptyLine bs ∨ 8096 ≤ bs.length → Remains .refused bs
  | undelimited {h t bs} : HeadText h t → Fits h t → (∀ n, ¬ BodyLength h.headers n) →
      Remains (.undelimited h) (t ++ bs)

/-- These bytes are these requests, and then others are left for this reason. -/
def Splits (bytes : Bytes) (ms : List (ReqHead × Bytes)) (k : Rest) : Prop :=
  ∃ front rest, bytes = front ++ rest ∧ FittingTexts ms front ∧ Remains k rest

end Htrpc.Spec
