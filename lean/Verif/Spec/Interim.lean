/-
Interim responses (RFC 7231, 6.2): a server may send any number of them in front of the response proper.
-/
import Verif.Spec.Callee
import Verif.Spec.Reads

namespace Htrpc.Spec

/-- The status of a response that is not yet the answer. -/
def Interim (c : Nat) : Prop := 100 ≤ c ∧ c < 200

/-- A type of responses whose variants are all named after other statuses. -/
def FinalOnly : Ty → Prop
  | .enum vs => ∀ n c, (n, c) ∈ statusTable → Interim c → vs.lookup n = none
  | .newtypeStruct t => FinalOnly t
  | _ => False

/-- A response, and any number of interim ones in front of it. -/
inductive AnswerText (m : Method) : List Nat → Bytes → Prop where
  | final {c hs b text} : ¬ Interim c → ResponseText m c hs b text → AnswerText m [c] text
  | interim {c hs b text cs rest} : Interim c → ResponseText m c hs b text → AnswerText m cs rest →
      AnswerText m (c :: cs) (text ++ rest)

end Htrpc.Spec
