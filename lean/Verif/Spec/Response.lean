/-
What is expected of responses, independently of the response serializer and deserializer.
-/
import Verif.Spec.Status
import Verif.Spec.Request

namespace Htrpc.Spec

/-- The name of the variant a value has. -/
def variantName : Val → Option Str
  | .unitVariant n => some n
  | .newtypeVariant n _ => some n
  | .tupleVariant n _ => some n
  | .structVariant n _ => some n
  | _ => none

/-- A status number: an integer, also inside of `Some` and newtypes. -/
inductive StatusNumber : Val → Nat → Prop where
  | int (t c) : StatusNumber (.int t (Int.ofNat c)) c
  | some {v c} : StatusNumber v c → StatusNumber (.some v) c
  | newtype {v c} : StatusNumber v c → StatusNumber (.newtypeStruct v) c

/-- The responses which can be sent and their status code: a variant named after a status, with
nothing but headers inside; or a struct with a known status first and nothing but headers behind
it; newtypes do not matter, nor do the names of newtype variants. -/
inductive Answers : Val → Nat → Prop where
  | unit {n c} : (n, c) ∈ statusTable → Answers (.unitVariant n) c
  | variant {n c fs} : (n, c) ∈ statusTable → (∀ f ∈ fs, f.1 = "header".toList) →
      Answers (.structVariant n fs) c
  | struct {v n c fs} : StatusNumber v c → (n, c) ∈ statusTable →
      (∀ f ∈ fs, f.1 = "header".toList) → Answers (.struct (("status".toList, v) :: fs)) c
  | newtypeStruct {v c} : Answers v c → Answers (.newtypeStruct v) c
  | newtypeVariant {m v c} : Answers v c → Answers (.newtypeVariant m v) c

variable [FloatText]

/-- Responses that can be read back, their type, the type of their header part, and their
status code. -/
inductive PlainResponse : Val → Ty → Option Ty → Nat → Prop where
  /-- A unit variant named after a status. -/
  | unit {n c vs} : (n, c) ∈ statusTable → vs.lookup n = some .unit →
      PlainResponse (.unitVariant n) (.enum vs) none c
  /-- A struct variant named after a status, perhaps with a header. -/
  | variant {n c vs h ht} : (n, c) ∈ statusTable →
      vs.lookup n = some (.struct (optField "header".toList ht)) → HeaderPart h ht →
      PlainResponse (.structVariant n (optField "header".toList h)) (.enum vs) ht c
  /-- A struct with a known status of an integer type, perhaps with a header. -/
  | struct {t n c h ht} : (n, c) ∈ statusTable → HasTy (.int t (Int.ofNat c)) (.int t) →
      HeaderPart h ht →
      PlainResponse (.struct (("status".toList, .int t (Int.ofNat c)) ::
          optField "header".toList h))
        (.struct (("status".toList, .int t) :: optField "header".toList ht)) ht c
  | newtype {v t ht c} : PlainResponse v t ht c →
      PlainResponse (.newtypeStruct v) (.newtypeStruct t) ht c

end Htrpc.Spec
