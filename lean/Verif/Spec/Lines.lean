/-
Which header lines a message has, independently of the serializers.
-/
import Verif.Spec.Response

namespace Htrpc.Spec

/-- What a request or response declares as its header, also inside of newtypes. -/
def headerValues : Val → List Val
  | .struct fs => (fs.filter fun f => f.1 = "header".toList).map Prod.snd
  | .structVariant _ fs => (fs.filter fun f => f.1 = "header".toList).map Prod.snd
  | .newtypeStruct v => headerValues v
  | .newtypeVariant _ v => headerValues v
  | _ => []

/-- The lines with this name, in upper or lower case. -/
def linesNamed (n : Str) (hs : List Header) : List Header := hs.filter fun h => nameText h.1 = n

/-- RFC 7230, 5.4: a request of HTTP/1.1 has exactly one line `Host`; a server has to answer others with
the status 400. -/
def HasHost (hs : List Header) : Prop := (linesNamed "host".toList hs).length = 1

instance (hs : List Header) : Decidable (HasHost hs) := by unfold HasHost; infer_instance

/-- One field of these has the name, and a value that is sent; others with the name are absent. -/
def OneField (n : Str) (fs : List (Str × Val)) : Prop :=
  ∃ before f after, fs = before ++ f :: after ∧ nameText (utf8 f.1) = n ∧ ¬ Omitted f.2 ∧
    ∀ g ∈ before ++ after, nameText (utf8 g.1) = n → Omitted g.2

variable [FloatText]

/-- Lines that are those of all the values, one after another. -/
inductive Lines : List Val → List Header → Prop where
  | nil : Lines [] []
  | cons {v own vs hs} : Written SentHeader utf8 v own → Lines vs hs → Lines (v :: vs) (own ++ hs)

end Htrpc.Spec
