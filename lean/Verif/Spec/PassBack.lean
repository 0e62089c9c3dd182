/-
Responses of simple types, and those that are read but cannot be returned.
-/
import Verif.Spec.PassOn
import Verif.Spec.Response

namespace Htrpc.Spec

/-- The type of the headers of a response: a struct of fields whose names are in lower case, or none. -/
def SimpleHeader (th : Option Ty) : Prop :=
  ∀ t, th = some t → ∃ ts, t = .struct ts ∧ DistinctNames ts ∧
    (∀ f ∈ ts, SimpleField f.2 ∧ LowerName f.1) ∧ ¬ Declared ts "content-length".toList

/-- Variants without content, and those with nothing but headers. -/
inductive SimpleVariant : VTy → Prop where
  | unit : SimpleVariant .unit
  | struct {th} : SimpleHeader th → SimpleVariant (.struct (optField "header".toList th))

/-- Types of responses: structs of an integer as status and perhaps headers; enums of such variants;
and newtypes of these. -/
inductive SimpleResponse : Ty → Prop where
  | struct {t th} : SimpleHeader th →
      SimpleResponse (.struct (("status".toList, .int t) :: optField "header".toList th))
  | enum {vs} : DistinctNames vs → (∀ v ∈ vs, SimpleVariant v.2) → SimpleResponse (.enum vs)
  | newtype {t} : SimpleResponse t → SimpleResponse (.newtypeStruct t)

/-- A struct or a map, possibly inside of newtypes. -/
inductive HoldsFields : Val → Prop where
  | struct (fs) : HoldsFields (.struct fs)
  | map (kvs) : HoldsFields (.map kvs)
  | newtypeStruct {v} : HoldsFields v → HoldsFields (.newtypeStruct v)

/-- A newtype variant that contains a struct or a map; and this inside of newtypes and further newtype
variants. -/
inductive VariantOfFields : Val → Prop where
  | here {n v} : HoldsFields v → VariantOfFields (.newtypeVariant n v)
  | newtypeStruct {v} : VariantOfFields v → VariantOfFields (.newtypeStruct v)
  | newtypeVariant {n v} : VariantOfFields v → VariantOfFields (.newtypeVariant n v)

end Htrpc.Spec
