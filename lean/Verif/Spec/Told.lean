/-
Types whose values can be told apart by their texts, independently of the serializers.
-/
import Verif.Spec.SentTarget
import Verif.Spec.Exact

namespace Htrpc.Spec
open Htrpc

/-- The types of which different values have different texts (up to the bits of NaN): scalars, enums
without contents, and newtypes of these. -/
inductive ToldText : Ty → Prop where
  | bool : ToldText .bool
  | int (t) : ToldText (.int t)
  | f32 : ToldText .f32
  | f64 : ToldText .f64
  | char : ToldText .char
  | str : ToldText .str
  | bytes : ToldText .bytes
  | unitStruct (n) : ToldText (.unitStruct n)
  | enum {vs} : (∀ x ∈ vs, x.2 = VTy.unit) → ToldText (.enum vs)
  | newtypeStruct {t} : ToldText t → ToldText (.newtypeStruct t)

/-- The same for fields that may be absent: one `Option`, possibly inside of newtypes. -/
inductive ToldField : Ty → Prop where
  | told {t} : ToldText t → ToldField t
  | option {t} : ToldText t → ToldField (.option t)
  | newtypeStruct {t} : ToldField t → ToldField (.newtypeStruct t)

/-- The same for queries and headers: structs of such fields, and maps. -/
inductive ToldEntries : Ty → Prop where
  | struct {ts} : DistinctNames ts → (∀ x ∈ ts, ToldField x.2) → ToldEntries (.struct ts)
  | map {k t} : ToldText k → ToldText t → ToldEntries (.map k t)
  | newtypeStruct {t} : ToldEntries t → ToldEntries (.newtypeStruct t)

/-- The same for paths. -/
inductive ToldPath : Ty → Prop where
  | unit : ToldPath .unit
  | unitStruct (n) : ToldPath (.unitStruct n)
  | tuple {ts} : (∀ t ∈ ts, ToldText t) → ToldPath (.tuple ts)
  | tupleStruct {ts} : (∀ t ∈ ts, ToldText t) → ToldPath (.tupleStruct ts)
  | newtypeStruct {t} : ToldPath t → ToldPath (.newtypeStruct t)

/-- The same for requests: structs with such parts, possibly inside of newtypes. -/
inductive ToldRequest : Ty → Prop where
  | struct {ts} : DistinctNames ts → (∀ t, ts.lookup "path".toList = some t → ToldPath t) →
      (∀ t, ts.lookup "query".toList = some t → ToldEntries t) →
      (∀ t, ts.lookup "header".toList = some t → ToldEntries t) → ToldRequest (.struct ts)
  | newtypeStruct {t} : ToldRequest t → ToldRequest (.newtypeStruct t)

/-- The same for responses: enums whose variants have at most a header, structs, and newtypes of these. -/
inductive ToldResponse : Ty → Prop where
  | enum {vs} : DistinctNames vs → (∀ x ∈ vs, x.2 = VTy.unit ∨ ∃ ts, x.2 = VTy.struct ts ∧
      DistinctNames ts ∧ ∀ t, ts.lookup "header".toList = some t → ToldEntries t) →
      ToldResponse (.enum vs)
  | struct {ts} : DistinctNames ts → (∀ t, ts.lookup "header".toList = some t → ToldEntries t) →
      ToldResponse (.struct ts)
  | newtypeStruct {t} : ToldResponse t → ToldResponse (.newtypeStruct t)

/-- The path of a request, also inside of newtypes. -/
inductive PathOf : Val → Val → Prop where
  | struct {fs p} : fs.lookup "path".toList = some p → PathOf (.struct fs) p
  | newtypeStruct {v p} : PathOf v p → PathOf (.newtypeStruct v) p

variable [FloatText]

/-- A URL can carry the path of a request to an entry point, and there are no tabs and line breaks in the
arguments. -/
def PathFits (e : EntryPoint) (v : Val) : Prop :=
  ∀ p vs ss, PathOf v p → PathArgs p vs → SentAll vs ss →
    Carried (instantiate e ss) ∧ ∀ s ∈ ss, strip s = s

/-- Different requests of one type for which the same is sent. -/
def Confused (m : Method) (e : EntryPoint) (t : Ty) (v v' : Val) (body : Bytes) : Prop :=
  v ≠ v' ∧ HasTy v t ∧ HasTy v' t ∧ ∃ r, serRequest m e v body = .ok r ∧ serRequest m e v' body = .ok r

end Htrpc.Spec
