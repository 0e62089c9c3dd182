/-
Two versions of a type whose fields have wider types: other widths of integers, strings in place of
numbers, values in place of options, and newtypes around anything.
-/
import Verif.Spec.Reads
import Verif.Spec.Texts
import Mathlib.Data.List.Forall2

namespace Htrpc.Spec

/-! ### Values that are the same up to the type -/

/-- The same value: integers of different widths, texts in place of what is written like this, and
newtypes around it; where there are optional values (`opt`) also `Some` around a value. -/
inductive Alike (text : Val → Str → Prop) (opt : Bool) : Val → Val → Prop where
  | same (v) : Alike text opt v v
  | int (t u i) : Alike text opt (.int t i) (.int u i)
  | text {v s} : text v s → Alike text opt v (.str s)
  | unwrap {v w} : Alike text opt v w → Alike text opt (.newtypeStruct v) w
  | wrap {v w} : Alike text opt v w → Alike text opt v (.newtypeStruct w)
  | unSome {v w} : opt = true → ¬ Omitted v → Alike text opt v w → Alike text opt (.some v) w
  | some {v w} : opt = true → ¬ Omitted w → Alike text opt v w → Alike text opt v (.some w)

/-- The same fields. -/
def AlikeFields (text : Val → Str → Prop) : List (Str × Val) → List (Str × Val) → Prop :=
  List.Forall₂ fun f g => f.1 = g.1 ∧ Alike text true f.2 g.2

/-- The same query or headers. -/
inductive AlikeTable (text : Val → Str → Prop) : Val → Val → Prop where
  | same (v) : AlikeTable text v v
  | struct {fs gs} : AlikeFields text fs gs → AlikeTable text (.struct fs) (.struct gs)
  | unwrap {v w} : AlikeTable text v w → AlikeTable text (.newtypeStruct v) w
  | wrap {v w} : AlikeTable text v w → AlikeTable text v (.newtypeStruct w)
  | unSome {v w} : AlikeTable text v w → AlikeTable text (.some v) w
  | some {v w} : AlikeTable text v w → AlikeTable text v (.some w)

/-- The same part of a request, by its name. -/
inductive AlikePart (text : Val → Str → Prop) : Str → Val → Val → Prop where
  | same (n v) : AlikePart text n v v
  | path {v w vs ws} : ArgTuple v vs → ArgTuple w ws → List.Forall₂ (Alike text false) vs ws →
      AlikePart text "path".toList v w
  | query {v w} : AlikeTable text v w → AlikePart text "query".toList v w
  | header {v w} : AlikeTable text v w → AlikePart text "header".toList v w

/-- The same request. -/
inductive AlikeRequest (text : Val → Str → Prop) : Val → Val → Prop where
  | struct {fs gs} : List.Forall₂ (fun f g => f.1 = g.1 ∧ AlikePart text f.1 f.2 g.2) fs gs →
      AlikeRequest text (.struct fs) (.struct gs)
  | unwrap {v w} : AlikeRequest text v w → AlikeRequest text (.newtypeStruct v) w
  | wrap {v w} : AlikeRequest text v w → AlikeRequest text v (.newtypeStruct w)

/-- The same field of a response: an integer of another width as status, or the same headers. -/
inductive AlikeField (text : Val → Str → Prop) : Str → Val → Val → Prop where
  | same (n v) : AlikeField text n v v
  | status (t u i) : AlikeField text "status".toList (.int t i) (.int u i)
  | header {v w} : AlikeTable text v w → AlikeField text "header".toList v w

/-- The same response. -/
inductive AlikeResponse (text : Val → Str → Prop) : Val → Val → Prop where
  | unit (n) : AlikeResponse text (.unitVariant n) (.unitVariant n)
  | struct {fs gs} : List.Forall₂ (fun f g => f.1 = g.1 ∧ AlikeField text f.1 f.2 g.2) fs gs →
      AlikeResponse text (.struct fs) (.struct gs)
  | structVariant {n fs gs} :
      List.Forall₂ (fun f g => f.1 = g.1 ∧ AlikeField text f.1 f.2 g.2) fs gs →
      AlikeResponse text (.structVariant n fs) (.structVariant n gs)
  | newtypeVariant {n v w} : AlikeResponse text v w →
      AlikeResponse text (.newtypeVariant n v) (.newtypeVariant n w)
  | unwrap {v w} : AlikeResponse text v w → AlikeResponse text (.newtypeStruct v) w
  | wrap {v w} : AlikeResponse text v w → AlikeResponse text v (.newtypeStruct w)

/-- The value of a boolean or a number that is read from the text. -/
def ReadFrom [FloatText] (v : Val) (s : Str) : Prop := ∃ t, ScalarText t s v

/-! ### Types that are wider -/

/-- Booleans and numbers. -/
def isScalar : Ty → Bool
  | .bool | .int _ | .f32 | .f64 => true
  | _ => false

/-- A type that has all texts of another one. -/
inductive Wider (opt : Bool) : Ty → Ty → Prop where
  | same (t) : Wider opt t t
  | int {t u} : (∀ i, InRange t i → InRange u i) → Wider opt (.int t) (.int u)
  | text {t} : isScalar t = true → Wider opt t .str
  | unwrap {t u} : Wider opt t u → Wider opt (.newtypeStruct t) u
  | wrap {t u} : Wider opt t u → Wider opt t (.newtypeStruct u)
  | unSome {t u} : opt = true → Wider opt t u → Wider opt (.option t) u
  | some {t u} : opt = true → Wider opt t u → Wider opt t (.option u)

/-- Fields that are wider: optional ones stay optional. -/
def WiderFields : List (Str × Ty) → List (Str × Ty) → Prop :=
  List.Forall₂ fun f g => f.1 = g.1 ∧ Wider true f.2 g.2 ∧ (isOption f.2 = true → isOption g.2 = true)

/-- The same for the whole query or all headers. -/
inductive WiderTable : Ty → Ty → Prop where
  | same (t) : WiderTable t t
  | struct {fs gs} : WiderFields fs gs → WiderTable (.struct fs) (.struct gs)
  | unwrap {t u} : WiderTable t u → WiderTable (.newtypeStruct t) u
  | wrap {t u} : WiderTable t u → WiderTable t (.newtypeStruct u)
  | unSome {t u} : WiderTable t u → WiderTable (.option t) u
  | some {t u} : WiderTable t u → WiderTable t (.option u)

/-- The elements of a type of tuples. -/
inductive TupleTy : Ty → List Ty → Prop where
  | tuple (ts) : TupleTy (.tuple ts) ts
  | tupleStruct (ts) : TupleTy (.tupleStruct ts) ts
  | newtype {t ts} : TupleTy t ts → TupleTy (.newtypeStruct t) ts

/-- The same for a part of a request, by its name; what is neither path nor query nor header is never
there. -/
inductive WiderPart : Str → Ty → Ty → Prop where
  | same (n t) : WiderPart n t t
  | path {t u ts us} : TupleTy t ts → TupleTy u us → List.Forall₂ (Wider false) ts us →
      WiderPart "path".toList t u
  | query {t u} : WiderTable t u → WiderPart "query".toList t u
  | header {t u} : WiderTable t u → WiderPart "header".toList t u

/-- The same for requests. -/
inductive WiderRequest : Ty → Ty → Prop where
  | struct {fs gs} : List.Forall₂ (fun f g => f.1 = g.1 ∧ WiderPart f.1 f.2 g.2) fs gs →
      WiderRequest (.struct fs) (.struct gs)
  | unwrap {t u} : WiderRequest t u → WiderRequest (.newtypeStruct t) u
  | wrap {t u} : WiderRequest t u → WiderRequest t (.newtypeStruct u)

/-- The same for a field of a response. -/
inductive WiderField : Str → Ty → Ty → Prop where
  | same (n t) : WiderField n t t
  | status {t u} : (∀ i, InRange t i → InRange u i) → WiderField "status".toList (.int t) (.int u)
  | header {t u} : WiderTable t u → WiderField "header".toList t u

/-- The same for responses; `inner` has the types inside of newtype variants.  There may also be further
variants. -/
inductive WiderResponse : Ty → Ty → Prop where
  | struct {fs gs} : List.Forall₂ (fun f g => f.1 = g.1 ∧ WiderField f.1 f.2 g.2) fs gs →
      WiderResponse (.struct fs) (.struct gs)
  | enum {vs ws} (inner : Str → Ty) :
      (∀ n, vs.lookup n = some .unit → ws.lookup n = some .unit) →
      (∀ n fs, vs.lookup n = some (.struct fs) → ∃ gs, ws.lookup n = some (.struct gs) ∧
        List.Forall₂ (fun f g => f.1 = g.1 ∧ WiderField f.1 f.2 g.2) fs gs) →
      (∀ n t, vs.lookup n = some (.newtype t) → ws.lookup n = some (.newtype (inner n))) →
      (∀ n t, vs.lookup n = some (.newtype t) → WiderResponse t (inner n)) →
      WiderResponse (.enum vs) (.enum ws)
  | unwrap {t u} : WiderResponse t u → WiderResponse (.newtypeStruct t) u
  | wrap {t u} : WiderResponse t u → WiderResponse t (.newtypeStruct u)

end Htrpc.Spec
