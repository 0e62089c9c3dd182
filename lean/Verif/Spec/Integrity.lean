/-
What can become of a value on its way, independently of serializers and deserializers.
-/
import Verif.Spec.Maps
import Verif.Spec.Header

namespace Htrpc.Spec
open Htrpc

/-- The same value, up to the bits of NaN. -/
inductive Same : Val → Val → Prop where
  | refl (v) : Same v v
  | nan32 {x y} : isNaN32 x = true → isNaN32 y = true → Same (.f32 x) (.f32 y)
  | nan64 {x y} : isNaN64 x = true → isNaN64 y = true → Same (.f64 x) (.f64 y)
  | some {v w} : Same v w → Same (.some v) (.some w)
  | newtypeStruct {v w} : Same v w → Same (.newtypeStruct v) (.newtypeStruct w)

/-- What can become of a field of a query or header struct: it arrives as it is, or `Some` of an
absent value arrives as `None`. -/
inductive FieldArrives : Val → Val → Prop where
  | same {v w} : Same v w → FieldArrives v w
  | collapsed {v} : Omitted v → FieldArrives (.some v) .none

/-- What can become of the fields of a struct: each arrives under its name. -/
inductive FieldsArrive (arrives : Str → Val → Val → Prop) :
    List (Str × Val) → List (Str × Val) → Prop where
  | nil : FieldsArrive arrives [] []
  | cons {n v w fs ws} : arrives n v w → FieldsArrive arrives fs ws →
      FieldsArrive arrives ((n, v) :: fs) ((n, w) :: ws)

/-- What can become of the entries of a map: those with an absent value are lost, the others arrive
as they are. -/
inductive EntriesArrive : List (Val × Val) → List (Val × Val) → Prop where
  | nil : EntriesArrive [] []
  | lost {k v kvs es} : Omitted v → EntriesArrive kvs es → EntriesArrive ((k, v) :: kvs) es
  | same {k v k' v' kvs es} : Same k k' → Same v v' → EntriesArrive kvs es →
      EntriesArrive ((k, v) :: kvs) ((k', v') :: es)

/-- What can become of a query. -/
inductive QueryArrives : Val → Val → Prop where
  | struct {fs ws} : FieldsArrive (fun _ => FieldArrives) fs ws →
      QueryArrives (.struct fs) (.struct ws)
  | map {kvs es m} : EntriesArrive kvs es → MapOf es m → QueryArrives (.map kvs) (.map m)
  | some {v w} : QueryArrives v w → QueryArrives (.some v) (.some w)
  | newtypeStruct {v w} : QueryArrives v w → QueryArrives (.newtypeStruct v) (.newtypeStruct w)

/-- The field names of a struct, also inside of newtypes and options. -/
def names : Ty → List Str
  | .struct fs => fs.map Prod.fst
  | .option t => names t
  | .newtypeStruct t => names t
  | _ => []

/-- A text with ASCII letters in lower case. -/
def lowerText (n : Str) : Str := n.map Char.toLower

/-- A struct, also inside of newtypes and options. -/
def isStruct : Ty → Bool
  | .struct _ => true
  | .option t => isStruct t
  | .newtypeStruct t => isStruct t
  | _ => false

/-- What can become of a field of a header struct: in addition, an optional field whose name is not
in lower case arrives as `None`. -/
inductive HeaderFieldArrives (n : Str) : Val → Val → Prop where
  | named {v w} : LowerName n → FieldArrives v w → HeaderFieldArrives n v w
  | unnamed {v} : ¬ LowerName n → HeaderFieldArrives n (.some v) .none
  | none : HeaderFieldArrives n .none .none

/-- What can become of headers. -/
inductive HeaderArrives : Val → Val → Prop where
  | struct {fs ws} : FieldsArrive HeaderFieldArrives fs ws → HeaderArrives (.struct fs) (.struct ws)
  | some {v w} : HeaderArrives v w → HeaderArrives (.some v) (.some w)
  | newtypeStruct {v w} : HeaderArrives v w → HeaderArrives (.newtypeStruct v) (.newtypeStruct w)

/-- What can become of the entries of a header map: names arrive in lower case. -/
inductive HeaderEntriesArrive : List (Val × Val) → List (Val × Val) → Prop where
  | nil : HeaderEntriesArrive [] []
  | lost {k v kvs es} : Omitted v → HeaderEntriesArrive kvs es →
      HeaderEntriesArrive ((k, v) :: kvs) es
  | same {n v v' kvs es} : Same v v' → HeaderEntriesArrive kvs es →
      HeaderEntriesArrive ((.str n, v) :: kvs) ((.str (lowerText n), v') :: es)

/-- What can become of an argument in a path: a text is changed as in C10, or, if it is `.` or `..`,
becomes empty. -/
inductive ArgArrives : Val → Val → Prop where
  | bool (b) : ArgArrives (.bool b) (.bool b)
  | int (t i) : ArgArrives (.int t i) (.int t i)
  | f32 {x w} : Same (.f32 x) w → ArgArrives (.f32 x) w
  | f64 {x w} : Same (.f64 x) w → ArgArrives (.f64 x) w
  | str {s} : ¬ Dots s → ArgArrives (.str s) (.str (latin1 (utf8 (strip s))))
  | dots {s} : Dots s → ArgArrives (.str s) (.str [])
  | newtypeStruct {v w} : ArgArrives v w → ArgArrives (.newtypeStruct v) (.newtypeStruct w)

/-- The same for a list of arguments. -/
inductive ArgsArrive : List Val → List Val → Prop where
  | nil : ArgsArrive [] []
  | cons {v w vs ws} : ArgArrives v w → ArgsArrive vs ws → ArgsArrive (v :: vs) (w :: ws)

/-- What can become of a path. -/
inductive PathArrives : Val → Val → Prop where
  | tuple {vs ws} : ArgsArrive vs ws → PathArrives (.tuple vs) (.tuple ws)
  | tupleStruct {vs ws} : ArgsArrive vs ws → PathArrives (.tupleStruct vs) (.tupleStruct ws)
  | newtypeStruct {v w} : PathArrives v w → PathArrives (.newtypeStruct v) (.newtypeStruct w)

/-- What can become of a part of a request. -/
inductive PartArrives : Str → Val → Val → Prop where
  | path {v w} : PathArrives v w → PartArrives "path".toList v w
  | query {v w} : QueryArrives v w → PartArrives "query".toList v w
  | header {v w} : HeaderArrives v w → PartArrives "header".toList v w

/-- What can become of the status field of a response struct: inside of a newtype variant, an optional
status arrives as `None`. -/
inductive StatusArrives : Bool → Val → Val → Prop where
  | same (inside v) : StatusArrives inside v v
  | lost (v) : StatusArrives true (.some v) .none

/-- What can become of a field of a response. -/
inductive AnswerArrives (inside : Bool) : Str → Val → Val → Prop where
  | status {v w} : StatusArrives inside v w → AnswerArrives inside "status".toList v w
  | header {v w} : HeaderArrives v w → AnswerArrives inside "header".toList v w

/-- What can become of a response (or of one inside of a newtype variant). -/
inductive ResponseArrives : Bool → Val → Val → Prop where
  | unit (inside n) : ResponseArrives inside (.unitVariant n) (.unitVariant n)
  | variant {inside n fs ws} : FieldsArrive (AnswerArrives inside) fs ws →
      ResponseArrives inside (.structVariant n fs) (.structVariant n ws)
  | struct {inside fs ws} : FieldsArrive (AnswerArrives inside) fs ws →
      ResponseArrives inside (.struct fs) (.struct ws)
  | newtypeStruct {inside v w} : ResponseArrives inside v w →
      ResponseArrives inside (.newtypeStruct v) (.newtypeStruct w)
  | newtypeVariant {inside n v w} : ResponseArrives true v w →
      ResponseArrives inside (.newtypeVariant n v) (.newtypeVariant n w)

/-- The structs and struct variants of a response type, with their fields. -/
inductive FieldsOf : Ty → List (Str × Ty) → Prop where
  | struct (ts) : FieldsOf (.struct ts) ts
  | variant {n ts vs} : (n, VTy.struct ts) ∈ vs → FieldsOf (.enum vs) ts
  | newtypeStruct {t ts} : FieldsOf t ts → FieldsOf (.newtypeStruct t) ts
  | newtypeVariant {n t ts vs} : (n, VTy.newtype t) ∈ vs → FieldsOf t ts → FieldsOf (.enum vs) ts

/-- The enums of a response type, with their variants. -/
inductive VariantsOf : Ty → List (Str × VTy) → Prop where
  | enum (vs) : VariantsOf (.enum vs) vs
  | newtypeStruct {t vs} : VariantsOf t vs → VariantsOf (.newtypeStruct t) vs
  | newtypeVariant {n t vs vs'} : (n, VTy.newtype t) ∈ vs → VariantsOf t vs' →
      VariantsOf (.enum vs) vs'

/-- The newtype variants around a response. -/
inductive Around : Val → Str → Prop where
  | here (n v) : Around (.newtypeVariant n v) n
  | newtypeStruct {v m} : Around v m → Around (.newtypeStruct v) m
  | newtypeVariant {n v m} : Around v m → Around (.newtypeVariant n v) m

/-- What a response type must satisfy: distinct names of variants and fields; headers are structs
without a field for the length of the body. -/
structure ResponseTy (t : Ty) : Prop where
  variants : ∀ vs, VariantsOf t vs → DistinctNames vs
  fields : ∀ ts, FieldsOf t ts → DistinctNames ts
  header : ∀ ts u, FieldsOf t ts → ts.lookup "header".toList = some u → isStruct u = true ∧
    ((names u).map lowerText).Nodup ∧ "content-length".toList ∉ (names u).map lowerText

/-- The headers, of those given, which a type asks for. -/
def askedFor (t : Ty) (hs : List Header) : List Header :=
  hs.filter fun h => decide (nameText h.1 ∈ (names t).map lowerText)

end Htrpc.Spec
