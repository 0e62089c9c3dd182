/-
What a receiver reads from any message, independently of the deserializers: one rule for each kind
of type.
-/
import Verif.Spec.Decode
import Verif.Spec.Header
import Verif.Spec.Maps
import Verif.Spec.Status
import Verif.Model.Url

namespace Htrpc.Spec

mutual
/-- No struct in the type has two fields of the same name. -/
def WellNamed : Ty → Prop
  | .option t => WellNamed t
  | .newtypeStruct t => WellNamed t
  | .seq t => WellNamed t
  | .tuple ts => WellNamedAll ts
  | .tupleStruct ts => WellNamedAll ts
  | .map k v => WellNamed k ∧ WellNamed v
  | .struct fs => DistinctNames fs ∧ WellNamedFields fs
  | .enum vs => WellNamedVariants vs
  | _ => True
/-- The same for several types. -/
def WellNamedAll : List Ty → Prop
  | [] => True
  | t :: ts => WellNamed t ∧ WellNamedAll ts
/-- The same for the types of fields. -/
def WellNamedFields : List (Str × Ty) → Prop
  | [] => True
  | (_, t) :: fs => WellNamed t ∧ WellNamedFields fs
/-- The same for the variants of an enum. -/
def WellNamedVariants : List (Str × VTy) → Prop
  | [] => True
  | (_, v) :: vs => WellNamedVariant v ∧ WellNamedVariants vs
/-- The same for one variant. -/
def WellNamedVariant : VTy → Prop
  | .unit => True
  | .newtype t => WellNamed t
  | .tuple ts => WellNamedAll ts
  | .struct fs => DistinctNames fs ∧ WellNamedFields fs
end

mutual
/-- There is no map in the type. -/
def Mapless : Ty → Prop
  | .option t => Mapless t
  | .newtypeStruct t => Mapless t
  | .seq t => Mapless t
  | .tuple ts => MaplessAll ts
  | .tupleStruct ts => MaplessAll ts
  | .map _ _ => False
  | .struct fs => MaplessFields fs
  | .enum vs => MaplessVariants vs
  | _ => True
/-- The same for several types. -/
def MaplessAll : List Ty → Prop
  | [] => True
  | t :: ts => Mapless t ∧ MaplessAll ts
/-- The same for the types of fields. -/
def MaplessFields : List (Str × Ty) → Prop
  | [] => True
  | (_, t) :: fs => Mapless t ∧ MaplessFields fs
/-- The same for the variants of an enum. -/
def MaplessVariants : List (Str × VTy) → Prop
  | [] => True
  | (_, v) :: vs => MaplessVariant v ∧ MaplessVariants vs
/-- The same for one variant. -/
def MaplessVariant : VTy → Prop
  | .unit => True
  | .newtype t => Mapless t
  | .tuple ts => MaplessAll ts
  | .struct fs => MaplessFields fs
end

/-- The result is a value which satisfies `P`, or there is no such value and it is an `Invalid`
error. -/
def Gives {α : Type} (r : Res α) (P : α → Prop) : Prop :=
  (∃ v, r = .ok v ∧ P v) ∨ (r = .err .invalid ∧ ∀ v, ¬ P v)

/-- The fields of a struct and their values: the names are the same and each value satisfies `P`. -/
inductive Fields (P : Str → Ty → Val → Prop) : List (Str × Ty) → List (Str × Val) → Prop where
  | nil : Fields P [] []
  | cons {n t v fs vs} : P n t v → Fields P fs vs → Fields P ((n, t) :: fs) ((n, v) :: vs)

/-- Types that are read from one text, if at all. -/
def isSingle : Ty → Bool
  | .option _ => false
  | .newtypeStruct _ => false
  | .map _ _ => false
  | .struct _ => false
  | _ => true

/-- The value of a name that is given by the protocol, such as `path`, as a key of a map. -/
inductive ReadsKey : Str → Ty → Val → Prop where
  | str (n) : ReadsKey n .str (.str n)
  | bytes (n) : ReadsKey n .bytes (.bytes (utf8 n))
  | variant {n vs} : vs.lookup n = some .unit → ReadsKey n (.enum vs) (.unitVariant n)

section
variable [FloatText]

/-- What is read from the parameters of a query. A struct takes the effective parameters, a map all
of them, a single value the name of the first. -/
inductive ReadsQuery (ps : List (Str × Str)) : Ty → Val → Prop where
  | struct {fs v} : readStruct readText fs (effective fs (row ps)) = some v →
      ReadsQuery ps (.struct fs) v
  | map {k t es m} : readEntries readText k t ps = some es → MapOf es m →
      ReadsQuery ps (.map k t) (.map m)
  | single {t p v} : isSingle t = true → ps.head? = some p → readText t p.1 = some v →
      ReadsQuery ps t v
  | some {t v} : ReadsQuery ps t v → ReadsQuery ps (.option t) (.some v)
  | newtype {t v} : ReadsQuery ps t v → ReadsQuery ps (.newtypeStruct t) (.newtypeStruct v)

/-- What is read from headers. A struct takes those with its names, a map all of them, a single value
the name of the first; names are read in lower case. -/
inductive ReadsHeaders (hs : List Header) : Ty → Val → Prop where
  | struct {fs v} : readStruct readBytes fs (entries hs) = some v → ReadsHeaders hs (.struct fs) v
  | map {k t es m} :
      readEntries readBytes k t (hs.map fun h => (utf8 (nameText h.1), h.2)) = some es →
      MapOf es m → ReadsHeaders hs (.map k t) (.map m)
  | single {t h v} : isSingle t = true → hs.head? = some h →
      readBytes t (utf8 (nameText h.1)) = some v → ReadsHeaders hs t v
  | some {t v} : ReadsHeaders hs t v → ReadsHeaders hs (.option t) (.some v)
  | newtype {t v} : ReadsHeaders hs t v → ReadsHeaders hs (.newtypeStruct t) (.newtypeStruct v)

/-- The value of a field of a request: the fields `path`, `query` and `header` take the respective
part of the request, every other field is optional and absent. -/
inductive RequestField (e : EntryPoint) (segs : List Str) (ps : List (Str × Str))
    (hs : List Header) : Str → Ty → Val → Prop where
  | path {t v} : readPath t (variables e segs) = some v →
      RequestField e segs ps hs "path".toList t v
  | query {t v} : ReadsQuery ps t v → RequestField e segs ps hs "query".toList t v
  | header {t v} : ReadsHeaders hs t v → RequestField e segs ps hs "header".toList t v
  | other {n t} : n ≠ "path".toList → n ≠ "query".toList → n ≠ "header".toList →
      RequestField e segs ps hs n (.option t) .none

/-- What is read from a request with these segments of its path, parameters and headers. -/
inductive ReadsRequest (e : EntryPoint) (segs : List Str) (ps : List (Str × Str))
    (hs : List Header) : Ty → Val → Prop where
  | struct {fs vs} : (Declared fs "header".toList ∨ hs ≠ []) →
      Fields (RequestField e segs ps hs) fs vs → ReadsRequest e segs ps hs (.struct fs) (.struct vs)
  | map {k t a x b y c z m} : ReadsKey "path".toList k a → readPath t (variables e segs) = some x →
      ReadsKey "query".toList k b → ReadsQuery ps t y →
      ReadsKey "header".toList k c → ReadsHeaders hs t z → MapOf [(a, x), (b, y), (c, z)] m →
      ReadsRequest e segs ps hs (.map k t) (.map m)
  | newtype {t v} : ReadsRequest e segs ps hs t v →
      ReadsRequest e segs ps hs (.newtypeStruct t) (.newtypeStruct v)

/-- The value of the status of a response as a number of a type. -/
inductive ReadsStatus (code : Nat) : Ty → Val → Prop where
  | int {t : IntTy} : t.min ≤ code → (code : Int) ≤ t.max → ReadsStatus code (.int t) (.int t code)
  | f32 : ReadsStatus code .f32 (.f32 (FloatText.ofNat32 code))
  | f64 : ReadsStatus code .f64 (.f64 (FloatText.ofNat64 code))

/-- The value of a field of a response; inside of a variant (`whole` is false) the status is no longer
there to be read. -/
inductive ResponseField (code : Nat) (hs : List Header) (whole : Bool) : Str → Ty → Val → Prop where
  | status {t v} : whole = true → ReadsStatus code t v →
      ResponseField code hs whole "status".toList t v
  | header {t v} : ReadsHeaders hs t v → ResponseField code hs whole "header".toList t v
  | other {n t} : (n = "status".toList → whole = false) → n ≠ "header".toList →
      ResponseField code hs whole n (.option t) .none

/-- What is read from a response with this status code and these headers; `whole` says that its
status was not used as the name of a variant yet. -/
inductive ReadsResponse (code : Nat) (hs : List Header) : Bool → Ty → Val → Prop where
  | struct {whole fs vs} : (Declared fs "header".toList ∨ hs ≠ []) →
      Fields (ResponseField code hs whole) fs vs →
      ReadsResponse code hs whole (.struct fs) (.struct vs)
  | map {k t a x b y m} : ReadsKey "status".toList k a → ReadsStatus code t x →
      ReadsKey "header".toList k b → ReadsHeaders hs t y → MapOf [(a, x), (b, y)] m →
      ReadsResponse code hs true (.map k t) (.map m)
  | innerMap {k t b y} : ReadsKey "header".toList k b → ReadsHeaders hs t y →
      ReadsResponse code hs false (.map k t) (.map [(b, y)])
  | newtype {whole t v} : ReadsResponse code hs whole t v →
      ReadsResponse code hs whole (.newtypeStruct t) (.newtypeStruct v)
  | unit {whole vs n} : (n, code) ∈ statusTable → vs.lookup n = some .unit →
      ReadsResponse code hs whole (.enum vs) (.unitVariant n)
  | newtypeVariant {whole vs n t v} : (n, code) ∈ statusTable → vs.lookup n = some (.newtype t) →
      ReadsResponse code hs false t v →
      ReadsResponse code hs whole (.enum vs) (.newtypeVariant n v)
  | structVariant {whole vs n fs ws} : (n, code) ∈ statusTable →
      vs.lookup n = some (.struct fs) → (Declared fs "header".toList ∨ hs ≠ []) →
      Fields (ResponseField code hs false) fs ws →
      ReadsResponse code hs whole (.enum vs) (.structVariant n ws)

end

end Htrpc.Spec
