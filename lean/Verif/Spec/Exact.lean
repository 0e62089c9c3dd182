/-
Which values arrive unchanged, independently of serializers and deserializers.
-/
import Verif.Spec.Request
import Verif.Spec.Response
import Verif.Spec.Integrity

namespace Htrpc.Spec
open Htrpc

/-- A NaN somewhere in a value. -/
inductive HasNaN : Val → Prop where
  | here {v} : NaNField v → HasNaN v
  | tuple {w vs} : w ∈ vs → HasNaN w → HasNaN (.tuple vs)
  | tupleStruct {w vs} : w ∈ vs → HasNaN w → HasNaN (.tupleStruct vs)
  | struct {n w fs} : (n, w) ∈ fs → HasNaN w → HasNaN (.struct fs)
  | key {k w kvs} : (k, w) ∈ kvs → HasNaN k → HasNaN (.map kvs)
  | value {k w kvs} : (k, w) ∈ kvs → HasNaN w → HasNaN (.map kvs)
  | some {v} : HasNaN v → HasNaN (.some v)
  | newtypeStruct {v} : HasNaN v → HasNaN (.newtypeStruct v)
  | structVariant {n m w fs} : (n, w) ∈ fs → HasNaN w → HasNaN (.structVariant m fs)
  | newtypeVariant {n v} : HasNaN v → HasNaN (.newtypeVariant n v)

/-- The struct that a type is, or that is inside of its newtypes. -/
inductive StructOf : Ty → List (Str × Ty) → Prop where
  | struct (ts) : StructOf (.struct ts) ts
  | newtypeStruct {t ts} : StructOf t ts → StructOf (.newtypeStruct t) ts

/-- What is asked of the type of a request: its fields and those of its query have distinct names; the
header is a struct, whose fields have distinct names up to case, and `content-length` is not one of them. -/
structure RequestTy (t : Ty) : Prop where
  fields : ∀ ts, StructOf t ts → DistinctNames ts
  query : ∀ ts u, StructOf t ts → ts.lookup "query".toList = some u → (names u).Nodup
  header : ∀ ts u, StructOf t ts → ts.lookup "header".toList = some u → isStruct u = true ∧
    ((names u).map lowerText).Nodup ∧ "content-length".toList ∉ (names u).map lowerText

variable [FloatText]

/-- The queries that arrive: structs all of whose fields are plain or `None`, maps of plain keys with
plain values, and these inside of `Some` and newtypes. -/
inductive QueryIntact : Val → Prop where
  | struct {fs ps} : FieldTexts fs ps → QueryIntact (.struct fs)
  | map {kvs ps} : MapTexts kvs ps → DistinctKeys kvs → QueryIntact (.map kvs)
  | some {v} : QueryIntact v → QueryIntact (.some v)
  | newtypeStruct {v} : QueryIntact v → QueryIntact (.newtypeStruct v)

/-- The headers that arrive: structs all of whose fields are plain or `None`, and `None` if their names
are not in lower case; and these inside of `Some` and newtypes. -/
inductive HeaderIntact : Val → Prop where
  | struct {fs es} : HeaderFields fs es → (∀ f ∈ fs, LowerName f.1 ∨ f.2 = .none) →
      HeaderIntact (.struct fs)
  | some {v} : HeaderIntact v → HeaderIntact (.some v)
  | newtypeStruct {v} : HeaderIntact v → HeaderIntact (.newtypeStruct v)

/-- The paths that arrive at an entry point: tuples of as many plain arguments as it has variables,
in ASCII without tabs and line breaks, with which the path is one that a URL can carry; or no path
field for an entry point without variables. -/
def PathIntact (e : EntryPoint) (p : Option Val) (t : Option Ty) : Prop :=
  ∃ ss, PathPart e p t ss ∧ Carried (instantiate e ss)

/-- The requests that arrive at an entry point, their types, and the arguments in their paths: structs of
the parts path, query and header, each of which may be absent and otherwise arrives; and these inside of
newtypes. -/
inductive RequestIntact (e : EntryPoint) : Val → Ty → List Str → Prop where
  | struct {p q h tp tq th ss} : PathPart e p tp ss → Carried (instantiate e ss) →
      (∀ v, q = some v → QueryIntact v) → (∀ v, h = some v → HeaderIntact v) →
      RequestIntact e (.struct (requestFields p q h)) (.struct (requestFields tp tq th)) ss
  | newtypeStruct {v t ss} : RequestIntact e v t ss →
      RequestIntact e (.newtypeStruct v) (.newtypeStruct t) ss

/-- The responses that arrive (inside of a newtype variant, or not) and their status: unit variants and
struct variants named after the status, whose headers arrive; structs with a status of an integer type,
whose headers arrive, but only outside of newtype variants; newtypes of these, also newtype variants
with the name of the status. -/
inductive ResponseIntact : Bool → Val → Nat → Prop where
  | unit {inside n c} : (n, c) ∈ statusTable → ResponseIntact inside (.unitVariant n) c
  | variant {inside n c h} : (n, c) ∈ statusTable → (∀ v, h = some v → HeaderIntact v) →
      ResponseIntact inside (.structVariant n (optField "header".toList h)) c
  | struct {t c h} : (∀ v, h = some v → HeaderIntact v) →
      ResponseIntact false
        (.struct (("status".toList, .int t (Int.ofNat c)) :: optField "header".toList h)) c
  | newtypeStruct {inside v c} : ResponseIntact inside v c →
      ResponseIntact inside (.newtypeStruct v) c
  | newtypeVariant {inside n v c} : (n, c) ∈ statusTable → ResponseIntact true v c →
      ResponseIntact inside (.newtypeVariant n v) c

end Htrpc.Spec
