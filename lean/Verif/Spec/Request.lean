/-
What is expected of requests, independently of the request serializer.
-/
import Verif.Spec.Struct
import Verif.Spec.Header
import Verif.Model.ReqSer

namespace Htrpc.Spec

/-- A field that may be missing from a struct. -/
def optField {α : Type} (n : Str) : Option α → List (Str × α)
  | none => []
  | some v => [(n, v)]

/-- The fields path, query and header in this order, each of which may be missing. -/
def requestFields {α : Type} (p q h : Option α) : List (Str × α) :=
  optField "path".toList p ++ optField "query".toList q ++ optField "header".toList h

variable [FloatText]

/-- The text of the path: made from the path field; without such a field the constants of the entry
point, which must not have variables. -/
def requestPath (e : EntryPoint) : Option Val → Res Str
  | some v => serPath e ['/'] v
  | none => if Seg.var ∈ e then .panic else .ok ((instantiate e []).foldl pushSegment ['/'])

/-- The query text: made from the query field. -/
def requestQuery : Option Val → Res (Option Str)
  | some v => do .ok (some (← serQuery v))
  | none => .ok none

/-- The headers of the header field. -/
def requestHeaders : Option Val → Res (List Header)
  | some v => serHeaders [] v
  | none => .ok []

/-- The request for the given parts. -/
def requestOf (m : Method) (e : EntryPoint) (p q h : Option Val) (body : Bytes) : Res Request := do
  let path ← requestPath e p
  let query ← requestQuery q
  let headers ← requestHeaders h
  .ok {
    method := m
    target := match query with
      | none => path
      | some q => path ++ '?' :: q
    headers := headers ++ [(utf8 "Content-Length".toList, utf8 (showNat body.length))]
    body := body }

/-- The requests on which the client panics. -/
inductive ClientPanics (e : EntryPoint) : Val → Prop where
  /-- No field at all, though the entry point has variables. -/
  | empty : Seg.var ∈ e → ClientPanics e (.struct [])
  /-- The header comes first, though the entry point has variables. -/
  | header (v fs) : Seg.var ∈ e → ClientPanics e (.struct (("header".toList, v) :: fs))
  /-- A struct variant without fields, though the entry point has variables. -/
  | emptyVariant (n) : Seg.var ∈ e → ClientPanics e (.structVariant n [])
  /-- A struct variant with a header, for every entry point. -/
  | headerVariant (n v fs) : ClientPanics e (.structVariant n (("header".toList, v) :: fs))
  | newtypeStruct {v} : ClientPanics e v → ClientPanics e (.newtypeStruct v)
  | newtypeVariant (n) {v} : ClientPanics e v → ClientPanics e (.newtypeVariant n v)

/-- The path part of a request in the supported class, its type and the texts of the arguments: a
tuple of plain arguments, as many as the entry point has variables, ASCII without tabs and line
breaks; or no path part for an entry point without variables. -/
inductive PathPart (e : EntryPoint) : Option Val → Option Ty → List Str → Prop where
  | absent : Seg.var ∉ e → PathPart e none none []
  | args {v vs t ss} : ArgTuple v vs → HasTy v t → PlainArgs vs ss →
      vs.length = e.countP (· = Seg.var) → (∀ s ∈ ss, Ascii s) → (∀ s ∈ ss, NoTabNl s) →
      PathPart e (some v) (some t) ss

/-- The query part of a request in the supported class and its type: a struct or a map. -/
inductive QueryPart : Option Val → Option Ty → Prop where
  | absent : QueryPart none none
  | struct {fs ts ps} : FieldTexts fs ps → HasTyFields fs ts → DistinctNames ts →
      QueryPart (some (.struct fs)) (some (.struct ts))
  | map {kvs k v ps} : MapTexts kvs ps → HasTyMap kvs k v → DistinctKeys kvs →
      QueryPart (some (.map kvs)) (some (.map k v))

/-- The header part of a request or response in the supported class and its type: a struct with
lower case names other than `content-length`. -/
inductive HeaderPart : Option Val → Option Ty → Prop where
  | absent : HeaderPart none none
  | struct {fs ts es} : HeaderFields fs es → HasTyFields fs ts → DistinctNames ts →
      (∀ f ∈ ts, LowerName f.1) → ¬ Declared ts "content-length".toList →
      HeaderPart (some (.struct fs)) (some (.struct ts))

/-- Headers which a type does not ask for. -/
def Foreign (t : Option Ty) (hs : List Header) : Prop :=
  ∀ ts, t = some (.struct ts) → ∀ h ∈ hs, ¬ Declared ts (nameText h.1)

end Htrpc.Spec
