/-
What is to be done with a request, given the segments of its path, its parameters and its headers,
independently of the parsers and deserializers.
-/
import Verif.Spec.Target
import Verif.Spec.Reads
import Verif.Spec.Server

namespace Htrpc.Spec

variable [FloatText] [UrlText]

/-- The decision table, by the rules for paths, queries and headers alone. -/
inductive Decided (cfg : ServerCfg) (h : ReqHead) (segs : List Str) (ps : List (Str × Str)) :
    Verdict → Prop where
  /-- There is no entry point for the path. -/
  | noPath : dispatch h.method segs (table cfg) = .error .notFound →
      Decided cfg h segs ps
        (.refuse (.aboutBlank { title := cfg.phrase .notFound, status := 404 }))
  /-- There is no handler for the method. -/
  | noMethod : dispatch h.method segs (table cfg) = .error .methodNotAllowed →
      Decided cfg h segs ps
        (.refuse (.aboutBlank { title := cfg.phrase .methodNotAllowed, status := 405 }))
  /-- The request is not of the declared type. -/
  | unreadable {s} : dispatch h.method segs (table cfg) = .ok s →
      (∀ v, ¬ ReadsRequest s.entry segs ps h.headers s.reqTy v) →
      Decided cfg h segs ps (.refuse (badRequest cfg h))
  /-- The handler is to be called. -/
  | call {s v} : dispatch h.method segs (table cfg) = .ok s →
      ReadsRequest s.entry segs ps h.headers s.reqTy v → Decided cfg h segs ps (.call s v)

/-- The text is one of those in a value. -/
inductive HasText (x : Str) : Val → Prop where
  | str : HasText x (.str x)
  | some {v} : HasText x v → HasText x (.some v)
  | newtype {v} : HasText x v → HasText x (.newtypeStruct v)
  | tuple {vs v} : v ∈ vs → HasText x v → HasText x (.tuple vs)
  | tupleStruct {vs v} : v ∈ vs → HasText x v → HasText x (.tupleStruct vs)
  | seq {vs v} : v ∈ vs → HasText x v → HasText x (.seq vs)

/-- The part of a request that is read from the path. -/
inductive FromPath : Val → Val → Prop where
  | struct {vs v} : ("path".toList, v) ∈ vs → FromPath (.struct vs) v
  | newtype {r v} : FromPath r v → FromPath (.newtypeStruct r) v

end Htrpc.Spec
