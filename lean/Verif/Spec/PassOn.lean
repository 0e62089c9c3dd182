/-
Requests of simple types, and which of them can be passed on to another server.
-/
import Verif.Spec.Exact
import Verif.Spec.Widen

namespace Htrpc.Spec

/-- `true` somewhere in a request or a response. -/
inductive HasTrue : Val → Prop where
  | true : HasTrue (.bool true)
  | tuple {w vs} : w ∈ vs → HasTrue w → HasTrue (.tuple vs)
  | tupleStruct {w vs} : w ∈ vs → HasTrue w → HasTrue (.tupleStruct vs)
  | struct {n w fs} : (n, w) ∈ fs → HasTrue w → HasTrue (.struct fs)
  | structVariant {n m w fs} : (m, w) ∈ fs → HasTrue w → HasTrue (.structVariant n fs)
  | some {v} : HasTrue v → HasTrue (.some v)
  | newtypeStruct {v} : HasTrue v → HasTrue (.newtypeStruct v)

/-- The types of single values: booleans, numbers, strings and newtypes of these. -/
inductive SimpleTy : Ty → Prop where
  | scalar {t} : isScalar t = true → SimpleTy t
  | str : SimpleTy .str
  | newtype {t} : SimpleTy t → SimpleTy (.newtypeStruct t)

/-- The types of fields: those of single values, and options of them. -/
inductive SimpleField : Ty → Prop where
  | single {t} : SimpleTy t → SimpleField t
  | option {t} : SimpleTy t → SimpleField (.option t)

/-- Types of requests to an entry point: a struct of a tuple of single values as path, as many as there
are variables, and structs of fields as query and header, whose names are in lower case. There need not
be a query or a header, and no path if there are neither variables nor a query. -/
inductive SimpleRequest (e : EntryPoint) : Ty → Prop where
  | struct {tp tq th} :
      (∀ t, tp = some t → ∃ ts, TupleTy t ts ∧ ts.length = e.countP (· = Seg.var) ∧
        ∀ u ∈ ts, SimpleTy u) →
      (tp = none → Seg.var ∉ e ∧ tq = none) →
      (∀ t, tq = some t → ∃ ts, t = .struct ts ∧ DistinctNames ts ∧ ∀ f ∈ ts, SimpleField f.2) →
      (∀ t, th = some t → ∃ ts, t = .struct ts ∧ DistinctNames ts ∧
        (∀ f ∈ ts, SimpleField f.2 ∧ LowerName f.1) ∧ ¬ Declared ts "content-length".toList) →
      SimpleRequest e (.struct (requestFields tp tq th))

variable [FloatText]

/-- The texts of the arguments in the path of a request. -/
inductive ArgTexts : Val → List Str → Prop where
  | none {fs} : fs.lookup "path".toList = none → ArgTexts (.struct fs) []
  | args {fs p vs ss} : fs.lookup "path".toList = some p → ArgTuple p vs → SentAll vs ss →
      ArgTexts (.struct fs) ss

/-- The arguments of a request are in ASCII without tabs and line breaks, and a URL can carry the path
that they make up. -/
def PathPasses (e : EntryPoint) (v : Val) : Prop :=
  ∃ ss, ArgTexts v ss ∧ (∀ s ∈ ss, Ascii s ∧ NoTabNl s) ∧ Carried (instantiate e ss)

end Htrpc.Spec
