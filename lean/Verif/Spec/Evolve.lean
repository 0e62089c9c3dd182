/-
Two versions of a type of requests or responses: the newer one has further optional fields, and further
variants for other statuses.
-/
import Verif.Spec.Reads

namespace Htrpc.Spec

/-- The fields `new` are the fields `old`, in any order, and further optional fields. -/
def MoreFields (old new : List (Str × Ty)) : Prop :=
  (∀ f ∈ old, f ∈ new) ∧ ∀ f ∈ new, f ∈ old ∨ ¬ Declared old f.1 ∧ isOption f.2 = true

/-- How a part of a request (its path, query or header, by name) may change from one version to the
next: not at all, by further optional fields, or from absent to optional fields only. -/
inductive PartGrows (n : Str) : Option Ty → Ty → Prop where
  | same (t) : PartGrows n (some t) t
  | more {old new} : n = "query".toList ∨ n = "header".toList → MoreFields old new →
      PartGrows n (some (.struct old)) (.struct new)
  | added {new} : n = "query".toList ∨ n = "header".toList → MoreFields [] new →
      PartGrows n none (.struct new)

/-- How the fields of a request may change. -/
def RequestGrows (old new : List (Str × Ty)) : Prop :=
  (∀ f ∈ old, Declared new f.1) ∧ ∀ f ∈ new, PartGrows f.1 (old.lookup f.1) f.2

/-- The declared fields with the values that are there; `None` for the others. -/
def refit (ts : List (Str × Ty)) (vs : List (Str × Val)) : List (Str × Val) :=
  ts.map fun f => (f.1, (vs.lookup f.1).getD .none)

/-- The same for a part of a request. -/
def refitPart : Ty → Option Val → Val
  | .struct ts, some (.struct vs) => .struct (refit ts vs)
  | .struct ts, none => .struct (refit ts [])
  | _, some v => v
  | _, none => .none

/-- The same for a request. -/
def refitRequest (ts : List (Str × Ty)) (vs : List (Str × Val)) : List (Str × Val) :=
  ts.map fun f => (f.1, refitPart f.2 (vs.lookup f.1))

/-- The fields of the part `n` of a request. -/
def fieldsOf (ts : List (Str × Ty)) (n : Str) : List (Str × Ty) :=
  match ts.lookup n with
  | some (.struct fs) => fs
  | _ => []

/-- How the fields of a response may change: like those of a request, but there is no query. -/
def ResponseFieldsGrow (old new : List (Str × Ty)) : Prop :=
  RequestGrows old new ∧ ¬ Declared new "query".toList

/-- How the variant for a status may change. -/
inductive VariantGrows : VTy → VTy → Prop where
  | same (v) : VariantGrows v v
  | struct {old new} : ResponseFieldsGrow old new → VariantGrows (.struct old) (.struct new)

/-- How a type of responses may change: a struct may get further fields, an enum further variants. -/
inductive ResponseGrows : Ty → Ty → Prop where
  | struct {old new} : ResponseFieldsGrow old new → ResponseGrows (.struct old) (.struct new)
  | enum {old new} :
      (∀ n v, old.lookup n = some v → ∃ v', new.lookup n = some v' ∧ VariantGrows v v') →
      ResponseGrows (.enum old) (.enum new)

/-- The value with the fields of the given type. -/
def refitResponse : Ty → Val → Val
  | .struct ts, .struct vs => .struct (refitRequest ts vs)
  | .enum ts, .structVariant n vs =>
    match ts.lookup n with
    | some (.struct fs) => .structVariant n (refitRequest fs vs)
    | _ => .structVariant n vs
  | _, v => v

/-- For a response with this status code the type asks for a header with the name `n`. -/
inductive AsksFor (code : Nat) : Ty → Str → Prop where
  | struct {fs n} : Declared (fieldsOf fs "header".toList) n → AsksFor code (.struct fs) n
  | variant {vs v fs n} : (v, code) ∈ statusTable → vs.lookup v = some (.struct fs) →
      Declared (fieldsOf fs "header".toList) n → AsksFor code (.enum vs) n

end Htrpc.Spec
