/-
What it means to read a struct or a map from a list of named texts, independently of the
deserializers.
-/
import Verif.Spec.Path

namespace Htrpc.Spec

/-- An optional field. -/
def isOption : Ty → Bool
  | .option _ => true
  | _ => false

variable {β : Type}

/-- The value of the field `n` of type `t`: there is exactly one entry with that name and it is
read as `t`; or there is none and the field is optional. -/
def fieldValue (read : Ty → β → Option Val) (entries : List (Str × β)) (n : Str) (t : Ty) :
    Option Val :=
  match entries.filter (fun e => decide (e.1 = n)) with
  | [] => if isOption t then some .none else none
  | [e] => read t e.2
  | _ => none

/-- All fields have a value. -/
def collectFields (value : Str → Ty → Option Val) : List (Str × Ty) → Option (List (Str × Val))
  | [] => some []
  | (n, t) :: fs =>
    match value n t, collectFields value fs with
    | some v, some vs => some ((n, v) :: vs)
    | _, _ => none

/-- The struct with the fields `fs`, read from the entries. -/
def readStruct (read : Ty → β → Option Val) (fs : List (Str × Ty)) (entries : List (Str × β)) :
    Option Val :=
  (collectFields (fieldValue read entries) fs).map .struct

/-- Field names of a Rust struct are distinct. -/
def DistinctNames {α : Type} (fs : List (Str × α)) : Prop := (fs.map Prod.fst).Nodup

/-- A map has no key twice. -/
def DistinctKeys (kvs : List (Val × Val)) : Prop := (kvs.map Prod.fst).Nodup

/-- `n` is declared. -/
def Declared {α : Type} (fs : List (Str × α)) (n : Str) : Prop := n ∈ fs.map Prod.fst

instance {α : Type} (fs : List (Str × α)) (n : Str) : Decidable (Declared fs n) := by
  unfold Declared; infer_instance

/-- The entries whose name is not declared do not have a declared name as value either, except
perhaps the last entry. -/
def Tame {α : Type} (fs : List (Str × α)) (es : List (Str × Str)) : Prop :=
  ∀ e ∈ es.dropLast, Declared fs e.1 ∨ ¬ Declared fs e.2

instance {α : Type} (fs : List (Str × α)) (es : List (Str × Str)) : Decidable (Tame fs es) := by
  unfold Tame; infer_instance

/-- How the parameters of a query are really read: the texts of names and values form one row. A
declared name takes the next text as its value; a text that is no declared name is dropped alone, so
that the text behind it stands in the place of a name. The last text is never a name. -/
def effective {α : Type} (fs : List (Str × α)) : List Str → List (Str × Str)
  | k :: x :: rest =>
    if Declared fs k then (k, x) :: effective fs rest else effective fs (x :: rest)
  | _ => []
termination_by l => l.length

/-- The row of names and values. -/
def row (es : List (Str × Str)) : List Str := es.flatMap fun e => [e.1, e.2]

variable [FloatText]

/-- The value of a query parameter with the text `s`, as a `t`. -/
def readText : Ty → Str → Option Val
  | .bool, s => (parseBool s).map .bool
  | .int t, s => (parseInt t s).map (.int t)
  | .f32, s => (FloatText.parse32 s).map .f32
  | .f64, s => (FloatText.parse64 s).map .f64
  | .str, s => some (.str s)
  | .bytes, s => some (.bytes (utf8 s))
  | .option t, s => (readText t s).map .some
  | .unit, s => if s = [] then some .unit else none
  | .unitStruct n, s => if s = [] then some (.unitStruct n) else none
  | .newtypeStruct t, s => (readText t s).map .newtypeStruct
  | _, _ => none

/-- Values with a text that is read back as the same value: those of `PlainArg` and options. -/
inductive PlainOpt : Val → Str → Prop where
  | plain {v s} : PlainArg v s → PlainOpt v s
  | some {v s} : PlainOpt v s → PlainOpt (.some v) s
  | newtype {v s} : PlainOpt v s → PlainOpt (.newtypeStruct v) s

/-- The text with which a field is sent. -/
inductive SentOpt : Val → Str → Prop where
  | sent {v s} : SentAs v s → SentOpt v s
  | some {v s} : SentOpt v s → SentOpt (.some v) s
  | newtypeStruct {v s} : SentOpt v s → SentOpt (.newtypeStruct v) s
  | newtypeVariant {n v s} : SentOpt v s → SentOpt (.newtypeVariant n v) s

/-- Fields that are not sent at all: `None`, also inside of newtypes and `Some`. -/
inductive Omitted : Val → Prop where
  | none : Omitted .none
  | some {v} : Omitted v → Omitted (.some v)
  | newtypeStruct {v} : Omitted v → Omitted (.newtypeStruct v)
  | newtypeVariant {n v} : Omitted v → Omitted (.newtypeVariant n v)

/-- Fields of a struct and the named entries they become, in order; some fields become none. -/
inductive FieldEntries (present : Val → β → Prop) (absent : Val → Prop) :
    List (Str × Val) → List (Str × β) → Prop where
  | nil : FieldEntries present absent [] []
  | absent {n v fs es} : absent v → FieldEntries present absent fs es →
      FieldEntries present absent ((n, v) :: fs) es
  | present {n v x fs es} : present v x → FieldEntries present absent fs es →
      FieldEntries present absent ((n, v) :: fs) ((n, x) :: es)

/-- Fields of a struct and the parameters with which they are sent. -/
abbrev SentFields := FieldEntries SentOpt Omitted

/-- Fields of a struct and the parameters they become, from which they can be read back: `None`
becomes nothing. -/
abbrev FieldTexts := FieldEntries PlainOpt (· = Val.none)

/-- Entries of a map and the named entries they become, in order; entries with an omitted value
become none. -/
inductive MapEntries (sent : Val → β → Prop) : List (Val × Val) → List (β × β) → Prop where
  | nil : MapEntries sent [] []
  | absent {k v a kvs es} : sent k a → Omitted v → MapEntries sent kvs es →
      MapEntries sent ((k, v) :: kvs) es
  | present {k v a b kvs es} : sent k a → sent v b → MapEntries sent kvs es →
      MapEntries sent ((k, v) :: kvs) ((a, b) :: es)

/-- The named entries that a value becomes: those of a struct or map of single values, also inside of
enums, newtypes and `Some`. A single value becomes nothing. -/
inductive Written (sent : Val → β → Prop) (name : Str → β) : Val → List (β × β) → Prop where
  | single {v x} : sent v x → Written sent name v []
  | struct {fs es} : FieldEntries sent Omitted fs es →
      Written sent name (.struct fs) (es.map fun e => (name e.1, e.2))
  | structVariant {n fs es} : FieldEntries sent Omitted fs es →
      Written sent name (.structVariant n fs) (es.map fun e => (name e.1, e.2))
  | map {kvs es} : MapEntries sent kvs es → Written sent name (.map kvs) es
  | some {v es} : Written sent name v es → Written sent name (.some v) es
  | newtypeStruct {v es} : Written sent name v es → Written sent name (.newtypeStruct v) es
  | newtypeVariant {n v es} : Written sent name v es → Written sent name (.newtypeVariant n v) es

/-- `true`, also inside of newtypes and `Some`. -/
inductive TrueField : Val → Prop where
  | true : TrueField (.bool true)
  | some {v} : TrueField v → TrueField (.some v)
  | newtype {v} : TrueField v → TrueField (.newtypeStruct v)

/-- NaN, also inside of newtypes and `Some`. -/
inductive NaNField : Val → Prop where
  | f32 {x} : isNaN32 x = true → NaNField (.f32 x)
  | f64 {x} : isNaN64 x = true → NaNField (.f64 x)
  | some {v} : NaNField v → NaNField (.some v)
  | newtypeStruct {v} : NaNField v → NaNField (.newtypeStruct v)

/-- Entries of a map and the parameters they become. -/
inductive MapTexts : List (Val × Val) → List (Str × Str) → Prop where
  | nil : MapTexts [] []
  | cons {k v a b kvs ps} : PlainOpt k a → PlainOpt v b → MapTexts kvs ps →
      MapTexts ((k, v) :: kvs) ((a, b) :: ps)

end Htrpc.Spec
