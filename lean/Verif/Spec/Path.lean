/-
What is expected of URL paths, independently of the serializer and the deserializer.
-/
import Verif.Model.Serde
import Verif.Model.Entry

namespace Htrpc.Spec

/-- The text without tabs and line breaks, which URL parsers remove. -/
def strip (s : Str) : Str := s.filter fun c => !(c == '\t' || c == '\n' || c == '\r')

/-- The Latin-1 reading of bytes. -/
def latin1 (bs : Bytes) : Str := bs.map fun b => Char.ofNat b.toNat

/-- ASCII text. -/
def Ascii (s : Str) : Prop := ∀ c ∈ s, c.toNat < 0x80

/-- Text without tabs and line breaks. -/
def NoTabNl (s : Str) : Prop := '\t' ∉ s ∧ '\n' ∉ s ∧ '\r' ∉ s

/-- The segments `.` and `..`, which URLs do not have. -/
def Dots (s : Str) : Prop := strip s = ['.'] ∨ strip s = ['.', '.']

instance (s : Str) : Decidable (Dots s) := by unfold Dots; infer_instance

/-- Lists of segments that a URL path can carry: at least one, none of them a dot segment, and the
first one not empty unless it is the only one. -/
def Carried (L : List Str) : Prop :=
  L ≠ [] ∧ (∀ s ∈ L, ¬ Dots s) ∧ (L.length = 1 ∨ ∃ s ∈ L.head?, strip s ≠ [])

/-- A character that stands for itself in a URL path (`pchar` of RFC 3986). -/
def PathChar (c : Char) : Prop := c.isAlphanum = true ∨ c ∈ "-._~!$&'()*+,;=:@".toList

/-- The entry point with its variables replaced by the arguments, in order. -/
def instantiate : EntryPoint → List Str → List Str
  | [], _ => []
  | .val s :: e, args => s :: instantiate e args
  | .var :: e, a :: args => a :: instantiate e args
  | .var :: e, [] => [] :: instantiate e []

variable [FloatText]

/-- Arguments that have a text and a type that reads it back.  (`true` is missing: see C59.) -/
inductive PlainArg : Val → Str → Prop where
  | false : PlainArg (.bool false) "false".toList
  | int (t i) : PlainArg (.int t i) (showInt i)
  | f32 (x) : isNaN32 x = false → PlainArg (.f32 x) (FloatText.show64 (FloatText.widen x))
  | f64 (x) : isNaN64 x = false → PlainArg (.f64 x) (FloatText.show64 x)
  | str (s) : PlainArg (.str s) s
  | newtype {v s} : PlainArg v s → PlainArg (.newtypeStruct v) s

/-- The texts of a list of arguments. -/
inductive PlainArgs : List Val → List Str → Prop where
  | nil : PlainArgs [] []
  | cons {v s vs ss} : PlainArg v s → PlainArgs vs ss → PlainArgs (v :: vs) (s :: ss)

/-- The text with which an argument is sent (sic: `ture`, see C59). -/
inductive SentAs : Val → Str → Prop where
  | bool (b) : SentAs (.bool b) (if b then "ture".toList else "false".toList)
  | int (t i) : SentAs (.int t i) (showInt i)
  | f32 (x) : SentAs (.f32 x) (FloatText.show64 (FloatText.widen x))
  | f64 (x) : SentAs (.f64 x) (FloatText.show64 x)
  | char (c) : SentAs (.char c) [c]
  | str (s) : SentAs (.str s) s
  | unitVariant (n) : SentAs (.unitVariant n) n
  | newtypeStruct {v s} : SentAs v s → SentAs (.newtypeStruct v) s
  | newtypeVariant {n v s} : SentAs v s → SentAs (.newtypeVariant n v) s

/-- The texts of a list of arguments. -/
inductive SentAll : List Val → List Str → Prop where
  | nil : SentAll [] []
  | cons {v s vs ss} : SentAs v s → SentAll vs ss → SentAll (v :: vs) (s :: ss)

/-- Values with a single text: the arguments a client may put into a path. -/
inductive Scalar : Val → Prop where
  | bool (b) : Scalar (.bool b)
  | int (t i) : Scalar (.int t i)
  | f32 (x) : Scalar (.f32 x)
  | f64 (x) : Scalar (.f64 x)
  | char (c) : Scalar (.char c)
  | str (s) : Scalar (.str s)
  | unitVariant (n) : Scalar (.unitVariant n)
  | newtypeStruct {v} : Scalar v → Scalar (.newtypeStruct v)
  | newtypeVariant {n v} : Scalar v → Scalar (.newtypeVariant n v)

/-- Values that are a tuple of arguments: tuples, tuple structs, newtypes of these. -/
inductive ArgTuple : Val → List Val → Prop where
  | tuple (vs) : ArgTuple (.tuple vs) vs
  | tupleStruct (vs) : ArgTuple (.tupleStruct vs) vs
  | newtype {v vs} : ArgTuple v vs → ArgTuple (.newtypeStruct v) vs

/-- The arguments of a path value: the elements of a tuple, also as (tuple) struct or as variant of an
enum; a unit has none. -/
inductive PathArgs : Val → List Val → Prop where
  | unit : PathArgs .unit []
  | unitStruct (n) : PathArgs (.unitStruct n) []
  | tuple (vs) : PathArgs (.tuple vs) vs
  | tupleStruct (vs) : PathArgs (.tupleStruct vs) vs
  | tupleVariant (n vs) : PathArgs (.tupleVariant n vs) vs
  | newtypeStruct {v vs} : PathArgs v vs → PathArgs (.newtypeStruct v) vs
  | newtypeVariant {n v vs} : PathArgs v vs → PathArgs (.newtypeVariant n v) vs

/-- The constants of the entry point consist of characters that stand for themselves. -/
def PlainConsts (e : EntryPoint) : Prop := ∀ c, Seg.val c ∈ e → ∀ ch ∈ c, PathChar ch

end Htrpc.Spec
