/-
What the server reads from a path that matches an entry point, independently of the deserializer.
-/
import Verif.Spec.Routing
import Verif.Spec.Struct

namespace Htrpc.Spec

/-- The segments of a path at the variables of an entry point. -/
def variables : EntryPoint → List Str → List Str
  | .var :: e, s :: segs => s :: variables e segs
  | .val _ :: e, _ :: segs => variables e segs
  | _, _ => []

/-- The value of a hexadecimal digit: its position among the digits. -/
def digitOf (c : Char) : Option Nat :=
  match "0123456789abcdef".toList.idxOf? c with
  | some n => some n
  | none => "0123456789ABCDEF".toList.idxOf? c

/-- The code written after a percent sign: two hexadecimal digits, or `+` and one. -/
def codeOf (a b : Char) : Option Nat :=
  if a = '+' then digitOf b
  else do
    let m ← digitOf a
    let n ← digitOf b
    some (16 * m + n)

/-- The text of a segment: escapes stand for the character with their code, all other characters for
themselves.  There is no text if something else follows a percent sign. -/
def unescape : Str → Option Str
  | [] => some []
  | [c] => if c = '%' then none else some [c]
  | [c, d] => if c = '%' ∨ d = '%' then none else some [c, d]
  | c :: a :: b :: s =>
    if c = '%' then do
      let n ← codeOf a b
      let t ← unescape s
      some (Char.ofNat n :: t)
    else do
      let t ← unescape (a :: b :: s)
      some (c :: t)

variable [FloatText]

/-- The value of an argument with this (unescaped) text. -/
def readArg : Ty → Str → Option Val
  | .bool, s => (parseBool s).map .bool
  | .int t, s => (parseInt t s).map (.int t)
  | .f32, s => (FloatText.parse32 s).map .f32
  | .f64, s => (FloatText.parse64 s).map .f64
  | .str, s => some (.str s)
  | .newtypeStruct t, s => (readArg t s).map .newtypeStruct
  | _, _ => none

/-- The value of a path segment: escapes are resolved, then the text is read. -/
def readSegment (t : Ty) (seg : Str) : Option Val := (unescape seg).bind (readArg t)

/-- The values of several segments. -/
def readSegments : List Ty → List Str → Option (List Val)
  | [], [] => some []
  | t :: ts, s :: segs =>
    match readSegment t s, readSegments ts segs with
    | some v, some vs => some (v :: vs)
    | _, _ => none
  | _, _ => none

/-- The values of all segments, with one type. -/
def readEach (t : Ty) : List Str → Option (List Val)
  | [] => some []
  | s :: segs =>
    match readSegment t s, readEach t segs with
    | some v, some vs => some (v :: vs)
    | _, _ => none

/-- The value of a whole path, given the segments at the variables: tuples read as many segments as
they have elements, the others are ignored; sequences read all; single values the first. -/
def readPath : Ty → List Str → Option Val
  | .tuple ts, segs => (readSegments ts (segs.take ts.length)).map .tuple
  | .tupleStruct ts, segs => (readSegments ts (segs.take ts.length)).map .tupleStruct
  | .seq t, segs => (readEach t segs).map .seq
  | .newtypeStruct t, segs => (readPath t segs).map .newtypeStruct
  | t, segs => segs.head?.bind (readSegment t)

/-- Values for which a receiver never accepts what is sent: `true`, characters and enums (without
`None` inside), also inside of `Some` and newtypes. -/
inductive Lost : Val → Prop where
  | true : Lost (.bool true)
  | char (c) : Lost (.char c)
  | unitVariant (n) : Lost (.unitVariant n)
  | newtypeVariant {n v} : ¬ Omitted v → Lost (.newtypeVariant n v)
  | some {v} : Lost v → Lost (.some v)
  | newtype {v} : Lost v → Lost (.newtypeStruct v)

/-- The number denoted by decimal digits. -/
def digitsValue (ds : Str) : Nat := ds.foldl (fun n c => 10 * n + (c.toNat - '0'.toNat)) 0

/-- The text consists of decimal digits. -/
def Digits (ds : Str) : Prop := ds ≠ [] ∧ ∀ c ∈ ds, '0'.toNat ≤ c.toNat ∧ c.toNat ≤ '9'.toNat

/-- The text is a decimal number with an optional sign, denoting `i`. -/
inductive Denotes : Str → Int → Prop where
  | plain {ds} : Digits ds → Denotes ds (digitsValue ds)
  | plus {ds} : Digits ds → Denotes ('+' :: ds) (digitsValue ds)
  | minus {ds} : Digits ds → Denotes ('-' :: ds) (-(digitsValue ds : Int))

/-- The width of an integer type. -/
def bits : IntTy → Nat
  | .i8 | .u8 => 8
  | .i16 | .u16 => 16
  | .i32 | .u32 => 32
  | .i64 | .u64 => 64

/-- The integer types with negative values. -/
def isSigned (t : IntTy) : Prop := t = .i8 ∨ t = .i16 ∨ t = .i32 ∨ t = .i64

instance (t : IntTy) : Decidable (isSigned t) := by unfold isSigned; infer_instance

/-- `i` is a number of the type `t`: of the two's complement numbers with that many bits, or of the
binary numbers. -/
def InRange (t : IntTy) (i : Int) : Prop :=
  if isSigned t then -(2 ^ (bits t - 1)) ≤ i ∧ i < 2 ^ (bits t - 1) else 0 ≤ i ∧ i < 2 ^ bits t

instance (t : IntTy) (i : Int) : Decidable (InRange t i) := by unfold InRange; infer_instance

end Htrpc.Spec
