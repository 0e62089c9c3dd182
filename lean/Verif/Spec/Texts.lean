/-
Which texts have a value of a type, and which one, as relations: in paths, queries and headers.
-/
import Verif.Spec.Decode
import Verif.Spec.Header

namespace Htrpc.Spec
variable [FloatText]

/-- The texts of booleans and numbers. -/
inductive ScalarText : Ty → Str → Val → Prop where
  | true : ScalarText .bool "true".toList (.bool true)
  | false : ScalarText .bool "false".toList (.bool false)
  | int {t s i} : Denotes s i → InRange t i → (s.head? = some '-' → isSigned t) →
      ScalarText (.int t) s (.int t i)
  | f32 {s b} : FloatText.parse32 s = some b → ScalarText .f32 s (.f32 b)
  | f64 {s b} : FloatText.parse64 s = some b → ScalarText .f64 s (.f64 b)

/-- The texts of arguments of a path. -/
inductive ArgText : Ty → Str → Val → Prop where
  | scalar {t s v} : ScalarText t s v → ArgText t s v
  | str (s) : ArgText .str s (.str s)
  | newtype {t s v} : ArgText t s v → ArgText (.newtypeStruct t) s (.newtypeStruct v)

/-- The texts of the parameters of a query. -/
inductive ParamText : Ty → Str → Val → Prop where
  | scalar {t s v} : ScalarText t s v → ParamText t s v
  | str (s) : ParamText .str s (.str s)
  | bytes (s) : ParamText .bytes s (.bytes (utf8 s))
  | some {t s v} : ParamText t s v → ParamText (.option t) s (.some v)
  | unit : ParamText .unit [] .unit
  | unitStruct (n) : ParamText (.unitStruct n) [] (.unitStruct n)
  | newtype {t s v} : ParamText t s v → ParamText (.newtypeStruct t) s (.newtypeStruct v)

/-- The values of headers. -/
inductive ValueText : Ty → Bytes → Val → Prop where
  | scalar {t s v} : ScalarText t s v → ValueText t (utf8 s) v
  | str (s) : ValueText .str (utf8 s) (.str s)
  | bytes (b) : ValueText .bytes b (.bytes b)
  | some {t b v} : ValueText t b v → ValueText (.option t) b (.some v)
  | unitStruct (n) : ValueText (.unitStruct n) (utf8 n) (.unitStruct n)
  | newtype {t b v} : ValueText t b v → ValueText (.newtypeStruct t) b (.newtypeStruct v)

/-- The texts of segments: `%` and two hexadecimal digits stand for the character with this code
(`%+` and one digit likewise). -/
inductive Segment : Str → Str → Prop where
  | nil : Segment [] []
  | plain {c s t} : c ≠ '%' → Segment s t → Segment (c :: s) (c :: t)
  | escape {a b n s t} : codeOf a b = some n → Segment s t →
      Segment ('%' :: a :: b :: s) (Char.ofNat n :: t)

/-- Arguments and the segments they are read from; further segments are ignored. -/
inductive SegmentTexts : List Ty → List Str → List Val → Prop where
  | nil {segs} : SegmentTexts [] segs []
  | cons {t ts seg s segs v vs} : Segment seg s → ArgText t s v → SegmentTexts ts segs vs →
      SegmentTexts (t :: ts) (seg :: segs) (v :: vs)

/-- The fields of a struct, each from the only entry of its name; optional fields without an entry are
`None`. -/
inductive FieldsFrom {β : Type} (means : Ty → β → Val → Prop) (entries : List (Str × β)) :
    List (Str × Ty) → List (Str × Val) → Prop where
  | nil : FieldsFrom means entries [] []
  | present {n t a x b v ts vs} : entries = a ++ (n, x) :: b → (∀ e ∈ a, e.1 ≠ n) →
      (∀ e ∈ b, e.1 ≠ n) → means t x v → FieldsFrom means entries ts vs →
      FieldsFrom means entries ((n, t) :: ts) ((n, v) :: vs)
  | absent {n t ts vs} : (∀ e ∈ entries, e.1 ≠ n) → FieldsFrom means entries ts vs →
      FieldsFrom means entries ((n, .option t) :: ts) ((n, .none) :: vs)

end Htrpc.Spec
