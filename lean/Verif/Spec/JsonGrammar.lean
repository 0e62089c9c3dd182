/-
The grammar of JSON texts (RFC 8259), and what they mean.
-/
import Verif.Model.Json
import Verif.Model.Text
import Verif.Model.Embed
import Verif.Spec.Decode

namespace Htrpc.Spec

/-- White space. -/
def Blank (w : Str) : Prop := ∀ c ∈ w, c ∈ [' ', '\t', '\n', '\r']

/-- Hexadecimal digits. -/
def IsHex (c : Char) (n : Nat) : Prop :=
  "0123456789abcdef".toList[n]? = some c ∨ "0123456789ABCDEF".toList[n]? = some c

/-- Four of them. -/
inductive IsHex4 : Str → Nat → Prop where
  | mk {a b c d k l m n} : IsHex a k → IsHex b l → IsHex c m → IsHex d n →
      IsHex4 [a, b, c, d] (16 * (16 * (16 * k + l) + m) + n)

/-- What may stand for a character in a string: itself, unless it is a control character, a quote or a
backslash; a backslash and a letter; its code; its two codes in UTF-16. -/
inductive CharText : Str → Char → Prop where
  | plain {c : Char} : 32 ≤ c.toNat → c ≠ '"' → c ≠ '\\' → CharText [c] c
  | short {e : Char} {n : Nat} : (e, n) ∈ [('"', 34), ('\\', 92), ('/', 47), ('b', 8), ('f', 12), ('n', 10), ('r', 13),
      ('t', 9)] → CharText ['\\', e] (Char.ofNat n)
  | code {s : Str} {c : Char} : IsHex4 s c.toNat → CharText ('\\' :: 'u' :: s) c
  | pair {s t : Str} {h l : Nat} {c : Char} : IsHex4 s (0xD800 + h) → h < 0x400 → IsHex4 t (0xDC00 + l) → l < 0x400 →
      c.toNat = 0x10000 + (0x400 * h + l) → CharText ('\\' :: 'u' :: s ++ '\\' :: 'u' :: t) c

/-- A string between its quotes. -/
inductive StringText : Str → Str → Prop where
  | nil : StringText [] []
  | cons {s c t cs} : CharText s c → StringText t cs → StringText (s ++ t) (c :: cs)

/-- The integer at the beginning of a number: no superfluous zeros. -/
def IntText (s : Str) : Prop := Digits s ∧ (s.head? = some '0' → s = ['0'])

/-- A fraction. -/
inductive FracText : Str → Prop where
  | none : FracText []
  | some {ds} : Digits ds → FracText ('.' :: ds)

/-- An exponent. -/
inductive ExpText : Str → Prop where
  | none : ExpText []
  | some {e sign ds} : e ∈ ['e', 'E'] → sign ∈ [[], ['+'], ['-']] → Digits ds → ExpText (e :: (sign ++ ds))

/-- The text of an integer of 64 bits.  (`-0` is the text of a float.) -/
inductive SmallInt : Str → Int → Prop where
  | nonneg {s} : IntText s → digitsValue s < 2 ^ 64 → SmallInt s (digitsValue s)
  | neg {s} : IntText s → 0 < digitsValue s → digitsValue s ≤ 2 ^ 63 → SmallInt ('-' :: s) (-(digitsValue s : Int))

variable [FloatText]

mutual
/-- The text of a document. -/
inductive JsonMeans : Str → Json → Prop where
  | null : JsonMeans "null".toList .null
  | true : JsonMeans "true".toList (.bool true)
  | false : JsonMeans "false".toList (.bool false)
  | int {s i} : SmallInt s i → JsonMeans s (.num i)
  | float {sign s f e x} : sign ∈ [[], ['-']] → IntText s → FracText f → ExpText e →
      (∀ i, ¬ SmallInt (sign ++ s ++ f ++ e) i) →
      FloatText.parse64 (sign ++ s ++ f ++ e) = some x → JsonMeans (sign ++ s ++ f ++ e) (.float x)
  | str {t s} : StringText t s → JsonMeans ('"' :: (t ++ ['"'])) (.str s)
  | noElements {w} : Blank w → JsonMeans ('[' :: (w ++ [']'])) (.arr [])
  | arr {t xs} : ElementsMean t xs → JsonMeans ('[' :: (t ++ [']'])) (.arr xs)
  | noMembers {w} : Blank w → JsonMeans ('{' :: (w ++ ['}'])) (.obj [])
  | obj {t ms} : MembersMean t ms → JsonMeans ('{' :: (t ++ ['}'])) (.obj ms)
/-- The text between the brackets of an array: values between commas, with white space around them. -/
inductive ElementsMean : Str → List Json → Prop where
  | one {w t w' x} : Blank w → JsonMeans t x → Blank w' → ElementsMean (w ++ (t ++ w')) [x]
  | more {w t w' u x xs} : Blank w → JsonMeans t x → Blank w' → ElementsMean u xs →
      ElementsMean (w ++ (t ++ (w' ++ ',' :: u))) (x :: xs)
/-- The text between the braces of an object. -/
inductive MembersMean : Str → List (Str × Json) → Prop where
  | one {w t w' m} : Blank w → MemberMeans t m → Blank w' → MembersMean (w ++ (t ++ w')) [m]
  | more {w t w' u m ms} : Blank w → MemberMeans t m → Blank w' → MembersMean u ms →
      MembersMean (w ++ (t ++ (w' ++ ',' :: u))) (m :: ms)
/-- A member of an object. -/
inductive MemberMeans : Str → Str × Json → Prop where
  | mk {k n w w' t x} : StringText k n → Blank w → Blank w' → JsonMeans t x →
      MemberMeans ('"' :: (k ++ '"' :: (w ++ ':' :: (w' ++ t)))) (n, x)
end

/-- A JSON text: a document with white space around it. -/
def IsJson (s : Str) (j : Json) : Prop :=
  ∃ w t w', s = w ++ (t ++ w') ∧ Blank w ∧ JsonMeans t j ∧ Blank w'

/-- The fields of a struct, each from the only entry of its name, where some are embedded as JSON. -/
inductive ItemsFrom {β T : Type} (means : Ty → β → Val → Prop) (json : β → T → Prop)
    (entries : List (Str × β)) : List (Str × ItemTy) → List (Str × Item T) → Prop where
  | nil : ItemsFrom means json entries [] []
  | plain {n t a x b v ts is} : entries = a ++ (n, x) :: b → (∀ e ∈ a, e.1 ≠ n) → (∀ e ∈ b, e.1 ≠ n) →
      means t x v → ItemsFrom means json entries ts is →
      ItemsFrom means json entries ((n, .plain t) :: ts) ((n, .plain v) :: is)
  | absent {n t ts is} : (∀ e ∈ entries, e.1 ≠ n) → ItemsFrom means json entries ts is →
      ItemsFrom means json entries ((n, .plain (.option t)) :: ts) ((n, .plain .none) :: is)
  | json {n p a x b v ts is} : entries = a ++ (n, x) :: b → (∀ e ∈ a, e.1 ≠ n) → (∀ e ∈ b, e.1 ≠ n) →
      json x v → ItemsFrom means json entries ts is →
      ItemsFrom means json entries ((n, .json p) :: ts) ((n, .json p v) :: is)

end Htrpc.Spec
