/-
Which parameters a query has, independently of the parser: what is between `&`, names and values
at the first `=`, `+` for blanks, escapes for bytes, and UTF-8 with replacement characters.
-/
import Verif.Spec.Decode

namespace Htrpc.Spec

/-- The beginning of the UTF-8 form of a character, but not all of it. -/
def Unfinished (p : Bytes) : Prop := ∃ c : Char, p <+: utf8 [c] ∧ p ≠ utf8 [c]

/-- The bytes `p`, with `rest` behind them, are no text: no character begins here, and `p` is as much
as could have been the beginning of one, or else a single byte. -/
structure IllFormed (p rest : Bytes) : Prop where
  some : p ≠ []
  noChar : ∀ c, ¬ utf8 [c] <+: p ++ rest
  part : p.length = 1 ∨ Unfinished p
  most : ∀ p', p' <+: p ++ rest → p.length < p'.length → ¬ Unfinished p'

/-- Bytes as text: characters in UTF-8, and a replacement character (U+FFFD) for each part that is
none. -/
inductive Lossy : Bytes → Str → Prop where
  | nil : Lossy [] []
  | char {c bs s} : Lossy bs s → Lossy (utf8 [c] ++ bs) (c :: s)
  | ill {p bs s} : IllFormed p bs → Lossy bs s → Lossy (p ++ bs) (Char.ofNat 0xFFFD :: s)

/-- Two hexadecimal digits and their value. -/
def escaped (a b : Char) : Option Nat := do
  let m ← digitOf a
  let n ← digitOf b
  some (16 * m + n)

/-- The bytes which a name or a value in a query stands for: `+` is a blank, `%` and two hexadecimal
digits are a byte, everything else (also `%` before something else) stands for itself. -/
inductive FormBytes : Str → Bytes → Prop where
  | nil : FormBytes [] []
  | blank {s bs} : FormBytes s bs → FormBytes ('+' :: s) (0x20 :: bs)
  | escape {a b n s bs} : escaped a b = some n → FormBytes s bs →
      FormBytes ('%' :: a :: b :: s) (UInt8.ofNat n :: bs)
  | char {c s bs} : c ≠ '+' → (∀ a b s' n, c = '%' → s = a :: b :: s' → escaped a b ≠ some n) →
      FormBytes s bs → FormBytes (c :: s) (utf8 [c] ++ bs)

/-- The text which a name or a value in a query stands for. -/
def FormText (s t : Str) : Prop := ∃ bs, FormBytes s bs ∧ Lossy bs t

/-- The pieces of a text between separators. -/
inductive Pieces (sep : Char → Prop) : Str → List Str → Prop where
  | last {s} : (∀ c ∈ s, ¬ sep c) → Pieces sep s [s]
  | cons {s c t ss} : (∀ c ∈ s, ¬ sep c) → sep c → Pieces sep t ss →
      Pieces sep (s ++ c :: t) (s :: ss)

/-- The name and the value of a parameter: what is before and behind the first `=`; the value is
empty if there is none. -/
def IsParameter (piece : Str) (p : Str × Str) : Prop :=
  ∃ k v, '=' ∉ k ∧ (piece = k ++ '=' :: v ∨ piece = k ∧ v = []) ∧ FormText k p.1 ∧ FormText v p.2

/-- The parameters of the pieces of a query, without the empty pieces. -/
inductive PieceParameters : List Str → List (Str × Str) → Prop where
  | nil : PieceParameters [] []
  | empty {ss ps} : PieceParameters ss ps → PieceParameters ([] :: ss) ps
  | cons {s ss p ps} : s ≠ [] → IsParameter s p → PieceParameters ss ps →
      PieceParameters (s :: ss) (p :: ps)

/-- The parameters of a query. -/
def Parameters (q : Str) (ps : List (Str × Str)) : Prop :=
  ∃ pieces, Pieces (· = '&') q pieces ∧ PieceParameters pieces ps

end Htrpc.Spec
