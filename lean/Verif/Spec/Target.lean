/-
Which path and which query a request target has, independently of the URL parser.
-/
import Verif.Spec.Form

namespace Htrpc.Spec

/-- What begins with `#`, or nothing. -/
def Fragment (f : Str) : Prop := f = [] ∨ ∃ g, f = '#' :: g

/-- The text is a path behind its first slash. -/
def InPath (p : Str) : Prop :=
  '?' ∉ p ∧ '#' ∉ p ∧ ∀ c r, p = c :: r → c ≠ '/' ∧ c ≠ '\\'

/-- A request target in origin form: one slash and the path, perhaps a query behind `?`, perhaps a
fragment behind `#`. -/
inductive Origin : Str → Str → Option Str → Prop where
  | path {p f} : InPath p → Fragment f → Origin ('/' :: (p ++ f)) p none
  | query {p q f} : InPath p → '#' ∉ q → Fragment f → Origin ('/' :: (p ++ '?' :: (q ++ f))) p (some q)

/-- Characters that stay as they are in a path. -/
def plainInPath (c : Char) : Bool :=
  decide (0x20 < c.toNat) && decide (c.toNat < 0x7F) && !("\"<>`#?{}^".toList.contains c)

/-- Characters that stay as they are in a query. -/
def plainInQuery (c : Char) : Bool :=
  decide (0x20 < c.toNat) && decide (c.toNat < 0x7F) && !("\"#<>'".toList.contains c)

/-- A byte as percent sign and two hexadecimal digits. -/
def escapeByte (b : UInt8) : Str :=
  ['%', "0123456789ABCDEF".toList.getD (b.toNat / 16) '0',
    "0123456789ABCDEF".toList.getD (b.toNat % 16) '0']

/-- A text with its other characters escaped. -/
def writtenOut (plain : Char → Bool) (s : Str) : Str :=
  s.flatMap fun c => if plain c then [c] else (utf8 [c]).flatMap escapeByte

/-- The segment means the current directory; the dot may be escaped. -/
def Here (s : Str) : Prop := unescape s = some ".".toList

/-- The segment means the directory above; the dots may be escaped. -/
def Up (s : Str) : Prop := unescape s = some "..".toList

instance (s : Str) : Decidable (Here s) := inferInstanceAs (Decidable (_ = _))
instance (s : Str) : Decidable (Up s) := inferInstanceAs (Decidable (_ = _))

/-- The segments that remain, from the last to the first: `n` of them are still to be removed. -/
def remaining : Nat → List Str → List Str
  | _, [] => []
  | n, s :: ss =>
    if Up s then remaining (n + 1) ss
    else if Here s then remaining n ss
    else
      match n with
      | 0 => s :: remaining 0 ss
      | n + 1 => remaining n ss

/-- A path without dot segments: each `..` removes one segment before it, if there is one. If the last
segment is such a segment, then an empty one takes its place. -/
def resolve (segs : List Str) : List Str :=
  (remaining 0 segs.reverse).reverse ++
    match segs.getLast? with
    | some s => if Here s ∨ Up s then [[]] else []
    | none => []

/-- The segments and the parameters of a request target in origin form: the segments are between `/`
(or `\`), without dot segments. -/
def TargetOf (t : Str) (segs : List Str) (ps : List (Str × Str)) : Prop :=
  ∃ p q pieces, Origin t p q ∧ Pieces (fun c => c = '/' ∨ c = '\\') p pieces ∧
    segs = resolve (pieces.map (writtenOut plainInPath)) ∧ Parameters (q.getD []) ps

end Htrpc.Spec
