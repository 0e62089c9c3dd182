/-
What texts mean as floating point numbers, by the rules of IEEE 754 and the grammar of std.
-/
import Verif.Model.FloatStd
import Verif.Spec.Decode
import Mathlib.Data.Rat.Defs
import Mathlib.Algebra.Order.Field.Rat

namespace Htrpc.Spec

/-- The bias of the exponent. -/
def bias (f : FloatFmt) : Int := 2 ^ (f.exp - 1) - 1

/-- The number with these bits (without sign): the exponent above the fraction, numbers with
exponent 0 have no implicit one. -/
def floatValue (f : FloatFmt) (b : Nat) : ℚ :=
  if b / 2 ^ f.frac = 0 then ((b % 2 ^ f.frac : Nat) : ℚ) / 2 ^ f.frac * 2 ^ (1 - bias f)
  else (1 + ((b % 2 ^ f.frac : Nat) : ℚ) / 2 ^ f.frac) * 2 ^ (((b / 2 ^ f.frac : Nat) : Int) - bias f)

/-- The bits of infinity: all ones in the exponent, zeros in the fraction. -/
def infBits (f : FloatFmt) : Nat := (2 ^ f.exp - 1) * 2 ^ f.frac

/-- `b` are the bits of the number nearest to `v`, of two those with the last bit 0.  In place of
infinity stands the number that would follow the greatest one. -/
def Nearest (f : FloatFmt) (v : ℚ) (b : Nat) : Prop :=
  b ≤ infBits f ∧ ∀ c, c ≤ infBits f → c ≠ b →
    |v - floatValue f b| < |v - floatValue f c| ∨
      |v - floatValue f b| = |v - floatValue f c| ∧ b % 2 = 0

/-- Decimal digits with or without a point. -/
inductive DecimalText : Str → ℚ → Prop where
  | int {ds} : Digits ds → DecimalText ds (digitsValue ds)
  | point {ip fp : Str} : Digits (ip ++ fp) →
      DecimalText (ip ++ '.' :: fp) (digitsValue (ip ++ fp) / 10 ^ fp.length)

/-- Decimal numbers with or without an exponent. -/
inductive NumberText : Str → ℚ → Prop where
  | plain {s v} : DecimalText s v → NumberText s v
  | exp {s v c t} {n : Int} : DecimalText s v → c = 'e' ∨ c = 'E' → Denotes t n →
      NumberText (s ++ c :: t) (v * 10 ^ n)

/-- The texts without sign and their bits. -/
inductive Unsigned (f : FloatFmt) : Str → Nat → Prop where
  | number {s v b} : NumberText s v → Nearest f v b → Unsigned f s b
  | inf {s} : s.map Char.toLower = "inf".toList ∨ s.map Char.toLower = "infinity".toList →
      Unsigned f s (infBits f)
  | nan {s} : s.map Char.toLower = "nan".toList → Unsigned f s (infBits f + 2 ^ (f.frac - 1))

/-- The texts of floating point numbers and their bits. -/
inductive FloatReads (f : FloatFmt) : Str → Nat → Prop where
  | plain {s b} : Unsigned f s b → FloatReads f s b
  | plus {s b} : Unsigned f s b → FloatReads f ('+' :: s) b
  | minus {s b} : Unsigned f s b → FloatReads f ('-' :: s) (2 ^ (f.exp + f.frac) + b)

end Htrpc.Spec
