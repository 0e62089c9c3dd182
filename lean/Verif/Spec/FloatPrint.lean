/-
Which of the texts of a floating point number is the right one to send.
-/
import Verif.Spec.Floats

namespace Htrpc.Spec

/-- The number `v` can be written with `n` digits, and zeros and a point. -/
def InDigits (n : Nat) (v : ℚ) : Prop := ∃ (d : Nat) (e : Int), d < 10 ^ n ∧ v = d * (10 : ℚ) ^ e

/-- Of all decimal numbers that are read as `b`, `v` can be written with the fewest digits, and no other
with so few digits is closer to the exact value. -/
def Shortest (f : FloatFmt) (b : Nat) (v : ℚ) : Prop :=
  Nearest f v b ∧ ∃ n, InDigits n v ∧ ∀ w m, Nearest f w b → InDigits m w →
    n ≤ m ∧ (m = n → |v - floatValue f b| ≤ |w - floatValue f b|)

/-- Decimal numbers without an exponent and without superfluous zeros. -/
inductive PlainText : Str → ℚ → Prop where
  | int {ds} : Digits ds → (ds.head? = some '0' → ds = ['0']) → PlainText ds (digitsValue ds)
  | point {ip fp} : Digits ip → (ip.head? = some '0' → ip = ['0']) → Digits fp →
      fp.getLast? ≠ some '0' →
      PlainText (ip ++ '.' :: fp) (digitsValue (ip ++ fp) / 10 ^ fp.length)

end Htrpc.Spec
