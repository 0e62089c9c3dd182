/-
Floating point numbers as text: std's `Display` and `FromStr` of `f64` and `f32`, as documented.
They are contracts of std, not code of htrpc; `Model/Text` leaves them open (`FloatText`).
-/
import Verif.Model.Text

namespace Htrpc

/-- A binary format of IEEE 754: the widths of fraction and exponent. -/
structure FloatFmt where
  frac : Nat
  exp : Nat
deriving DecidableEq, Repr

/-- What a text without sign denotes: infinity, no number, or `digits * 10 ^ exp`. -/
inductive FloatLit where
  | inf
  | nan
  | dec (digits : Nat) (exp : Int)
deriving DecidableEq, Repr

namespace FloatFmt

/-- `f64`. -/
def f64 : FloatFmt := ⟨52, 11⟩

/-- `f32`. -/
def f32 : FloatFmt := ⟨23, 8⟩

/-- Finite numbers are multiples of `1 / 2 ^ scale`. -/
def scale (f : FloatFmt) : Nat := 2 ^ (f.exp - 1) - 2 + f.frac

/-- The number with the bits `b` (without sign) is `mag b / 2 ^ scale`. -/
def mag (f : FloatFmt) (b : Nat) : Nat :=
  if b / 2 ^ f.frac = 0 then b % 2 ^ f.frac
  else (2 ^ f.frac + b % 2 ^ f.frac) * 2 ^ (b / 2 ^ f.frac - 1)

/-- The bits of infinity. -/
def inf (f : FloatFmt) : Nat := (2 ^ f.exp - 1) * 2 ^ f.frac

/-- The bits of `NAN`. -/
def nan (f : FloatFmt) : Nat := f.inf + 2 ^ (f.frac - 1)

/-- The bits with the sign. -/
def signed (f : FloatFmt) (neg : Bool) (b : Nat) : Nat :=
  if neg then 2 ^ (f.exp + f.frac) + b else b

/-- The greatest bits not above `n / d` (in units of `1 / 2 ^ scale`), by their lowest `i` bits. -/
def search (f : FloatFmt) (n d : Nat) : Nat → Nat → Nat
  | 0, b => b
  | i + 1, b => if f.mag (b + 2 ^ i) * d ≤ n then search f n d i (b + 2 ^ i) else search f n d i b

/-- Round `n / d` (in units of `1 / 2 ^ scale`) to the nearest number, halfway to the even one;
infinity takes the place of the number behind the greatest. -/
def round (f : FloatFmt) (n d : Nat) : Nat :=
  let b := Nat.min f.inf (f.search n d (f.exp + f.frac) 0)
  if b = f.inf then b
  else
    let below := n - f.mag b * d
    let above := f.mag (b + 1) * d - n
    if below < above then b
    else if above < below then b + 1
    else if b % 2 = 0 then b
    else b + 1

/-- The bits of what a text denotes. -/
def bits (f : FloatFmt) : FloatLit → Nat
  | .inf => f.inf
  | .nan => f.nan
  | .dec d (.ofNat k) => f.round (d * 10 ^ k * 2 ^ f.scale) 1
  | .dec d (.negSucc k) => f.round (d * 2 ^ f.scale) (10 ^ (k + 1))

end FloatFmt

namespace FloatStd

/-- The exponent behind `e`: an optional sign and digits. -/
def exponent : Str → Option Int
  | '+' :: ds => (parseDigits ds).map Int.ofNat
  | '-' :: ds => (parseDigits ds).map fun n => - Int.ofNat n
  | ds => (parseDigits ds).map Int.ofNat

/-- The digits behind a point and what follows them. -/
def fraction : Str → Str × Str
  | '.' :: r => (r.takeWhile Char.isDigit, r.dropWhile Char.isDigit)
  | r => ([], r)

/-- The exponent, 0 if there is none. -/
def ending : Str → Option Int
  | [] => some 0
  | c :: r => if c = 'e' ∨ c = 'E' then exponent r else none

/-- Digits with an optional point, at least one digit, and an optional exponent. -/
def number (s : Str) : Option FloatLit :=
  let ip := s.takeWhile Char.isDigit
  let (fp, r) := fraction (s.dropWhile Char.isDigit)
  if ip = [] ∧ fp = [] then none
  else (ending r).map fun e => .dec (Nat.ofDigitChars 10 (ip ++ fp) 0) (e - fp.length)

/-- The names of infinity and of `NAN`, in any case. -/
def special (s : Str) : Option FloatLit :=
  let s := s.map Char.toLower
  if s = "inf".toList ∨ s = "infinity".toList then some .inf
  else if s = "nan".toList then some .nan
  else none

/-- A text without sign. -/
def literal (s : Str) : Option FloatLit :=
  match number s with
  | some l => some l
  | none => special s

/-- `<f64 as FromStr>::from_str`, `<f32 as FromStr>::from_str`. -/
def parse (f : FloatFmt) : Str → Option Nat
  | '-' :: s => (literal s).map fun l => f.signed true (f.bits l)
  | '+' :: s => (literal s).map fun l => f.signed false (f.bits l)
  | s => (literal s).map fun l => f.signed false (f.bits l)

/-- Without zeros at the end of the digits; at most `fuel` of them are removed. -/
def strip : Nat → Nat → Int → Nat × Int
  | 0, d, e => (d, e)
  | fuel + 1, d, e => if d % 10 = 0 then strip fuel (d / 10) (e + 1) else (d, e)

/-- `d * 10 ^ e` in decimal, without an exponent. -/
def decText (d : Nat) : Int → Str
  | .ofNat k => showNat d ++ List.replicate k '0'
  | .negSucc k =>
    let ds := List.replicate (k + 2 - (showNat d).length) '0' ++ showNat d
    ds.take (ds.length - (k + 1)) ++ '.' :: ds.drop (ds.length - (k + 1))

/-- The fewest digits of `x / 10 ^ scale` that are read as the bits `b`, and how many digits were
dropped; of two, those that are closer.  The last `j` digits have been tried. -/
def shortest (f : FloatFmt) (b x : Nat) : Nat → Nat × Nat
  | 0 => (x, 0)
  | j + 1 =>
    let lo := x / 10 ^ (j + 1)
    let reads := fun d => f.bits (.dec d ((j + 1 : Nat) - (f.scale : Int))) = b
    if reads (lo + 1) ∧ (¬ reads lo ∨ 10 ^ (j + 1) ≤ 2 * (x % 10 ^ (j + 1))) then (lo + 1, j + 1)
    else if reads lo then (lo, j + 1)
    else shortest f b x j

/-- A number without sign. -/
def showMag (f : FloatFmt) (b : Nat) : Str :=
  if b = 0 then ['0']
  else
    let x := f.mag b * 5 ^ f.scale
    let (d, j) := shortest f b x ((showNat x).length - 1)
    let (d, e) := strip d d ((j : Int) - f.scale)
    decText d e

/-- `f64::to_string`: `NaN`, `inf`, or the shortest decimal text that is read as the number. -/
def «show» (f : FloatFmt) (x : Nat) : Str :=
  let b := x % 2 ^ (f.exp + f.frac)
  if f.inf < b then "NaN".toList
  else
    let s := if b = f.inf then "inf".toList else showMag f b
    if x / 2 ^ (f.exp + f.frac) % 2 = 1 then '-' :: s else s

/-- `f32 as f64` and `f64 as f64`: the same number; `NAN` for the others. -/
def convert (f g : FloatFmt) (x : Nat) : Nat :=
  let b := x % 2 ^ (f.exp + f.frac)
  g.signed (decide (x / 2 ^ (f.exp + f.frac) % 2 = 1)) <|
    if f.inf < b then g.nan
    else if b = f.inf then g.inf
    else g.round (f.mag b * 2 ^ g.scale) (2 ^ f.scale)

end FloatStd

/-- The text of floats as std defines it. -/
@[instance_reducible] def stdFloatText : FloatText where
  show64 x := FloatStd.show .f64 x.toNat
  parse64 s := (FloatStd.parse .f64 s).map UInt64.ofNat
  parse32 s := (FloatStd.parse .f32 s).map UInt32.ofNat
  widen x := UInt64.ofNat (FloatStd.convert .f32 .f64 x.toNat)
  ofNat64 n := UInt64.ofNat (FloatFmt.f64.round (n * 2 ^ FloatFmt.f64.scale) 1)
  ofNat32 n := UInt32.ofNat (FloatFmt.f32.round (n * 2 ^ FloatFmt.f32.scale) 1)

end Htrpc
