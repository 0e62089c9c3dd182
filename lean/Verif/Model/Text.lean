/-
Text of values: the parts of Rust's standard library used by the serializers
(`to_string`, `str::parse`, UTF-8).  These are contracts of std, not code of htrpc.
-/
import Verif.Model.Basic

namespace Htrpc

/-! ### Integers -/

/-- The integer types of serde's data model up to 64 bits (`usize`/`isize` travel as
`u64`/`i64`).  128 bit integers are not modelled: serde's default methods reject them. -/
inductive IntTy where
  | i8 | i16 | i32 | i64 | u8 | u16 | u32 | u64
deriving DecidableEq, Repr

namespace IntTy

/-- Smallest value of the type. -/
def min : IntTy → Int
  | i8 => -128
  | i16 => -32768
  | i32 => -2147483648
  | i64 => -9223372036854775808
  | _ => 0

/-- Largest value of the type. -/
def max : IntTy → Int
  | i8 => 127
  | i16 => 32767
  | i32 => 2147483647
  | i64 => 9223372036854775807
  | u8 => 255
  | u16 => 65535
  | u32 => 4294967295
  | u64 => 18446744073709551615

/-- Is the type signed? -/
def signed : IntTy → Bool
  | i8 | i16 | i32 | i64 => true
  | _ => false

/-- `i` is a value of the type. -/
def fits (t : IntTy) (i : Int) : Bool := decide (t.min ≤ i) && decide (i ≤ t.max)

end IntTy

/-- `u64::to_string` and friends: decimal digits, no leading zeros. -/
def showNat (n : Nat) : Str := Nat.toDigits 10 n

/-- `i64::to_string`: the sign `-` for negative values. -/
def showInt : Int → Str
  | .ofNat n => showNat n
  | .negSucc n => '-' :: showNat (n + 1)

/-- The digits of a number without sign; `none` for the empty text or a non-digit. -/
def parseDigits (s : Str) : Option Nat :=
  if s ≠ [] ∧ s.all Char.isDigit then some (Nat.ofDigitChars 10 s 0) else none

/-- `<int as FromStr>::from_str`: optional `+`, optional `-` for signed types only, at least one
digit, and the value must fit the type. -/
def parseInt (t : IntTy) (s : Str) : Option Int :=
  let v : Option Int :=
    match s with
    | '+' :: ds => (parseDigits ds).map Int.ofNat
    | '-' :: ds => if t.signed then (parseDigits ds).map (fun n => - Int.ofNat n) else none
    | ds => (parseDigits ds).map Int.ofNat
  match v with
  | some i => if t.fits i then some i else none
  | none => none

/-! ### Booleans -/

/-- `<bool as FromStr>::from_str`. -/
def parseBool (s : Str) : Option Bool :=
  if s = "true".toList then some true
  else if s = "false".toList then some false
  else none

/-! ### Floating point numbers

Floats are their bit patterns; printing and parsing are parameters of the model. -/

/-- `f64::to_string`, `str::parse::<f64>`, `f32 as f64`, `str::parse::<f32>`, and the
conversions of a `u16` made by serde's float visitors. -/
class FloatText where
  show64 : UInt64 → Str
  parse64 : Str → Option UInt64
  parse32 : Str → Option UInt32
  widen : UInt32 → UInt64
  ofNat64 : Nat → UInt64
  ofNat32 : Nat → UInt32

/-- NaN pattern of an `f64`. -/
def isNaN64 (b : UInt64) : Bool :=
  decide (b.toNat / 2 ^ 52 % 2 ^ 11 = 2047) && decide (b.toNat % 2 ^ 52 ≠ 0)

/-- NaN pattern of an `f32`. -/
def isNaN32 (b : UInt32) : Bool :=
  decide (b.toNat / 2 ^ 23 % 2 ^ 8 = 255) && decide (b.toNat % 2 ^ 23 ≠ 0)

/-- The contract of std used for floats: printing an `f64` and parsing it gives the same number
back (for NaN: some NaN), also through `f32 as f64`; and the printed text is ASCII without blanks
and the characters special to URLs (`NaN`, `inf`, digits, `-`, `.`), never empty, `.` or `..`. -/
class LawfulFloatText extends FloatText where
  parse64_show64 : ∀ x, isNaN64 x = false → parse64 (show64 x) = some x
  parse32_show64 : ∀ x, isNaN32 x = false → parse32 (show64 (widen x)) = some x
  parse64_nan : ∀ x y, isNaN64 x = true → parse64 (show64 x) = some y → isNaN64 y = true
  parse32_nan : ∀ x y, isNaN32 x = true → parse32 (show64 (widen x)) = some y → isNaN32 y = true
  show64_alnum : ∀ x, ∀ c ∈ show64 x, c.isAlphanum = true ∨ c = '-' ∨ c = '.'
  show64_some_alnum : ∀ x, ∃ c ∈ show64 x, c.isAlphanum = true

/-! ### UTF-8 -/

/-- UTF-8 encoding of one character. -/
def utf8Char (c : Char) : Bytes :=
  let n := c.toNat
  if n < 0x80 then [UInt8.ofNat n]
  else if n < 0x800 then [UInt8.ofNat (0xC0 + n / 64), UInt8.ofNat (0x80 + n % 64)]
  else if n < 0x10000 then
    [UInt8.ofNat (0xE0 + n / 4096), UInt8.ofNat (0x80 + n / 64 % 64), UInt8.ofNat (0x80 + n % 64)]
  else
    [UInt8.ofNat (0xF0 + n / 262144), UInt8.ofNat (0x80 + n / 4096 % 64),
     UInt8.ofNat (0x80 + n / 64 % 64), UInt8.ofNat (0x80 + n % 64)]

/-- `str::as_bytes`. -/
def utf8 (s : Str) : Bytes := s.flatMap utf8Char

/-- Continuation byte. -/
def isCont (b : UInt8) : Bool := decide (0x80 ≤ b.toNat) && decide (b.toNat < 0xC0)

/-- Payload of a continuation byte. -/
def contVal (b : UInt8) : Nat := b.toNat - 0x80

/-- One well-formed UTF-8 sequence at the start of the bytes, and what follows it.
Overlong forms, surrogates and values above U+10FFFF are not well-formed. -/
def utf8Next : Bytes → Option (Char × Bytes)
  | [] => none
  | b0 :: r0 =>
    let n0 := b0.toNat
    if n0 < 0x80 then some (Char.ofNat n0, r0)
    else if n0 < 0xC0 then none
    else if n0 < 0xE0 then
      match r0 with
      | b1 :: r1 =>
        let n := (n0 - 0xC0) * 64 + contVal b1
        if isCont b1 ∧ 0x80 ≤ n then some (Char.ofNat n, r1) else none
      | _ => none
    else if n0 < 0xF0 then
      match r0 with
      | b1 :: b2 :: r2 =>
        let n := (n0 - 0xE0) * 4096 + contVal b1 * 64 + contVal b2
        if isCont b1 ∧ isCont b2 ∧ 0x800 ≤ n ∧ n.isValidChar then some (Char.ofNat n, r2)
        else none
      | _ => none
    else if n0 < 0xF8 then
      match r0 with
      | b1 :: b2 :: b3 :: r3 =>
        let n := (n0 - 0xF0) * 262144 + contVal b1 * 4096 + contVal b2 * 64 + contVal b3
        if isCont b1 ∧ isCont b2 ∧ isCont b3 ∧ 0x10000 ≤ n ∧ n.isValidChar then
          some (Char.ofNat n, r3)
        else none
      | _ => none
    else none

/-- `str::from_utf8`, with fuel (the number of bytes suffices, see `fromUtf8`). -/
def fromUtf8Aux : Nat → Bytes → Option Str
  | _, [] => some []
  | 0, _ :: _ => none
  | k + 1, b :: bs =>
    match utf8Next (b :: bs) with
    | some (c, rest) => (fromUtf8Aux k rest).map (c :: ·)
    | none => none

/-- `std::str::from_utf8` / `String::from_utf8`. -/
def fromUtf8 (bs : Bytes) : Option Str := fromUtf8Aux bs.length bs

/-- Is `b1` an admissible second byte after the lead byte `b0`? (Unicode table 3-7) -/
def secondOk (b0 b1 : UInt8) : Bool :=
  let n0 := b0.toNat
  let n1 := b1.toNat
  if n0 = 0xE0 then decide (0xA0 ≤ n1) && decide (n1 < 0xC0)
  else if n0 = 0xED then decide (0x80 ≤ n1) && decide (n1 < 0xA0)
  else if n0 = 0xF0 then decide (0x90 ≤ n1) && decide (n1 < 0xC0)
  else if n0 = 0xF4 then decide (0x80 ≤ n1) && decide (n1 < 0x90)
  else decide (0xC2 ≤ n0) && decide (n0 < 0xF4) && isCont b1

/-- Number of bytes which `String::from_utf8_lossy` replaces by one U+FFFD at an ill-formed
position (maximal subpart). -/
def badLen : Bytes → Nat
  | b0 :: b1 :: r =>
    if b0.toNat ≥ 0xE0 ∧ secondOk b0 b1 then
      if b0.toNat ≥ 0xF0 then
        match r with
        | b2 :: _ => if isCont b2 then 3 else 2
        | [] => 2
      else 2
    else 1
  | _ => 1

/-- `String::from_utf8_lossy` with fuel. -/
def utf8LossyAux : Nat → Bytes → Str
  | 0, _ => []
  | _, [] => []
  | k + 1, b :: bs =>
    match utf8Next (b :: bs) with
    | some (c, rest) => c :: utf8LossyAux k rest
    | none => Char.ofNat 0xFFFD :: utf8LossyAux k ((b :: bs).drop (badLen (b :: bs)))

/-- `String::from_utf8_lossy`. -/
def utf8Lossy (bs : Bytes) : Str := utf8LossyAux bs.length bs

end Htrpc
