/-
JSON texts as serde_json writes and reads them (behind serdeconv; src/json.rs, src/json_pretty.rs,
src/rfc7807.rs:186-198).

Nothing here is code of htrpc.  The other modules only assume the contract `JsonText`; these
definitions are a codec that meets it, for statements about the texts that are exchanged.  Simplified:
the values of fractions, exponents and integers beyond 64 bits are left to `FloatText`.
-/
import Verif.Model.Json
import Verif.Model.Text

namespace Htrpc.JsonCodec

/-! ### Writing -/

/-- A digit of a `\u` escape. -/
def hexChar (n : Nat) : Char := if n < 10 then Char.ofNat (48 + n) else Char.ofNat (87 + n)

/-- One character of a string. -/
def escape (c : Char) : Str :=
  if c = '"' then ['\\', '"']
  else if c = '\\' then ['\\', '\\']
  else if c.toNat = 8 then ['\\', 'b']
  else if c.toNat = 9 then ['\\', 't']
  else if c.toNat = 10 then ['\\', 'n']
  else if c.toNat = 12 then ['\\', 'f']
  else if c.toNat = 13 then ['\\', 'r']
  else if c.toNat < 32 then ['\\', 'u', '0', '0', hexChar (c.toNat / 16), hexChar (c.toNat % 16)]
  else [c]

/-- A string. -/
def quote (s : Str) : Str := '"' :: (s.flatMap escape ++ ['"'])

/-- A new line with an indentation of `n` levels, if the text is to be pretty. -/
def newline (pretty : Bool) (n : Nat) : Str :=
  if pretty then '\n' :: List.replicate (2 * n) ' ' else []

/-- What is between a name and its value. -/
def colon (pretty : Bool) : Str := if pretty then [':', ' '] else [':']

variable [FloatText]

mutual
/-- A document at an indentation. -/
def text (pretty : Bool) (n : Nat) : Json → Str
  | .null => "null".toList
  | .bool b => if b then "true".toList else "false".toList
  | .num i => showInt i
  | .float x => FloatText.show64 x
  | .str s => quote s
  | .arr [] => ['[', ']']
  | .arr (x :: xs) =>
    '[' :: (newline pretty (n + 1) ++ (text pretty (n + 1) x ++ (texts pretty (n + 1) xs ++
      (newline pretty n ++ [']']))))
  | .obj [] => ['{', '}']
  | .obj ((k, x) :: ms) =>
    '{' :: (newline pretty (n + 1) ++ (quote k ++ (colon pretty ++ (text pretty (n + 1) x ++
      (members pretty (n + 1) ms ++ (newline pretty n ++ ['}']))))))
/-- The other elements of an array. -/
def texts (pretty : Bool) (n : Nat) : List Json → Str
  | [] => []
  | x :: xs => ',' :: (newline pretty n ++ (text pretty n x ++ texts pretty n xs))
/-- The other members of an object. -/
def members (pretty : Bool) (n : Nat) : List (Str × Json) → Str
  | [] => []
  | (k, x) :: ms =>
    ',' :: (newline pretty n ++ (quote k ++ (colon pretty ++ (text pretty n x ++ members pretty n ms))))
end

/-- `serde_json::to_string` and `to_string_pretty`. -/
def render (pretty : Bool) (j : Json) : Str := text pretty 0 j

/-! ### Reading -/

/-- White space. -/
def isWs (c : Char) : Bool := c == ' ' || c == '\n' || c == '\t' || c == '\r'

/-- What follows white space. -/
def skipWs (s : Str) : Str := s.dropWhile isWs

/-- These characters come next. -/
def expect : Str → Str → Option Str
  | [], s => some s
  | c :: cs, d :: s => if c = d then expect cs s else none
  | _ :: _, [] => none

/-- The value of a hexadecimal digit. -/
def hexDigit (c : Char) : Option Nat :=
  if '0' ≤ c ∧ c ≤ '9' then some (c.toNat - 48)
  else if 'a' ≤ c ∧ c ≤ 'f' then some (c.toNat - 87)
  else if 'A' ≤ c ∧ c ≤ 'F' then some (c.toNat - 55)
  else none

/-- Four hexadecimal digits. -/
def hex4 (a b c d : Char) : Option Nat := do
  let a ← hexDigit a
  let b ← hexDigit b
  let c ← hexDigit c
  let d ← hexDigit d
  some (a * 4096 + b * 256 + c * 16 + d)

/-- A character in front of a string. -/
def push (c : Char) (r : Option (Str × Str)) : Option (Str × Str) := r.map fun x => (c :: x.1, x.2)

/-- The rest of a string and what follows it. -/
def string : Str → Option (Str × Str)
  | [] => none
  | c :: r =>
    if c = '"' then some ([], r)
    else if c.toNat < 32 then none
    else if c = '\\' then
      match r with
      | 'u' :: x :: y :: z :: w :: r =>
        match hex4 x y z w with
        | none => none
        | some n =>
          if 0xD800 ≤ n ∧ n < 0xDC00 then
            match r with
            | '\\' :: 'u' :: x :: y :: z :: w :: r =>
              match hex4 x y z w with
              | none => none
              | some m =>
                if 0xDC00 ≤ m ∧ m < 0xE000 then
                  push (Char.ofNat (0x10000 + (n - 0xD800) * 1024 + (m - 0xDC00))) (string r)
                else none
            | _ => none
          else if 0xDC00 ≤ n ∧ n < 0xE000 then none
          else push (Char.ofNat n) (string r)
      | 'b' :: r => push (Char.ofNat 8) (string r)
      | 't' :: r => push (Char.ofNat 9) (string r)
      | 'n' :: r => push (Char.ofNat 10) (string r)
      | 'f' :: r => push (Char.ofNat 12) (string r)
      | 'r' :: r => push (Char.ofNat 13) (string r)
      | '"' :: r => push '"' (string r)
      | '\\' :: r => push '\\' (string r)
      | '/' :: r => push '/' (string r)
      | _ => none
    else push c (string r)

/-- The digits in front. -/
def digits (s : Str) : Str := s.takeWhile Char.isDigit

/-- What follows the digits in front. -/
def afterDigits (s : Str) : Str := s.dropWhile Char.isDigit

/-- An exponent in front, if there is one: its text and what follows it. -/
def exponent : Str → Option (Str × Str)
  | [] => some ([], [])
  | e :: s =>
    if e = 'e' ∨ e = 'E' then
      let sign := s.take (if s.head? = some '+' ∨ s.head? = some '-' then 1 else 0)
      let s := s.drop sign.length
      if digits s = [] then none else some (e :: sign ++ digits s, afterDigits s)
    else some ([], e :: s)

/-- A fraction and an exponent in front: their text and what follows it. -/
def fraction (s : Str) : Option (Str × Str) :=
  match s with
  | '.' :: s =>
    if digits s = [] then none
    else (exponent (afterDigits s)).map fun x => ('.' :: digits s ++ x.1, x.2)
  | s => exponent s

/-- A number behind its sign. -/
def number (neg : Bool) (s : Str) : Option (Json × Str) :=
  let ds := digits s
  if ds = [] ∨ (1 < ds.length ∧ ds.head? = some '0') then none
  else do
    let (f, r) ← fraction (afterDigits s)
    let n := Nat.ofDigitChars 10 ds 0
    if f = [] ∧ neg = false ∧ n < 2 ^ 64 then some (.num n, r)
    else if f = [] ∧ neg = true ∧ 0 < n ∧ n ≤ 2 ^ 63 then some (.num (-n), r)
    else do
      let x ← FloatText.parse64 ((if neg then ['-'] else []) ++ ds ++ f)
      some (.float x, r)

mutual
/-- A document in front of a text that does not begin with white space, and what follows it.  `depth`
is how deep it may be nested; `fuel` is only there to make the recursion structural. -/
def value : (fuel depth : Nat) → Str → Option (Json × Str)
  | 0, _, _ => none
  | _ + 1, _, [] => none
  | fuel + 1, depth, c :: r =>
    if c = 'n' then (expect "ull".toList r).map fun r => (.null, r)
    else if c = 't' then (expect "rue".toList r).map fun r => (.bool true, r)
    else if c = 'f' then (expect "alse".toList r).map fun r => (.bool false, r)
    else if c = '"' then (string r).map fun x => (.str x.1, x.2)
    else if c = '-' then number true r
    else if c.isDigit then number false (c :: r)
    else if c = '[' then
      match depth with
      | 0 => none
      | depth + 1 =>
        match skipWs r with
        | ']' :: r => some (.arr [], r)
        | r => do
          let (x, r) ← value fuel depth r
          let (xs, r) ← elements fuel depth (skipWs r)
          some (.arr (x :: xs), r)
    else if c = '{' then
      match depth with
      | 0 => none
      | depth + 1 =>
        match skipWs r with
        | '}' :: r => some (.obj [], r)
        | r => do
          let (m, r) ← member fuel depth r
          let (ms, r) ← entries fuel depth (skipWs r)
          some (.obj (m :: ms), r)
    else none
/-- A member of an object. -/
def member : (fuel depth : Nat) → Str → Option ((Str × Json) × Str)
  | 0, _, _ => none
  | fuel + 1, depth, s =>
    match s with
    | '"' :: r => do
      let (k, r) ← string r
      match skipWs r with
      | ':' :: r => do
        let (x, r) ← value fuel depth (skipWs r)
        some ((k, x), r)
      | _ => none
    | _ => none
/-- The other elements of an array. -/
def elements : (fuel depth : Nat) → Str → Option (List Json × Str)
  | 0, _, _ => none
  | fuel + 1, depth, s =>
    match s with
    | ']' :: r => some ([], r)
    | ',' :: r => do
      let (x, r) ← value fuel depth (skipWs r)
      let (xs, r) ← elements fuel depth (skipWs r)
      some (x :: xs, r)
    | _ => none
/-- The other members of an object. -/
def entries : (fuel depth : Nat) → Str → Option (List (Str × Json) × Str)
  | 0, _, _ => none
  | fuel + 1, depth, s =>
    match s with
    | '}' :: r => some ([], r)
    | ',' :: r => do
      let (m, r) ← member fuel depth (skipWs r)
      let (ms, r) ← entries fuel depth (skipWs r)
      some (m :: ms, r)
    | _ => none
end

/-- `serde_json::from_str`: white space around the document is ignored, anything else behind it is an
error.  At most 127 levels (the limit of serde_json). -/
def parse (s : Str) : Option Json :=
  match value (2 * s.length + 1) 127 (skipWs s) with
  | some (j, r) => if skipWs r = [] then some j else none
  | none => none

end Htrpc.JsonCodec
