/-
The parts of the `url` crate (version 2) used by htrpc, and `src/misc.rs`.

Nothing here except `parseRelativeUrl` is code of htrpc: these definitions are the *contract* of
the `url`, `percent-encoding` and `form_urlencoded` crates assumed by the model.  Parsing of the
authority part (`//host:port`) and of `file:` URLs is left to an arbitrary oracle.
-/
import Verif.Model.Text

namespace Htrpc

/-! ### Splitting -/

/-- `str::split(pred)`: pieces between separators, always at least one. -/
def splitBy (p : Char → Bool) : Str → List Str
  | [] => [[]]
  | c :: cs =>
    if p c then [] :: splitBy p cs
    else
      match splitBy p cs with
      | [] => [[c]]
      | s :: ss => (c :: s) :: ss

/-- `splitn(2, sep)`: the text before the first separator and the text after it (empty if there
is none). -/
def cut (sep : Char) : Str → Str × Str
  | [] => ([], [])
  | c :: cs => if c = sep then ([], cs) else let r := cut sep cs; (c :: r.1, r.2)

/-! ### Percent encoding -/

/-- Upper case hexadecimal digit. -/
def hexDigit (n : Nat) : Char :=
  if n < 10 then Char.ofNat (48 + n) else Char.ofNat (55 + n)

/-- Value of a hexadecimal digit of either case (`char::to_digit(16)`). -/
def hexVal (c : Char) : Option Nat :=
  let n := c.toNat
  if 48 ≤ n ∧ n ≤ 57 then some (n - 48)
  else if 65 ≤ n ∧ n ≤ 70 then some (n - 55)
  else if 97 ≤ n ∧ n ≤ 102 then some (n - 87)
  else none

/-- `%XX`. -/
def pctByte (b : UInt8) : Str := ['%', hexDigit (b.toNat / 16), hexDigit (b.toNat % 16)]

/-- `percent_encoding::utf8_percent_encode`: bytes with `keep` stay, the others become `%XX`. -/
def pctEncode (keep : UInt8 → Bool) (bs : Bytes) : Str :=
  bs.flatMap fun b => if keep b then [Char.ofNat b.toNat] else pctByte b

/-- Printable ASCII without blank. -/
def isGraphic (b : UInt8) : Bool := decide (0x21 ≤ b.toNat) && decide (b.toNat < 0x7F)

/-- Complement of `PATH` (url crate, `parser.rs`): bytes kept when parsing a path. -/
def keepPath (b : UInt8) : Bool :=
  isGraphic b && !("\"<>`#?{}^".toList.contains (Char.ofNat b.toNat))

/-- Complement of `SPECIAL_PATH_SEGMENT`: bytes kept by `PathSegmentsMut::push` on an http URL. -/
def keepSegment (b : UInt8) : Bool :=
  keepPath b && !("/%\\".toList.contains (Char.ofNat b.toNat))

/-- Complement of `SPECIAL_QUERY`: bytes kept when parsing a query. -/
def keepQuery (b : UInt8) : Bool :=
  isGraphic b && !("\"#<>'".toList.contains (Char.ofNat b.toNat))

/-- `percent_encoding::percent_decode`: `%` with two hexadecimal digits is a byte, everything else
stands for itself. -/
def pctDecode : Str → Bytes
  | '%' :: h :: l :: cs =>
    match hexVal h, hexVal l with
    | some a, some b => UInt8.ofNat (a * 16 + b) :: pctDecode cs
    | _, _ => utf8Char '%' ++ pctDecode (h :: l :: cs)
  | c :: cs => utf8Char c ++ pctDecode cs
  | [] => []

/-! ### Pushing path segments -/

/-- Tab, newline, carriage return: skipped by every `url` parser loop. -/
def isTabNl (c : Char) : Bool := c == '\t' || c == '\n' || c == '\r'

/-- Text of a segment as written by `PathSegmentsMut::push`. -/
def encodeSegment (s : Str) : Str := pctEncode keepSegment (utf8 (s.filter fun c => !isTabNl c))

/-- Everything up to and including the last `/`. -/
def upToLastSlash (p : Str) : Str := ((p.reverse.dropWhile (· ≠ '/')).reverse)

/-- `PathSegmentsMut::push` on the path text of an http URL (which starts with `/`):
`.` and `..` are ignored; a separator is written unless the path is just `/`; then the encoded
segment is written by the path parser, which still gives `.` and `..` their special meaning when
they arise by dropping tabs and newlines. -/
def pushSegment (path seg : Str) : Str :=
  if seg = ".".toList ∨ seg = "..".toList then path
  else
    let p := if path.length = 1 then path else path ++ ['/']
    let e := encodeSegment seg
    if e = "..".toList then
      if p.length = 1 then p else upToLastSlash p.dropLast
    else if e = ".".toList then p
    else p ++ e

/-- `Url::path_segments` on the path text: pieces after the initial `/`; `none` if there is no
initial `/`. -/
def pathSegments : Str → Option (List Str)
  | '/' :: cs => some (splitBy (· == '/') cs)
  | _ => none

/-! ### Form encoding of queries -/

/-- Bytes left alone by `form_urlencoded::byte_serialize`. -/
def keepForm (b : UInt8) : Bool :=
  let c := Char.ofNat b.toNat
  decide (b.toNat < 0x80) && (c.isAlphanum || c == '*' || c == '-' || c == '.' || c == '_')

/-- `form_urlencoded::byte_serialize`. -/
def formEncode (s : Str) : Str :=
  (utf8 s).flatMap fun b =>
    if keepForm b then [Char.ofNat b.toNat]
    else if b = 0x20 then ['+']
    else pctByte b

/-- `form_urlencoded::Serializer::append_pair` on the text written so far. -/
def appendPair (out k v : Str) : Str :=
  (if out = [] then [] else out ++ ['&']) ++ formEncode k ++ ['='] ++ formEncode v

/-- `form_urlencoded::decode`. -/
def formDecode (s : Str) : Str :=
  utf8Lossy (pctDecode (s.map fun c => if c = '+' then ' ' else c))

/-- `form_urlencoded::parse` = `Url::query_pairs`. -/
def formParse (q : Str) : List (Str × Str) :=
  ((splitBy (· == '&') q).filter (· ≠ [])).map fun p =>
    let kv := cut '=' p
    (formDecode kv.1, formDecode kv.2)

/-! ### Parsing a request target -/

/-- What htrpc looks at in a parsed URL: `path_segments()` (`none` if the path does not start with
`/`) and `query()`. -/
structure Target where
  segs : Option (List Str)
  query : Option Str
deriving DecidableEq, Repr

/-- The parts of URL parsing that are left open: authorities and `file:` URLs. -/
structure UrlOracle where
  hier : Str → Option Target

/-- A single-dot segment. -/
def isDot (s : Str) : Bool :=
  s == ".".toList || s == "%2e".toList || s == "%2E".toList

/-- A double-dot segment. -/
def isDotDot (s : Str) : Bool :=
  s == "..".toList ||
  s == ".%2e".toList || s == ".%2E".toList || s == "%2e.".toList || s == "%2E.".toList ||
  s == "%2e%2e".toList || s == "%2e%2E".toList || s == "%2E%2e".toList || s == "%2E%2E".toList

/-- Resolution of dot segments while parsing a path: `out` are the finished segments. -/
def normSegs (out : List Str) : List Str → List Str
  | [] => out
  | [r] =>
    let e := pctEncode keepPath (utf8 r)
    if isDotDot e then out.dropLast ++ [[]]
    else if isDot e then out ++ [[]]
    else out ++ [e]
  | r :: rs =>
    let e := pctEncode keepPath (utf8 r)
    if isDotDot e then normSegs out.dropLast rs
    else if isDot e then normSegs out rs
    else normSegs (out ++ [e]) rs

/-- Path, query (and ignored fragment) after the first `/`. -/
def pathQuery (special : Bool) (r : Str) : Target :=
  let p := r.takeWhile fun c => c ≠ '?' ∧ c ≠ '#'
  let rest := r.dropWhile fun c => c ≠ '?' ∧ c ≠ '#'
  { segs := some (normSegs [] (splitBy (fun c => c == '/' || (special && c == '\\')) p))
    query :=
      match rest with
      | '?' :: q => some (pctEncode keepQuery (utf8 (q.takeWhile (· ≠ '#'))))
      | _ => none }

/-- A scheme and what follows its colon. -/
def parseSchemeAux : Str → Option (Str × Str)
  | [] => none
  | c :: cs =>
    if c = ':' then some ([], cs)
    else if c.isAlphanum ∨ c = '+' ∨ c = '-' ∨ c = '.' then
      (parseSchemeAux cs).map fun r => (c.toLower :: r.1, r.2)
    else none

/-- A scheme starts with a letter. -/
def parseScheme (s : Str) : Option (Str × Str) :=
  match s with
  | c :: _ => if c.isAlpha then parseSchemeAux s else none
  | [] => none

/-- `/` or, in special URLs, `\`. -/
def isSlash (c : Char) : Bool := c == '/' || c == '\\'

/-- Resolution against the base `http://foo/`. -/
def parseAgainstBase (o : UrlOracle) (s : Str) : Option Target :=
  match s with
  | [] => some ⟨some [[]], none⟩
  | c :: r =>
    if isSlash c then
      match r with
      | d :: _ => if isSlash d then o.hier s else some (pathQuery true r)
      | [] => some (pathQuery true r)
    else some (pathQuery true s)

/-- Schemes with special treatment, other than `file`. -/
def specialSchemes : List Str :=
  ["http".toList, "https".toList, "ws".toList, "wss".toList, "ftp".toList]

/-- src/misc.rs:6-24 `parse_relative_url`: `Url::options().base_url("http://foo/").parse(..)`.
`none` is a parse error. -/
def parseTarget (o : UrlOracle) (t : Str) : Option Target :=
  let isC0 := fun c : Char => decide (c.toNat ≤ 0x20)
  let trimmed := ((t.dropWhile isC0).reverse.dropWhile isC0).reverse
  let s := trimmed.filter fun c => !isTabNl c
  match parseScheme s with
  | none => parseAgainstBase o s
  | some (scheme, rest) =>
    if scheme = "file".toList then o.hier s
    else if scheme ∈ specialSchemes then
      if scheme = "http".toList ∧ ¬ (rest.length ≥ 2 ∧ (rest.take 2).all isSlash) then
        parseAgainstBase o rest
      else o.hier s
    else
      match rest with
      | '/' :: '/' :: _ => o.hier s
      | '/' :: r => some (pathQuery false r)
      | r => some ⟨none, (pathQuery false r).query⟩

/-- src/misc.rs:6-24: parse errors become `Invalid` (src/error.rs:56-60). -/
def parseRelativeUrl (o : UrlOracle) (t : Str) : Res Target := Res.ofOption (parseTarget o t)

end Htrpc
