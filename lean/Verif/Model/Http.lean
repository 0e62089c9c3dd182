/-
HTTP/1.1 messages as bytes (RFC 7230).

Nothing here is code of htrpc: miasht writes and reads the messages, and is not part of /repo.  The
other modules only assume the contract `Wire` of it; these definitions are one transport that meets
the contract, for statements about the bytes that are exchanged (src/client.rs:96-124,
src/server.rs:196-263).  Simplified: no chunked bodies, every line ends with CR LF, empty lines before a
request are not skipped, and malformed heads are noticed when they are complete.  The limits on the length
of a head are in `Model/Limits`.
-/
import Verif.Model.Client
import Verif.Model.Server

namespace Htrpc.Http

/-- The names of the methods (`miasht::Method`, src/types.rs:2). -/
class MethodNames where
  name : Method → Bytes
  ofName : Bytes → Option Method
  ofName_name : ∀ m, ofName (name m) = some m
  name_ofName : ∀ n m, ofName n = some m → n = name m
  graphic : ∀ m, ∀ b ∈ name m, isGraphic b = true

/-! ### Writing -/

/-- The end of a line. -/
def crlf : Bytes := [13, 10]

/-- `add_raw_header` (src/serializers/http_header.rs:27) and `add_header`: a header line.  The bytes
are written as they are. -/
def writeHeader (h : Header) : Bytes := h.1 ++ [58, 32] ++ h.2 ++ crlf

/-- Header lines and the empty line behind them. -/
def writeHeaders (hs : List Header) : Bytes := hs.flatMap writeHeader ++ crlf

/-- `HTTP/1.1`. -/
def version : Bytes := utf8 "HTTP/1.1".toList

/-- The first line and the headers of a request. -/
def writeHead [MethodNames] (m : Method) (target : Str) (hs : List Header) : Bytes :=
  MethodNames.name m ++ 32 :: utf8 target ++ 32 :: version ++ crlf ++ writeHeaders hs

/-- A request (src/client.rs:96-98). -/
def writeRequest [MethodNames] (r : Request) : Bytes :=
  writeHead r.method r.target r.headers ++ r.body

/-- A response (src/server.rs:245-251) with a reason phrase. -/
def writeResponse (phrase : Bytes) (r : Response) : Bytes :=
  version ++ 32 :: utf8 (showNat r.status.code) ++ 32 :: phrase ++ crlf ++
    writeHeaders r.headers ++ r.body

/-! ### Reading -/

/-- The lines up to the first empty one, and what follows; `none` if there is no empty line yet.
`cur` is the beginning of the current line. -/
def readLines (cur : Bytes) : Bytes → Option (List Bytes × Bytes)
  | [] => none
  | [_] => none
  | a :: b :: r =>
    if a = 13 ∧ b = 10 then
      if cur = [] then some ([], r)
      else (readLines [] r).map fun x => (cur :: x.1, x.2)
    else readLines (cur ++ [a]) (b :: r)

/-- Blank or tab. -/
def isBlank (b : UInt8) : Bool := b == 32 || b == 9

/-- Optional white space around a header value. -/
def trim (v : Bytes) : Bytes := ((v.dropWhile isBlank).reverse.dropWhile isBlank).reverse

/-- `tchar`: the characters of header names. -/
def isToken (b : UInt8) : Bool :=
  isGraphic b && !("\"(),/:;<=>?@[\\]{}".toList.contains (Char.ofNat b.toNat))

/-- The characters of header values. -/
def isField (b : UInt8) : Bool := b == 9 || (decide (32 ≤ b.toNat) && decide (b.toNat ≠ 127))

/-- A header line. -/
def readHeader (line : Bytes) : Option Header :=
  match line.dropWhile (· ≠ 58) with
  | [] => none
  | _ :: v =>
    let n := line.takeWhile (· ≠ 58)
    if n ≠ [] ∧ n.all isToken ∧ (trim v).all isField then some (n, trim v) else none

/-- Header lines. -/
def readHeaders : List Bytes → Option (List Header)
  | [] => some []
  | l :: ls => do
    let h ← readHeader l
    let hs ← readHeaders ls
    some (h :: hs)

/-- The first line of a request. -/
def readRequestLine [MethodNames] (line : Bytes) : Option (Method × Str) :=
  match line.dropWhile (· ≠ 32) with
  | [] => none
  | _ :: r =>
    let t := r.takeWhile (· ≠ 32)
    match r.dropWhile (· ≠ 32) with
    | [] => none
    | _ :: v =>
      if v = version ∧ t ≠ [] ∧ t.all isGraphic then
        (MethodNames.ofName (line.takeWhile (· ≠ 32))).map fun m =>
          (m, t.map fun b => Char.ofNat b.toNat)
      else none

/-- The head of a request. -/
def readHead [MethodNames] (bs : Bytes) : Parsed ReqHead :=
  match readLines [] bs with
  | none => .more
  | some ([], _) => .bad
  | some (l :: ls, rest) =>
    match readRequestLine l, readHeaders ls with
    | some (m, t), some hs => .done ⟨m, t, hs⟩ rest
    | _, _ => .bad

/-- The first line of a response: version, a code of three digits and perhaps a phrase. -/
def readStatusLine (line : Bytes) : Option Nat :=
  match line.dropWhile (· ≠ 32) with
  | [] => none
  | _ :: r =>
    let c := r.takeWhile (· ≠ 32)
    if line.takeWhile (· ≠ 32) = version ∧ c.length = 3 ∧ r.all isField then
      (fromUtf8 c).bind parseDigits
    else none

/-- The head of a response (src/client.rs:103-106): status code and headers. -/
def readResponseHead (bs : Bytes) : Parsed (Nat × List Header) :=
  match readLines [] bs with
  | none => .more
  | some ([], _) => .bad
  | some (l :: ls, rest) =>
    match readStatusLine l, readHeaders ls with
    | some c, some hs => .done (c, hs) rest
    | _, _ => .bad

/-- The first value of a header. -/
def header? (name : String) (hs : List Header) : Option Bytes :=
  (hs.find? fun h => lowerName h.1 = utf8 name.toList).map (·.2)

/-- src/lib.rs:27-33 `content_length`: what the body reader for these headers (src/server.rs:64) tells
a handler about the length, as long as it has not begun to read. -/
def fixedLength (hs : List Header) : Option Nat :=
  if (header? "transfer-encoding" hs).isSome then none
  else (header? "content-length" hs).bind fun v => (fromUtf8 v).bind parseDigits

/-- The body that belongs to these headers, `none` if they make no sense. -/
def readBody (hs : List Header) : Option (Bytes → Parsed Bytes) :=
  if (header? "transfer-encoding" hs).isSome then none
  else
    match header? "content-length" hs with
    | none => some fun bs => .done [] bs
    | some v =>
      ((fromUtf8 v).bind parseDigits).map fun n bs =>
        if n ≤ bs.length then .done (bs.take n) (bs.drop n) else .more

/-- What the phases C and D of a call with this method get (src/client.rs:101-116) when these bytes
have arrived behind the request. -/
def hear (m : Method) (bs : Bytes) : List IoResult :=
  match readResponseHead bs with
  | .more => []
  | .bad => [.failed]
  | .done (c, hs) rest => .head c hs ::
    if m = .head then []
    else
      match readBody hs with
      | none => [.failed]
      | some f =>
        match f rest with
        | .more => []
        | .bad => [.failed]
        | .done b _ => [.body b]

end Htrpc.Http
