/-
The reader of bodies (src/server.rs:64-67, 82, 213, 231; src/client.rs:107-109) for messages that have no
length but are sent in chunks.

`BodyReader` (src/lib.rs:21-33) is a type of miasht: besides `FixedLength` it has a variant that decodes the
transfer encoding `chunked` of HTTP/1.1 (RFC 7230, 4.1).  `Model/Http` leaves it out; here it is added.
Everything that is shown for any `Wire` holds for this one too.
-/
import Verif.Model.Http
import Verif.Model.Limits

namespace Htrpc.Http

/-- The bytes up to the end of the line, and what follows; `none` if the line is not complete.  `cur` is its
beginning. -/
def readLine (cur : Bytes) : Bytes → Option (Bytes × Bytes)
  | [] => none
  | [_] => none
  | a :: b :: r => if a = 13 ∧ b = 10 then some (cur, r) else readLine (cur ++ [a]) (b :: r)

theorem readLine_length {cur bs l rest : Bytes} (h : readLine cur bs = some (l, rest)) :
    rest.length < bs.length := by
  fun_induction readLine cur bs with
  | case1 => cases h
  | case2 => cases h
  | case3 a b r _ => cases h; simp only [List.length_cons]; omega
  | case4 cur a b r _ ih => have := ih h; simp only [List.length_cons] at this ⊢; omega

/-- The value of a byte as a hexadecimal digit. -/
def hexByte (b : UInt8) : Option Nat := hexVal (Char.ofNat b.toNat)

/-- The size of a chunk from its first line: hexadecimal digits, and perhaps an extension behind a
semicolon. -/
def chunkSize (line : Bytes) : Option Nat :=
  let ds := line.takeWhile (· ≠ 59)
  if ds ≠ [] ∧ (line.dropWhile (· ≠ 59)).all isField then
    ds.foldl (fun n b => n.bind fun n => (hexByte b).map (16 * n + ·)) (some 0)
  else none

/-- What is behind the last chunk: header lines, which are ignored, and an empty line. -/
def readTrailer (bs : Bytes) : Parsed Bytes :=
  match readLines [] bs with
  | none => .more
  | some (ls, rest) => if (readHeaders ls).isSome then .done [] rest else .bad

/-- A body in chunks. -/
def readChunks (bs : Bytes) : Parsed Bytes :=
  match _h : readLine [] bs with
  | none => .more
  | some (l, rest) =>
    match chunkSize l with
    | none => .bad
    | some 0 => readTrailer rest
    | some (n + 1) =>
      if rest.length < n + 3 then .more
      else if (rest.drop (n + 1)).take 2 = crlf then
        match readChunks (rest.drop (n + 3)) with
        | .done b r => .done (rest.take (n + 1) ++ b) r
        | .more => .more
        | .bad => .bad
      else .bad
termination_by bs.length
decreasing_by
  have := readLine_length ‹_›
  simp only [List.length_drop]
  omega

/-- The body that belongs to these headers, `none` if they make no sense: a transfer encoding, of which only
`chunked` is known, goes before a length. -/
def bodyReader (hs : List Header) : Option (Bytes → Parsed Bytes) :=
  match header? "transfer-encoding" hs with
  | some v => if lowerName v = utf8 "chunked".toList then some readChunks else none
  | none => readBody hs

/-- `hear` with this reader. -/
def hearChunked (m : Method) (bs : Bytes) : List IoResult :=
  match readResponseHead bs with
  | .more => []
  | .bad => [.failed]
  | .done (c, hs) rest => .head c hs ::
    if m = .head then []
    else
      match bodyReader hs with
      | none => [.failed]
      | some f =>
        match f rest with
        | .more => []
        | .bad => [.failed]
        | .done b _ => [.body b]

end Htrpc.Http
