/-
The limits that the server gives to the reader of requests (src/server.rs:151), and those of the reader of
responses.

`Connection::new(stream, 1024, 8096, 32)`: at first 1024 and at most 8096 bytes of buffer, and at most 32
headers.  A head that does not fit into the buffer, and a head with more headers, is an error of
`read_request`.  As in `Model/Http`, too many headers are noticed when the head is complete.  The body of a
request does not have to fit into the buffer.

The client leaves the limits of its reader to miasht (src/client.rs:36-41), so they are parameters here.
-/
import Verif.Model.Http
import Verif.Model.Server

namespace Htrpc

/-- The result of reading these bytes with a buffer of `size` bytes and room for `count` headers, given the
result of reading them without limits. -/
def limitHead (size count : Nat) (bs : Bytes) : Parsed ReqHead → Parsed ReqHead
  | .done h rest =>
    if bs.length - rest.length ≤ size ∧ h.headers.length ≤ count then .done h rest else .bad
  | .more => if size ≤ bs.length then .bad else .more
  | .bad => .bad

/-- src/server.rs:151: the size of the buffer. -/
def maxHeadSize : Nat := 8096

/-- src/server.rs:151: the number of headers. -/
def maxHeaders : Nat := 32

namespace Http

/-- `hear` with a reader of responses (src/client.rs:99-103) that has a buffer of `size` bytes for the head
and room for `count` headers. -/
def hearWithin (size count : Nat) (m : Method) (bs : Bytes) : List IoResult :=
  match readResponseHead bs with
  | .more => if size ≤ bs.length then [.failed] else []
  | .bad => [.failed]
  | .done (_, hs) rest =>
    if bs.length - rest.length ≤ size ∧ hs.length ≤ count then hear m bs else [.failed]

end Http

end Htrpc
