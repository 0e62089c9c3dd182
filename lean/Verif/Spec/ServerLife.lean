/-
The life of a server, from binding its address to the end of its future.
-/
import Verif.Model.Server

namespace Htrpc.Spec

/-- The address is bound, or this failed. -/
def isBound : ServerEvent → Bool
  | .bound _ => true
  | _ => false

/-- The listener fails or ends. -/
def listenerStops : ServerEvent → Bool
  | .listenFailed | .listenEnded => true
  | _ => false

def isClient : ServerEvent → Bool
  | .client => true
  | _ => false

/-- An effect of the server itself. -/
def ofServer : ServerEffect → Bool
  | .conn _ _ => false
  | _ => true

/-- What is to be seen of a server: it fails if the address cannot be bound. Otherwise it starts, accepts
clients in their order until the listener stops, and then fails. -/
def serverLife (es : List ServerEvent) : List ServerEffect :=
  match es.dropWhile (fun e => !isBound e) with
  | [] => []
  | .bound false :: _ => [.failed .other]
  | _ :: es =>
    .started :: ((List.range ((es.takeWhile fun e => !listenerStops e).countP isClient)).map .spawned ++
      match es.dropWhile fun e => !listenerStops e with
      | [] => []
      | .listenEnded :: _ => [.failed .invalid]
      | _ => [.failed .other])

end Htrpc.Spec
