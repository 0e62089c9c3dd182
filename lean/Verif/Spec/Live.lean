/-
What it takes that a connection of the server makes progress.
-/
import Verif.Spec.Server

namespace Htrpc.Spec

variable [FloatText] [UrlText] [JsonText] [Wire]

/-- Nothing fails from outside: establishing the connection, reading, `read_body` of the user and
writing; and the handlers return responses. -/
def Smooth (cfg : ServerCfg) : ConnState → List ConnEvent → Prop
  | _, [] => True
  | c, e :: es =>
    (e ≠ .connected false ∧ e ≠ .close .failure ∧ e ≠ .bodyFailed ∧ e ≠ .written false ∧
      ∀ v body, e = .handled v body → c.phase = .handling → ∃ r, serResponse v body = .ok r) ∧
    Smooth cfg (c.step cfg e).1 es

/-- The result that a connection waits for: that it is established, that bytes are read, that
`read_body` of the user is done with the body that has arrived, that the handler is done, that the
response is written. -/
inductive Awaited (c : ConnState) : ConnEvent → Prop where
  | connected : c.phase = .connecting → Awaited c (.connected true)
  | head : c.phase = .readHead → Awaited c .input
  | drain {h p} : c.phase = .refusing h p → Awaited c .input
  | body {h s v w f b rest} : c.phase = .readBody h s v → Wire.body h.headers = some f →
      f c.input = .done b rest → Awaited c (.bodyRead w rest)
  | handled {v body} : c.phase = .handling → Awaited c (.handled v body)
  | written : c.phase = .writing → Awaited c (.written true)

/-- All these requests were read, and all responses have been written completely. -/
def AllAnswered (ms : List (ReqHead × Bytes)) (log : List ConnEffect) : Prop :=
  reads log = ms.map Prod.fst ∧ writtenCount log = ms.length

/-- The first events of an infinite history. -/
def upTo {α : Type} (σ : Nat → α) (n : Nat) : List α := (List.range n).map σ

/-- In an infinite history, a connection does not wait for ever for what can happen: what it waits for
happens some time, or it does not wait any more. -/
def Fair (cfg : ServerCfg) (σ : Nat → ConnEvent) : Prop :=
  ∀ n, (∃ e, Awaited (ConnState.run cfg .new (upTo σ n)).1 e) →
    ∃ m, n ≤ m ∧ (Awaited (ConnState.run cfg .new (upTo σ m)).1 (σ m) ∨
      ¬ ∃ e, Awaited (ConnState.run cfg .new (upTo σ m)).1 e)

end Htrpc.Spec
