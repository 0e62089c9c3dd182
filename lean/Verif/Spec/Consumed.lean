/-
Which of the received bytes a server has read for which request, whatever `read_body` of the users
leaves unread.
-/
import Verif.Spec.Server

namespace Htrpc.Spec

/-- Heads and bodies are made of the first bytes only, and the others do not matter. -/
class CutWire [Wire] : Prop where
  head_cut : ∀ bs h rest, Wire.head bs = .done h rest →
    ∃ hb, bs = hb ++ rest ∧ ∀ more, Wire.head (hb ++ more) = .done h more
  body_cut : ∀ hs f bs b rest, Wire.body hs = some f → f bs = .done b rest →
    ∃ bb, bs = bb ++ rest ∧ ∀ more, f (bb ++ more) = .done b more

variable [Wire]

/-- The bytes of the head of a request. -/
def HeadBytes (h : ReqHead) (hb : Bytes) : Prop := ∀ more, Wire.head (hb ++ more) = .done h more

/-- Requests read one after another from these bytes.  For each of them some bytes are its head; the
next ones belong to its body: all of it, if the server has dropped it, and as much as `read_body`
wanted, but not more than the body, if a handler was called; and the next request follows. -/
inductive Consumed : List (ReqHead × BodyUse) → Bytes → Prop where
  | none {bytes} : Consumed [] bytes
  | pending {h hb bytes} : HeadBytes h hb → Consumed [(h, .pending)] (hb ++ bytes)
  | dropped {h hb f b bb l bytes} : HeadBytes h hb → Wire.body h.headers = some f →
      (∀ more, f (bb ++ more) = .done b more) → Consumed l bytes →
      Consumed ((h, .dropped b) :: l) (hb ++ (bb ++ bytes))
  | handed {h hb f s v w bb l bytes} : HeadBytes h hb → Wire.body h.headers = some f →
      (∀ b after, f (bb ++ bytes) = .done b after → after <:+ bytes) → Consumed l bytes →
      Consumed ((h, .handed s v w) :: l) (hb ++ (bb ++ bytes))

end Htrpc.Spec
