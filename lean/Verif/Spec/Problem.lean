/-
What is expected of problem documents (RFC 7807), independently of the derived code.
-/
import Verif.Model.Problem

namespace Htrpc.Spec

/-- The values of the members with this name. -/
def members (ms : List (Str × Json)) (key : Str) : List Json :=
  (ms.filter fun m => decide (m.1 = key)).map Prod.snd

/-- An optional member: missing or null, or there with a value that means `a`. -/
def OptMember {α : Type} (means : Json → α → Prop) (js : List Json) : Option α → Prop
  | none => js = [] ∨ js = [.null]
  | some a => ∃ j, js = [j] ∧ means j a

variable [UrlText]

/-- The members of an object describe a problem: exactly one type, title and status, at most one of
each optional member; other members do not matter, nor does the order. -/
def Describes (ms : List (Str × Json)) : Problem → Prop
  | .aboutBlank p =>
    members ms "type".toList = [.str "about:blank".toList] ∧
    members ms "title".toList = [.str p.title] ∧
    members ms "status".toList = [.num p.status.toNat]
  | .trackable p =>
    members ms "type".toList = [.str
      "https://docs.rs/htrpc/0.0.2/htrpc/rfc7807/struct.TrackableProblem.html".toList] ∧
    members ms "title".toList = [.str p.title] ∧
    members ms "status".toList = [.num p.status.toNat] ∧
    OptMember (fun j s => j = .str s) (members ms "detail".toList) p.detail ∧
    OptMember (fun j u => ∃ s, j = .str s ∧ UrlText.parse s = some u)
      (members ms "instance".toList) p.inst ∧
    OptMember (fun j h => j = .arr (h.map .str)) (members ms "history".toList) p.history

/-- The elements of an array describe a problem: type, title and status, then the optional ones,
which may be missing from the end. -/
def DescribesArray (xs : List Json) : Problem → Prop
  | .aboutBlank p => xs = [.str "about:blank".toList, .str p.title, .num p.status.toNat]
  | .trackable p => ∃ rest, rest.length ≤ 3 ∧ xs =
      .str "https://docs.rs/htrpc/0.0.2/htrpc/rfc7807/struct.TrackableProblem.html".toList ::
        .str p.title :: .num p.status.toNat :: rest ∧
      OptMember (fun j s => j = .str s) rest[0]?.toList p.detail ∧
      OptMember (fun j u => ∃ s, j = .str s ∧ UrlText.parse s = some u) rest[1]?.toList p.inst ∧
      OptMember (fun j h => j = .arr (h.map .str)) rest[2]?.toList p.history

/-- A JSON value which stands for a problem: an object as in RFC 7807, or an array. -/
inductive IsProblem : Json → Problem → Prop where
  | obj {ms p} : Describes ms p → IsProblem (.obj ms) p
  | arr {xs p} : DescribesArray xs p → IsProblem (.arr xs) p

variable [JsonText]

/-- The bytes are a JSON document which stands for `p`. -/
def IsDocument (b : Bytes) (p : Problem) : Prop := ∃ j, JsonText.parse b = some j ∧ IsProblem j p

/-- A response made by `into_response` from `p`, after any number of changes of its problem, which
is now `q`. -/
inductive Made (p : Problem) : Problem → ProblemResponse → Prop where
  | new : Made p p (.ofProblem p)
  | setProblem {q r} (q') : Made p q r → Made p q' (r.setProblem q')
  | setBody {q r} (b q') : Made p q r → IsDocument b q' → Made p q' (r.setBody b)
  | badBody {q r} (b) : Made p q r → (∀ q', ¬ IsDocument b q') → Made p q (r.setBody b)

end Htrpc.Spec
