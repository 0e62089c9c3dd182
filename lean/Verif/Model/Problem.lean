/-
src/rfc7807.rs: problem documents and problem responses.
-/
import Verif.Model.Json
import Verif.Model.Serde
import Verif.Model.Status

namespace Htrpc

/-- src/rfc7807.rs:180-186 `AboutBlankProblem`. -/
structure AboutBlankProblem where
  title : Str
  status : UInt16
deriving DecidableEq, Repr

/-- src/rfc7807.rs:199-221 `TrackableProblem`. -/
structure TrackableProblem [UrlText] where
  title : Str
  status : UInt16
  detail : Option Str
  inst : Option UrlText.Url
  history : Option (List Str)

/-- src/rfc7807.rs:118-127 `Problem`. -/
inductive Problem [UrlText] where
  | aboutBlank (p : AboutBlankProblem)
  | trackable (p : TrackableProblem)

namespace Problem
variable [UrlText]

/-- src/rfc7807.rs:188-194, 130-132 `about_blank`.  The reason phrases are those of miasht. -/
def newAboutBlank (phrase : Status → Str) (s : Status) : Problem :=
  .aboutBlank { title := phrase s, status := UInt16.ofNat s.code }

/-- src/rfc7807.rs:224-237, 135-141 `trackable`, for an error with this description, source and
history. -/
def newTrackable (s : Status) (title : Str) (source : Option Str) (events : Option (List Str)) :
    Problem :=
  .trackable
    { title, status := UInt16.ofNat s.code, detail := source, inst := none, history := events }

/-- src/rfc7807.rs:148-153 `get_status_code`. -/
def statusCode : Problem → UInt16
  | .aboutBlank p => p.status
  | .trackable p => p.status

/-- src/rfc7807.rs:155-159 `Default`. -/
def default (phrase : Status → Str) : Problem := newAboutBlank phrase .internalServerError

/-- src/rfc7807.rs:121. -/
def aboutBlankTag : Str := "about:blank".toList

/-- src/rfc7807.rs:125. -/
def trackableTag : Str :=
  "https://docs.rs/htrpc/0.0.2/htrpc/rfc7807/struct.TrackableProblem.html".toList

/-- A member that is left out if there is no value (`skip_serializing_if`). -/
def optMember {α : Type} (key : Str) (f : α → Json) : Option α → List (Str × Json)
  | none => []
  | some a => [(key, f a)]

/-- `Serialize` of `Problem`, derived with `tag = "type"` (src/rfc7807.rs:118-119): the tag first,
then the members of the struct. -/
def toJson : Problem → Json
  | .aboutBlank p => .obj
    [("type".toList, .str aboutBlankTag), ("title".toList, .str p.title),
     ("status".toList, .num p.status.toNat)]
  | .trackable p => .obj (
    [("type".toList, .str trackableTag), ("title".toList, .str p.title),
     ("status".toList, .num p.status.toNat)] ++
    optMember "detail".toList .str p.detail ++
    optMember "instance".toList (fun u => .str (UrlText.text u)) p.inst ++
    optMember "history".toList (fun h => .arr (h.map .str)) p.history)

/-- `Deserialize` of `String`. -/
def readStr : Json → Option Str
  | .str s => some s
  | _ => none

/-- `Deserialize` of `u16`. -/
def readU16 : Json → Option UInt16
  | .num i => if 0 ≤ i ∧ i ≤ 65535 then some (UInt16.ofNat i.toNat) else none
  | _ => none

/-- `Deserialize` of `Option`. -/
def readOpt {α : Type} (f : Json → Option α) : Json → Option (Option α)
  | .null => some none
  | j => (f j).map some

/-- `Deserialize` of `Url`. -/
def readUrl : Json → Option UrlText.Url
  | .str s => UrlText.parse s
  | _ => none

/-- `Deserialize` of `Vec<String>`. -/
def readStrs : Json → Option (List Str)
  | .arr xs => xs.mapM readStr
  | _ => none

/-- The fields read so far by the derived visitors. -/
structure Fields where
  title : Option Str
  status : Option UInt16
  detail : Option (Option Str)
  inst : Option (Option UrlText.Url)
  history : Option (Option (List Str))

/-- No field read yet. -/
def Fields.new : Fields := ⟨none, none, none, none, none⟩

/-- Fill a field; a field that is already there is an error (`duplicate_field`). -/
def once {α : Type} (old : Option α) (read : Json → Option α) (j : Json) : Option (Option α) :=
  match old with
  | some _ => none
  | none => (read j).map some

/-- One member for the derived visitor of `AboutBlankProblem`; others are ignored. -/
def stepAboutBlank (f : Fields) (key : Str) (j : Json) : Option Fields :=
  if key = "title".toList then do .some { f with title := ← once f.title readStr j }
  else if key = "status".toList then do .some { f with status := ← once f.status readU16 j }
  else some f

/-- One member for the derived visitor of `TrackableProblem`; others are ignored. -/
def stepTrackable (f : Fields) (key : Str) (j : Json) : Option Fields :=
  if key = "title".toList then do .some { f with title := ← once f.title readStr j }
  else if key = "status".toList then do .some { f with status := ← once f.status readU16 j }
  else if key = "detail".toList then do
    .some { f with detail := ← once f.detail (readOpt readStr) j }
  else if key = "instance".toList then do
    .some { f with inst := ← once f.inst (readOpt readUrl) j }
  else if key = "history".toList then do
    .some { f with history := ← once f.history (readOpt readStrs) j }
  else some f

/-- The loop of `visit_map`. -/
def visitMembers (step : Fields → Str → Json → Option Fields) :
    List (Str × Json) → Fields → Option Fields
  | [], f => some f
  | (k, j) :: ms, f => do visitMembers step ms (← step f k j)

/-- The end of the derived visitor: title and status must be there. -/
def finishAboutBlank (f : Fields) : Option Problem := do
  let title ← f.title
  let status ← f.status
  .some (.aboutBlank { title, status })

/-- The end of the derived visitor: the other fields have a default. -/
def finishTrackable (f : Fields) : Option Problem := do
  let title ← f.title
  let status ← f.status
  .some (.trackable { title, status, detail := f.detail.getD none, inst := f.inst.getD none,
                      history := f.history.getD none })

/-- The variants of `Problem`. -/
inductive Tag where
  | aboutBlank | trackable
deriving DecidableEq, Repr

/-- The tag: a string naming a variant. -/
def readTag : Json → Option Tag
  | .str s =>
    if s = aboutBlankTag then some .aboutBlank
    else if s = trackableTag then some .trackable
    else none
  | _ => none

/-- serde's `TaggedContentVisitor::visit_map`: the tag, which must occur once, and the other
members in order. -/
def splitTag : List (Str × Json) → Option Tag → List (Str × Json) →
    Option (Tag × List (Str × Json))
  | [], tag, rest => do .some (← tag, rest)
  | (k, j) :: ms, tag, rest =>
    if k = "type".toList then
      match tag with
      | some _ => none
      | none =>
        match readTag j with
        | none => none
        | some t => splitTag ms (some t) rest
    else splitTag ms tag (rest ++ [(k, j)])

/-- The struct behind the tag, from an object. -/
def ofMembers (tag : Tag) (ms : List (Str × Json)) : Option Problem :=
  match tag with
  | .aboutBlank => do finishAboutBlank (← visitMembers stepAboutBlank ms Fields.new)
  | .trackable => do finishTrackable (← visitMembers stepTrackable ms Fields.new)

/-- An optional field from an array, which has a default. -/
def element {α : Type} (read : Json → Option α) : Option Json → Option (Option α)
  | none => some none
  | some j => readOpt read j

/-- The struct behind the tag, from an array: the fields by position, optional ones may be missing
at the end, nothing may follow. -/
def ofElements (tag : Tag) (xs : List Json) : Option Problem :=
  match tag, xs with
  | .aboutBlank, [t, s] => do
    let title ← readStr t
    let status ← readU16 s
    .some (.aboutBlank { title, status })
  | .trackable, t :: s :: rest => do
    let title ← readStr t
    let status ← readU16 s
    let detail ← element readStr rest[0]?
    let inst ← element readUrl rest[1]?
    let history ← element readStrs rest[2]?
    if rest.length ≤ 3 then
      .some (.trackable { title, status, detail, inst, history })
    else none
  | _, _ => none

/-- `Deserialize` of `Problem`, derived with `tag = "type"`. -/
def ofJson : Json → Option Problem
  | .obj ms => do
    let (tag, rest) ← splitTag ms none []
    ofMembers tag rest
  | .arr (t :: xs) => do ofElements (← readTag t) xs
  | _ => none

end Problem

/-- src/rfc7807.rs:18-24 `ProblemResponse`; the header has only one value. -/
structure ProblemResponse [UrlText] where
  status : Option UInt16
  body : Problem

namespace ProblemResponse
variable [UrlText]

/-- src/rfc7807.rs:26-32 `new`, 144-146 `into_response`. -/
def ofProblem (p : Problem) : ProblemResponse := { status := some p.statusCode, body := p }

/-- src/rfc7807.rs:40-42 `set_problem`. -/
def setProblem (r : ProblemResponse) (p : Problem) : ProblemResponse := { r with body := p }

/-- src/rfc7807.rs:57-68, 172-174: the header, a unit struct as content type. -/
def headerVal : Val :=
  .struct [("content-type".toList, .unitStruct "application/problem+json".toList)]

/-- The type of the header. -/
def headerTy : Ty :=
  .struct [("content-type".toList, .unitStruct "application/problem+json".toList)]

/-- `Serialize` of `ProblemResponse`; the body is skipped (src/rfc7807.rs:18-24). -/
def toVal (r : ProblemResponse) : Val :=
  .struct [("status".toList, match r.status with
      | some c => .some (.int .u16 c.toNat)
      | none => .none),
    ("header".toList, headerVal)]

/-- `Deserialize` of `ProblemResponse`; the body is skipped. -/
def ty : Ty := .struct [("status".toList, .option (.int .u16)), ("header".toList, headerTy)]

/-- src/rfc7807.rs:45-48 `RpcResponse::body`. -/
def bodyBytes [JsonText] (r : ProblemResponse) : Bytes := JsonText.render r.body.toJson

/-- src/rfc7807.rs:49-54 `RpcResponse::set_body`. -/
def setBody [JsonText] (r : ProblemResponse) (b : Bytes) : ProblemResponse :=
  match (JsonText.parse b).bind Problem.ofJson with
  | some p => { r with body := p }
  | none => r

end ProblemResponse

end Htrpc
