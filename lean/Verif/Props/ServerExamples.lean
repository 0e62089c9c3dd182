/-
Cases that meet the hypotheses of the theorems in Verif/Props/Server.lean.
-/
import Verif.Props.Server
import Verif.Lemmas.ToyFloat
import Verif.Lemmas.ToyJson
import Verif.Lemmas.ToyWire

namespace Htrpc
open Spec

/-! ### Examples -/

namespace ServerExamples
open ToyJson ToyWire

/-- `GET /users/<id>`. -/
def exService : Service :=
  ⟨.other 1, [.val "users".toList, .var],
    .struct [("path".toList, .tuple [.int .u8])], 5⟩

def exCfg : ServerCfg :=
  ⟨[exService], ⟨fun _ => none⟩, fun _ => "reason".toList, fun _ => ([], none, none)⟩

/-- A request as bytes. -/
def exBytes (m : UInt8) (target : Str) (body : Bytes) : Bytes :=
  m :: UInt8.ofNat target.length :: (utf8 target ++ UInt8.ofNat body.length :: body)

def exHead (m : Method) (target : Str) (n : UInt8) : ReqHead :=
  ⟨m, target, [(contentLengthName, [n])]⟩

def exVal : Val := .struct [("path".toList, .tuple [.int .u8 7])]

/-- Two requests arrive together, are answered, and the client closes the connection. -/
def exEvents : List ConnEvent :=
  [.connected true, .input,
   .recv (exBytes 1 "/users/7".toList [9] ++ exBytes 0 "/nope".toList []),
   .notReady, .input, .bodyRead exVal (exBytes 0 "/nope".toList []),
   .handled (.unitVariant "Ok".toList) [4, 5], .written true, .input, .input, .written true,
   .close .eof, .input]

theorem ex_call : letI := toyFloat; letI := toyUrl
    Judged exCfg (exHead (.other 1) "/users/7".toList 1) (.call exService exVal) := by
  let := toyFloat
  let := toyUrl
  exact .call (t := ⟨some ["users".toList, "7".toList], none⟩)
    (segs := ["users".toList, "7".toList]) (by decide) rfl (by rfl) (by rfl)

/-- The problem for `/nope`. -/
def exNope [UrlText] : Problem := .aboutBlank { title := "reason".toList, status := 404 }

theorem ex_refuse : letI := toyFloat; letI := toyUrl
    Judged exCfg (exHead .head "/nope".toList 0) (.refuse exNope) := by
  let := toyFloat
  let := toyUrl
  exact .noPath (t := ⟨some ["nope".toList], none⟩) (segs := ["nope".toList]) (by decide) rfl (by rfl)

/-- Two exchanges and a quiet end: this meets the hypotheses of `C37_refused` and `C37_served`
(there is a block of each kind), `C38_calls_when_answered`, `C39_nth_response`,
`C39_one_response_each`, `C40_head_without_body`, `C41_nothing_after_end` and `C41_finished`. -/
theorem ex_log : letI := toyFloat; letI := toyUrl; letI := toyJson; letI := toyWire
    connLog exCfg exEvents =
      [.read (exHead (.other 1) "/users/7".toList 1),
       .invoked exService exVal exVal,
       .returned (.unitVariant "Ok".toList) [4, 5],
       .answer ⟨.ok, [contentLength [4, 5]], [4, 5]⟩,
       .written,
       .read (exHead .head "/nope".toList 0),
       .drained [],
       .answer { problemResponse .notFound exNope with body := [] },
       .written,
       .finished] := by
  let := toyFloat
  let := toyUrl
  let := toyJson
  let := toyWire
  let rest := exBytes 0 "/nope".toList []
  have h1 := C37_call_is_answered exCfg
    ⟨.readHead, .other 0, exBytes 1 "/users/7".toList [9] ++ rest, none⟩
    (exHead (.other 1) "/users/7".toList 1) exService exVal exVal _ (9 :: rest) [9] rest
    (.unitVariant "Ok".toList) [4, 5] ⟨.ok, [contentLength [4, 5]], [4, 5]⟩ rfl rfl rfl rfl ex_call
    rfl
  obtain ⟨s, hs, h2⟩ := C37_refusal_is_answered exCfg ⟨.readHead, .other 1, rest, none⟩
    (exHead .head "/nope".toList 0) exNope _ [] [] [] rfl rfl rfl rfl ex_refuse
  have hs : s = .notFound := by
    revert hs
    cases s <;> first | (intro; rfl) | (intro h; exact absurd h (by decide))
  subst hs
  have e : exEvents = [.connected true, .input,
        .recv (exBytes 1 "/users/7".toList [9] ++ rest), .notReady] ++
      ([.input, .bodyRead exVal rest, .handled (.unitVariant "Ok".toList) [4, 5], .written true] ++
        ([.input, .input, .written true] ++ [.close .eof, .input])) := rfl
  have h0 : ConnState.run exCfg .new [.connected true, .input,
        .recv (exBytes 1 "/users/7".toList [9] ++ rest), .notReady] =
      (⟨.readHead, .other 0, exBytes 1 "/users/7".toList [9] ++ rest, none⟩, []) := rfl
  have h3 : ConnState.run exCfg ⟨.readHead, .head, [], none⟩ [.close .eof, .input] =
      (⟨.finished, .head, [], some .eof⟩, [.finished]) := rfl
  rw [connLog, e, conn_run_append, h0, conn_run_append]
  simp only [h1, conn_run_append]
  rw [show (exHead (.other 1) "/users/7".toList 1).method = .other 1 from rfl, h2,
    show (exHead .head "/nope".toList 0).method = .head from rfl]
  simp only [h3]
  rfl

/-- Not all of the body has arrived when the client closes the connection. -/
example : letI := toyFloat; letI := toyUrl; letI := toyJson; letI := toyWire
    connLog exCfg [.connected true, .recv ((exBytes 1 "/nope".toList [3]).dropLast), .input,
      .input, .close .eof, .input, .input] =
      [.read (exHead (.other 1) "/nope".toList 1), .warned] := by
  rfl

/-- `C42`: a target without a path makes the server panic; with a slash in front it does not. -/
example : letI := toyFloat; letI := toyUrl; letI := toyJson; letI := toyWire
    connLog exCfg [.connected true, .recv (exBytes 1 "a:b".toList []), .input] =
      [.read (exHead (.other 1) "a:b".toList 0), .panicked] ∧
    Pathless exCfg (exHead (.other 1) "a:b".toList 0) := by
  let := toyFloat
  let := toyUrl
  let := toyJson
  let := toyWire
  exact ⟨rfl, C42_pathless_target exCfg (exHead (.other 1) "a:b".toList 0) ['a'] ['b']
    (by decide) (by decide) (by decide) (by decide) (by decide)⟩

/-- `C43`: these are two messages, the first with a body. -/
theorem ex_messages : letI := toyWire
    Messages [(exHead (.other 1) "/users/7".toList 1, [9]), (exHead .head "/nope".toList 0, [])]
      (exBytes 1 "/users/7".toList [9] ++ exBytes 0 "/nope".toList []) := by
  let := toyWire
  have h : exBytes 0 "/nope".toList [] = exBytes 0 "/nope".toList [] ++ [] := by simp
  rw [h]
  refine .cons ⟨1 :: 8 :: (utf8 "/users/7".toList ++ [1]), [9], rfl, fun more => rfl, _, rfl,
    fun more => ?_⟩ (.cons ⟨0 :: 5 :: (utf8 "/nope".toList ++ [0]), [], rfl, fun more => rfl, _, rfl,
    fun more => ?_⟩ .nil)
  · simp
  · simp

theorem readsWhole_append [FloatText] [UrlText] [JsonText] [Wire] {cfg : ServerCfg} {c : ConnState}
    {es es' : List ConnEvent} {g : ReadBody} (h : ReadsWhole cfg g c es)
    (h' : ReadsWhole cfg g (c.run cfg es).1 es') : ReadsWhole cfg g c (es ++ es') := by
  induction es generalizing c with
  | nil => exact h'
  | cons e es ih => exact ⟨h.1, ih h.2 h'⟩

/-- Events other than the end of `read_body` do not matter. -/
theorem readsWhole_other [FloatText] [UrlText] [JsonText] [Wire] {cfg : ServerCfg} {c : ConnState}
    {es : List ConnEvent} {g : ReadBody} (h : ∀ e ∈ es, ∀ w rest, e ≠ .bodyRead w rest) :
    ReadsWhole cfg g c es := by
  induction es generalizing c with
  | nil => trivial
  | cons e es ih =>
    exact ⟨fun w rest he => absurd he (h e List.mem_cons_self w rest),
      ih fun e he => h e (List.mem_cons_of_mem _ he)⟩

/-- `C43`: the example above meets the hypotheses. -/
theorem ex_whole : letI := toyFloat; letI := toyUrl; letI := toyJson; letI := toyWire
    arriving exEvents = exBytes 1 "/users/7".toList [9] ++ exBytes 0 "/nope".toList [] ∧
      ReadsWhole exCfg (fun _ v b w => v = w ∧ b = [9]) .new exEvents := by
  let := toyFloat
  let := toyUrl
  let := toyJson
  let := toyWire
  refine ⟨rfl, ?_⟩
  let rest := exBytes 0 "/nope".toList []
  have h0 : ConnState.run exCfg .new [.connected true, .input,
        .recv (exBytes 1 "/users/7".toList [9] ++ rest), .notReady] =
      (⟨.readHead, .other 0, exBytes 1 "/users/7".toList [9] ++ rest, none⟩, []) := rfl
  have h1 := accept_call (cfg := exCfg) ex_call rfl ⟨.readHead, .other 0, 9 :: rest, none⟩
  have h2 : (ConnState.run exCfg ⟨.readHead, .other 0, exBytes 1 "/users/7".toList [9] ++ rest, none⟩
      [.input]).1 = (ConnState.accept exCfg ⟨.readHead, .other 0, 9 :: rest, none⟩
        (exHead (.other 1) "/users/7".toList 1)).1 := by
    have hh : Wire.head (exBytes 1 "/users/7".toList [9] ++ rest) =
      .done (exHead (.other 1) "/users/7".toList 1) (9 :: rest) := rfl
    simp only [ConnState.run, ConnState.step, ConnState.pollHead, hh]
  refine readsWhole_append (es := [.connected true, .input,
        .recv (exBytes 1 "/users/7".toList [9] ++ rest), .notReady]) ?_ ?_
  · exact readsWhole_other (by simp)
  · rw [h0]
    refine readsWhole_append (es := [.input]) (readsWhole_other (by simp)) ?_
    rw [h2, h1]
    refine ⟨?_, readsWhole_other (by simp)⟩
    intro w rest he h s v hp f hf
    cases he
    cases hp
    cases hf
    exact ⟨[9], rfl, rfl, rfl⟩

/-- `C44`: the first connection panics, the second one is accepted, the listener fails, and the
second connection is served as it would have been alone. -/
example : letI := toyFloat; letI := toyUrl; letI := toyJson; letI := toyWire
    effectsOn 1 (ServerState.run exCfg .new ([.bound true, .client, .conn 0 (.connected true),
      .conn 0 (.recv (exBytes 1 "a:b".toList [])), .conn 0 .input] ++ .client ::
        (.listenFailed :: exEvents.map (.conn 1)))).2 = connLog exCfg exEvents ∧
    ServerEffect.conn 0 .panicked ∈ (ServerState.run exCfg .new [.bound true, .client,
      .conn 0 (.connected true), .conn 0 (.recv (exBytes 1 "a:b".toList [])), .conn 0 .input]).2 := by
  let := toyFloat
  let := toyUrl
  let := toyJson
  let := toyWire
  let es : List ServerEvent := [.bound true, .client, .conn 0 (.connected true),
    .conn 0 (.recv (exBytes 1 "a:b".toList [])), .conn 0 .input]
  have hrun : ServerState.run exCfg .new es =
      (⟨.listening, [⟨.panicked, .other 1, [], none⟩]⟩, [.started, .spawned 0,
        .conn 0 (.read (exHead (.other 1) "a:b".toList 0)), .conn 0 .panicked]) := rfl
  have he : eventsOn 1 (.listenFailed :: exEvents.map (.conn 1)) = exEvents := rfl
  have h := C44_isolated exCfg es (.listenFailed :: exEvents.map (.conn 1)) (by rw [hrun])
  rw [hrun, show List.length [(⟨.panicked, .other 1, [], none⟩ : ConnState)] = 1 from rfl, he] at h
  refine ⟨h, ?_⟩
  show _ ∈ (ServerState.run exCfg .new es).2
  rw [hrun]
  simp

/-- `C44_keeps_accepting`. -/
example : letI := toyFloat; letI := toyUrl; letI := toyJson; letI := toyWire
    (ServerState.run exCfg .new ([.bound true, .client, .conn 0 (.connected false)])).1.phase =
      .listening := by
  let := toyFloat
  let := toyUrl
  let := toyJson
  let := toyWire
  exact (C44_keeps_accepting exCfg _ ⟨[], _, rfl, by simp⟩ (by simp)).1

end ServerExamples

end Htrpc
