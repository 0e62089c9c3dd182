/-
Cases that meet the hypotheses of the theorems in Verif/Props/EndToEnd.lean, Verif/Props/Http.lean,
Verif/Props/HttpEndToEnd.lean and Verif/Props/IntegrityHttp.lean.
-/
import Verif.Props.HttpEndToEnd
import Verif.Props.IntegrityHttp
import Verif.Props.ServerExamples
import Verif.Lemmas.ToyFloat
import Verif.Lemmas.ToyJson
import Verif.Lemmas.ToyMethods

namespace Htrpc
open Spec Http

namespace HttpExamples
open ToyJson ToyMethods
open ServerExamples (readsWhole_append readsWhole_other)

/-- `GET /users/<name>` with a header `x-tag`. -/
def exEntry : EntryPoint := [.val "users".toList, .var]

def exService : Service :=
  ⟨.other 1, exEntry, .struct (requestFields (some (.tuple [.str])) none
    (some (.struct [("x-tag".toList, .str)]))), 5⟩

def exCfg : ServerCfg :=
  ⟨[exService], ⟨fun _ => none⟩, fun _ => "reason".toList, fun _ => ([], none, none)⟩

def exHeader (tag : Str) : Val := .struct [("x-tag".toList, .str tag)]

/-- A request for the user with an inconvenient name. -/
def exVal (tag : Str) : Val :=
  .struct (requestFields (some (.tuple [.str "a b?#/".toList])) none (some (exHeader tag)))

def exRequest (tag : Str) (body : Bytes) : Request :=
  ⟨.other 1, "/users/a%20b%3F%23%2F".toList,
    [(utf8 "x-tag".toList, utf8 tag), contentLength body], body⟩

theorem ex_ser (tag : Str) (body : Bytes) : letI := toyFloat
    serRequest (.other 1) exEntry (exVal tag) body = .ok (exRequest tag body) := by
  let := toyFloat
  rw [exVal, C23_in_order, if_neg (by simp), requestOf]
  rfl

/-- `C66`, `C67_request_arrives_partial`: the request is sent, and this is its target. -/
example (tag : Str) (body : Bytes) : letI := toyFloat
    SafeTarget (exRequest tag body).target := by
  let := toyFloat
  exact C66_target_safe _ _ _ _ _ (ex_ser tag body)

theorem ex_header_fields (tag : Str) : letI := toyFloat
    HeaderFields [("x-tag".toList, .str tag)] [("x-tag".toList, utf8 tag)] := by
  let := toyFloat
  exact .present (.plain (.str _)) .nil

/-- `C67_safe_request`: a header with this text is safe. -/
theorem ex_safe : letI := toyFloat
    SafePart (some (exHeader "hello world".toList)) := by
  let := toyFloat
  refine .struct (ex_header_fields _) fun x hx => ?_
  rw [List.mem_singleton.1 hx]
  refine ⟨⟨by decide, by decide⟩, ⟨by decide, ?_⟩, by decide, by decide⟩
  intro b hb
  have : b = 104 ∨ b = 100 := by
    rcases hb with hb | hb
    · left; exact (Option.some.inj hb).symm
    · right; exact (Option.some.inj hb).symm
  rcases this with rfl | rfl <;> decide

/-- `C26_handler_told`. -/
example (body more : Bytes) : letI := toyFloat; letI := toyMethods
    ∃ rh rest, readHead (writeRequest (exRequest "hello world".toList body) ++ more) = .done rh rest ∧
      fixedLength rh.headers = some body.length := by
  let := toyFloat
  let := toyMethods
  obtain ⟨h1, h2⟩ := C67_safe_request _ _ _ _ _ ex_safe body _ (ex_ser "hello world".toList body)
  have := (C67_request_arrives_partial _ _ _ _ _ (ex_ser "hello world".toList body) h1 h2).1 more
  exact ⟨_, _, this, C26_handler_told _ _ _ _ _ ex_safe body _ (ex_ser "hello world".toList body) more _ _
    this⟩

/-- `C67_full_fails`: the client sends a request for another user in the middle of a header. -/
example : letI := toyFloat; letI := toyMethods
    ∃ v r rest, serRequest (.other 1) [] (.struct (requestFields none none
        (some (.struct [("x".toList, .str v)])))) [] = .ok r ∧
      ∀ more, ∃ left, readHead (writeRequest r ++ more) = .done
          ⟨.other 1, "/".toList, [(utf8 "x".toList, utf8 "a".toList)]⟩ left ∧
        readHead left = .done ⟨.other 1, "/users/7".toList, []⟩ (rest ++ more) := by
  let := toyFloat
  let := toyMethods
  obtain ⟨v, r, rest, h1, h2, -⟩ := C67_full_fails (.other 1) []
    "X1 /users/7 HTTP/1.1\r\n\r\n".toList
  refine ⟨v, r, rest, h1, fun more => ⟨_, h2 more, ?_⟩⟩
  have e : utf8 "X1 /users/7 HTTP/1.1\r\n\r\n".toList = writeHead (.other 1) "/users/7".toList [] :=
    rfl
  rw [e, List.append_assoc, readHead_write]
  · exact .path (p := "users/7".toList) (by decide)
  · intro x hx; cases hx

/-- Two requests are wanted, the second with a body. -/
def exWish (body : Bytes) : Wish := ⟨exService, exVal "hello world".toList, body⟩

theorem ex_supported : letI := toyFloat
    Supported exCfg exService (exVal "hello world".toList)
      (some (.struct [("x-tag".toList, .str)])) := by
  let := toyFloat
  refine .intro (ss := ["a b?#/".toList]) (pt := some (.tuple [.str])) (qt := none) ?_ ?_ rfl
    (.args (.tuple _) (.tuple (.cons (.str _) .nil)) (.cons (.str _) .nil) rfl
      (by unfold Ascii; decide) (by unfold NoTabNl; decide)) .absent
    (.struct (ex_header_fields _) (.cons (.str _) .nil) (by simp [DistinctNames]) (by decide)
      (by decide)) (by simp) ⟨by decide, by decide, .inr ⟨_, rfl, by decide⟩⟩ ?_
  · rw [show table exCfg = [exService.reg] from rfl]; simp
  · intro c hc
    simp only [exService, exEntry, List.mem_cons, List.not_mem_nil, or_false] at hc
    rcases hc with h | h
    · cases h; intro ch hch; left; revert ch; decide
    · cases h
  · rintro ⟨pre, suf, p, h1, h2, r, hr, h3⟩
    rw [show table exCfg = [exService.reg] from rfl, List.mem_singleton] at hr
    subst hr
    simp only [exService, Service.reg, exEntry] at h1 h3
    match pre with
    | [] => cases h1
    | [a] => cases h1; simp at h3
    | a :: b :: pre =>
      simp only [List.cons_append, List.cons.injEq] at h1
      exact absurd h1.2.2 (by simp)

theorem ex_sends (body : Bytes) : letI := toyFloat; letI := toyUrl; letI := toyJson
    Sends exCfg (exWish body) (exRequest "hello world".toList body) := by
  let := toyFloat
  let := toyUrl
  let := toyJson
  exact ⟨⟨_, ex_supported⟩, ex_safe, ex_ser _ _⟩

def exBytes : Bytes := letI := toyMethods; writeRequest (exRequest "hello world".toList [1, 2])

/-- The first request arrives in two pieces, is read by a handler that wants the body, and is
answered. -/
def exEvents : List ConnEvent :=
  [.connected true, .recv (exBytes.take 20), .recv (exBytes.drop 20), .notReady] ++
  [.input, .bodyRead (exVal "hello world".toList) [], .handled (.unitVariant "Ok".toList) [4, 5],
    .written true]

theorem ex_start : letI := toyFloat; letI := toyUrl; letI := toyJson; letI := toyMethods
    letI := httpWire
    ConnState.run exCfg .new [.connected true, .recv (exBytes.take 20), .recv (exBytes.drop 20),
      .notReady] = (⟨.readHead, .other 0, exBytes, none⟩, []) := by
  let := toyFloat
  let := toyUrl
  let := toyJson
  let := toyMethods
  let := httpWire
  have : [] ++ exBytes.take 20 ++ exBytes.drop 20 = exBytes := by simp
  generalize exBytes.take 20 = a at this
  generalize exBytes.drop 20 = b at this
  generalize exBytes = c at this
  subst this
  rfl

theorem ex_run : letI := toyFloat; letI := toyUrl; letI := toyJson; letI := toyMethods; letI := httpWire
    ConnState.run exCfg .new exEvents = (⟨.readHead, .other 1, [], none⟩,
      [.read (exRequest "hello world".toList [1, 2]).asRead.1,
       .invoked exService (exVal "hello world".toList) (exVal "hello world".toList),
       .returned (.unitVariant "Ok".toList) [4, 5],
       .answer ⟨.ok, [contentLength [4, 5]], [4, 5]⟩, .written]) := by
  let := toyFloat
  let := toyUrl
  let := toyJson
  let := toyMethods
  let := httpWire
  have hj := (ex_sends [1, 2]).carries.judged.1
  obtain ⟨hd, f, hf, hf'⟩ := C67_request_arrives_partial _ _ _ _ _ (ex_ser "hello world".toList [1, 2])
    (C67_safe_request _ _ _ _ _ ex_safe _ _ (ex_ser "hello world".toList [1, 2])).1
    (C67_safe_request _ _ _ _ _ ex_safe _ _ (ex_ser "hello world".toList [1, 2])).2
  have hd := hd []
  have hf' := hf' []
  rw [List.append_nil] at hd
  have hrun := C37_call_is_answered exCfg ⟨.readHead, .other 0, exBytes, none⟩ _ _ _
    (exVal "hello world".toList) f _ _ _ (.unitVariant "Ok".toList) [4, 5]
    ⟨.ok, [contentLength [4, 5]], [4, 5]⟩ rfl hd hf hf' hj rfl
  rw [exEvents, conn_run_append, ex_start]
  simp only [hrun]
  rfl

theorem ex_log : letI := toyFloat; letI := toyUrl; letI := toyJson; letI := toyMethods; letI := httpWire
    connLog exCfg exEvents =
      [.read (exRequest "hello world".toList [1, 2]).asRead.1,
       .invoked exService (exVal "hello world".toList) (exVal "hello world".toList),
       .returned (.unitVariant "Ok".toList) [4, 5],
       .answer ⟨.ok, [contentLength [4, 5]], [4, 5]⟩, .written] := by
  exact congrArg Prod.snd ex_run

/-- The hypotheses of `C65_served`, `C65_round_trip`, `C68_served` and `C68_round_trip`, for two
requests of which one has arrived and was answered. -/
theorem ex_served : letI := toyFloat; letI := toyUrl; letI := toyJson; letI := toyMethods; letI := httpWire
    List.Forall₂ (Sends exCfg) [exWish [1, 2], exWish []]
      [exRequest "hello world".toList [1, 2], exRequest "hello world".toList []] ∧
    arriving exEvents <+: [exRequest "hello world".toList [1, 2],
      exRequest "hello world".toList []].flatMap writeRequest ∧
    ReadsWhole exCfg (fun _ v b w => v = w ∧ b = [1, 2]) .new exEvents ∧
    (answers (connLog exCfg exEvents))[0]? = some ⟨.ok, [contentLength [4, 5]], [4, 5]⟩ ∧
    PlainResponse (.unitVariant "Ok".toList) (.enum [("Ok".toList, .unit)]) none 200 ∧
    SafePart (headerPart (.unitVariant "Ok".toList)) := by
  let := toyFloat
  let := toyUrl
  let := toyJson
  let := toyMethods
  let := httpWire
  have hj := (ex_sends [1, 2]).carries.judged.1
  obtain ⟨hd, f, hf, hf'⟩ := C67_request_arrives_partial _ _ _ _ _ (ex_ser "hello world".toList [1, 2])
    (C67_safe_request _ _ _ _ _ ex_safe _ _ (ex_ser "hello world".toList [1, 2])).1
    (C67_safe_request _ _ _ _ _ ex_safe _ _ (ex_ser "hello world".toList [1, 2])).2
  have hd := hd []
  have hf' := hf' []
  rw [List.append_nil] at hd
  refine ⟨.cons (ex_sends _) (.cons (ex_sends _) .nil), ?_, ?_, ?_, ?_, .absent⟩
  · refine ⟨writeRequest (exRequest "hello world".toList []), ?_⟩
    have h1 : arriving exEvents = exBytes := by
      have : exBytes.take 20 ++ (exBytes.drop 20 ++ []) = exBytes := by simp
      exact this
    rw [h1]
    simp [exBytes]
  · refine readsWhole_append (readsWhole_other (by simp)) ?_
    rw [ex_start]
    have h2 : (ConnState.run exCfg ⟨.readHead, .other 0, exBytes, none⟩ [.input]).1 =
        (ConnState.accept exCfg ⟨.readHead, .other 0, [1, 2] ++ [], none⟩
          (exRequest "hello world".toList [1, 2]).asRead.1).1 := by
      have hd : Wire.head exBytes = .done (exRequest "hello world".toList [1, 2]).asRead.1
        ([1, 2] ++ []) := hd
      simp only [ConnState.run, ConnState.step, ConnState.pollHead, hd]
    refine readsWhole_append (es := [.input]) (readsWhole_other (by simp)) ?_
    have h3 := accept_call hj hf ⟨.readHead, .other 0, [1, 2] ++ [], none⟩
    rw [h2]
    rw [show (ConnState.accept exCfg ⟨.readHead, .other 0, [1, 2] ++ [], none⟩
      (exRequest "hello world".toList [1, 2]).asRead.1) = _ from h3]
    refine ⟨?_, readsWhole_other (by simp)⟩
    intro w rest he h s v hp f' hfe
    cases he
    cases hp
    cases hf.symm.trans hfe
    exact ⟨[1, 2], hf', rfl, rfl⟩
  · rw [ex_log]
    rfl
  · exact .unit (by decide) rfl

/-- The same requests as calls of a client. -/
def exInvocation (body : Bytes) : Invocation :=
  ⟨.other 1, exEntry, requestFields (some (.tuple [.str "a b?#/".toList])) none
    (some (exHeader "hello world".toList)), requestFields (some (.tuple [.str])) none
    (some (.struct [("x-tag".toList, .str)])), body⟩

theorem ex_issues (body : Bytes) : letI := toyFloat; letI := toyUrl; letI := toyJson
    Issues (exInvocation body) (exRequest "hello world".toList body) := by
  let := toyFloat
  let := toyUrl
  let := toyJson
  have hs := C67_safe_request _ _ _ _ _ ex_safe _ _ (ex_ser "hello world".toList body)
  refine ⟨.cons (.tuple (.cons (.str _) .nil)) (.cons (.struct (.cons (.str _) .nil)) .nil), ?_, ?_, ?_,
    ex_ser _ _, hs.1, hs.2⟩
  · show DistinctNames [("path".toList, Ty.tuple [.str]), ("header".toList, _)]
    unfold DistinctNames
    decide
  · intro t h
    cases h
  · intro t h
    cases h
    exact ⟨rfl, by decide, by decide⟩

/-- `C77_requests`, `C77_responses`: the handler gets what was sent, and the client completes with what
the handler has returned. -/
example : letI := toyFloat; letI := toyUrl; letI := toyJson; letI := toyMethods; letI := httpWire
    (∃ h l, (blocks (connLog exCfg exEvents))[0]? = some (h, l) ∧
      (exService, exVal "hello world".toList, exVal "hello world".toList) ∈ calls l) ∧
    ∃ ws, exVal "hello world".toList = .struct ws ∧
      FieldsArrive PartArrives (exInvocation [1, 2]).fields ws := by
  let := toyFloat
  let := toyUrl
  let := toyJson
  let := toyMethods
  let := httpWire
  obtain ⟨h1, h2, h3, h4, -, -⟩ := ex_served
  obtain ⟨m, w, resp, body, hm, ⟨hg, -⟩, ⟨h, l, hb, hc, -⟩, -⟩ :=
    C68_round_trip exCfg exEvents _ _ h1 _ 0 _ h2 h3 h4
  cases hm
  have hw : exVal "hello world".toList = w := hg
  cases hw
  have hin : (exService, exVal "hello world".toList, exVal "hello world".toList) ∈ calls l := by
    rw [hc]
    exact List.mem_singleton.2 rfl
  refine ⟨⟨h, l, hb, hin⟩, ?_⟩
  obtain ⟨c, r, hcn, -, -, hall⟩ := C77_requests exCfg exEvents [exInvocation [1, 2], exInvocation []] _
    (.cons (ex_issues _) (.cons (ex_issues _) .nil)) _ 0 h l h2 h3 hb
  cases hcn
  exact (hall _ _ _ hin).2.2.2 rfl rfl

end HttpExamples

end Htrpc
