/-
Messages as bytes (C66 to C68).
-/
import Verif.Lemmas.Http
import Verif.Lemmas.Target
import Verif.Props.Request
import Verif.Props.Response

set_option linter.unusedSectionVars false

namespace Htrpc
open Spec Http

/-! ### C66: request targets -/

/-- **C66.** Whatever the values in a request are, the target which the client sends is printable
ASCII without blank; it starts with `/`, the only `?` is the one before the query, and there is no
`#`. -/
theorem C66_target_safe [FloatText] (m : Method) (e : EntryPoint) (v : Val) (body : Bytes)
    (r : Request) (h : serRequest m e v body = .ok r) : SafeTarget r.target :=
  serRequest_target h

/-- **C66.** So the server finds the same method and target in the first line, and the first line
ends where the client ended it. -/
theorem C66_request_line [FloatText] [MethodNames] (m : Method) (e : EntryPoint) (v : Val)
    (body : Bytes) (r : Request) (h : serRequest m e v body = .ok r) (rest : Bytes) :
    ∃ line, readRequestLine line = some (m, r.target) ∧
      readLines [] (MethodNames.name m ++ 32 :: utf8 r.target ++ 32 :: version ++ crlf ++ rest) =
        (readLines [] rest).map fun x => (line :: x.1, x.2) := by
  refine ⟨_, readRequestLine_write m (C66_target_safe m e v body r h), ?_⟩
  have hg := (utf8_graphic (target_chars (C66_target_safe m e v body r h)).2).1
  rw [readLines_line, if_neg (by simp)]
  · simp
  · intro b hb
    simp only [List.mem_append, List.mem_cons] at hb
    rcases hb with (hb | rfl | hb) | rfl | hb
    · exact (isGraphic_facts (MethodNames.graphic m b hb)).2
    · decide
    · exact (isGraphic_facts (hg b hb)).2
    · decide
    · rintro rfl
      exact absurd hb (by decide)

/-! ### C67: headers -/

/-- **C67** for requests. If the headers are such as HTTP can express, the server reads the head
that the client has written, and then the body, whatever follows. -/
theorem C67_request_arrives_partial [FloatText] [MethodNames] (m : Method) (e : EntryPoint) (v : Val)
    (body : Bytes) (r : Request) (h : serRequest m e v body = .ok r) (hs : SafeHeaders r.headers)
    (hf : Framed r.headers body) :
    (∀ more, readHead (writeRequest r ++ more) = .done ⟨m, r.target, r.headers⟩ (body ++ more)) ∧
      ∃ f, readBody r.headers = some f ∧ ∀ more, f (body ++ more) = .done body more := by
  obtain ⟨hb, hm, -⟩ := C26_request_content_length m e v body r h
  refine ⟨fun more => ?_, readBody_framed hf fun x hx b hb => ?_⟩
  · rw [writeRequest, List.append_assoc, readHead_write _ (C66_target_safe m e v body r h) hs, hb, hm]
  · have := isToken_facts ((hs x hx).1.2 b hb)
    omega

/-- **C67** for responses: the client reads the status and the headers that the server has written,
and, unless the request was `HEAD`, the body. -/
theorem C67_response_arrives_partial [FloatText] (v : Val) (body : Bytes) (r : Response)
    (h : serResponse v body = .ok r) (hs : SafeHeaders r.headers) (hf : Framed r.headers body)
    (phrase : Bytes) (hp : ∀ b ∈ phrase, ValueByte b) (rh : ReqHead) :
    (∀ more, readResponseHead (writeResponse phrase (onWire rh r) ++ more) =
      .done (r.status.code, r.headers) ((if rh.method = .head then [] else body) ++ more)) ∧
      ∃ f, readBody r.headers = some f ∧ ∀ more, f (body ++ more) = .done body more := by
  obtain ⟨hb, -⟩ := C26_response_content_length v body r h
  have hw : (onWire rh r).headers = r.headers ∧ (onWire rh r).status = r.status ∧
      (onWire rh r).body = if rh.method = .head then [] else body := by
    rw [onWire]
    cases rh.method with
    | head => exact ⟨rfl, rfl, rfl⟩
    | other k => exact ⟨rfl, rfl, by simpa using hb⟩
  refine ⟨fun more => ?_, readBody_framed hf fun x hx b hb => ?_⟩
  · rw [readResponseHead_write hp (hw.1 ▸ hs), hw.1, hw.2.1, hw.2.2]
  · have := isToken_facts ((hs x hx).1.2 b hb)
    omega

/-- **C67.** The condition on the headers is exact: they arrive only if HTTP can express them. -/
theorem C67_request_iff [FloatText] [MethodNames] (m : Method) (e : EntryPoint) (v : Val)
    (body : Bytes) (r : Request) (h : serRequest m e v body = .ok r) :
    (∀ more, readHead (writeRequest r ++ more) = .done ⟨m, r.target, r.headers⟩ (body ++ more)) ↔
      SafeHeaders r.headers := by
  constructor
  · intro hr
    exact readHead_safe (hr [])
  · intro hs more
    obtain ⟨hb, hm, -⟩ := C26_request_content_length m e v body r h
    rw [writeRequest, List.append_assoc, readHead_write _ (C66_target_safe m e v body r h) hs, hb, hm]

/-- **C67.** The same for responses. -/
theorem C67_response_iff [FloatText] (v : Val) (body : Bytes) (r : Response)
    (h : serResponse v body = .ok r) (phrase : Bytes) (hp : ∀ b ∈ phrase, ValueByte b) :
    (∀ more, readResponseHead (writeResponse phrase r ++ more) =
      .done (r.status.code, r.headers) (body ++ more)) ↔ SafeHeaders r.headers := by
  constructor
  · intro hr
    exact readResponseHead_safe (hr [])
  · intro hs more
    obtain ⟨hb, -⟩ := C26_response_content_length v body r h
    rw [readResponseHead_write hp hs, hb]

theorem contentLength_safe (body : Bytes) :
    SafeName (contentLength body).1 ∧ SafeValue (contentLength body).2 := by
  refine ⟨⟨by show contentLengthName ≠ []; decide, by show ∀ b ∈ contentLengthName, _; decide⟩, ?_, ?_⟩
  · intro b hb
    have := showNat_graphic b hb
    simp only [isGraphic, Bool.and_eq_true, decide_eq_true_eq] at this
    exact .inr (.inl (by omega))
  · intro b hb
    have hm : b ∈ (contentLength body).2 := by
      rcases hb with hb | hb
      · exact List.mem_of_head? hb
      · exact List.mem_of_getLast? hb
    have := showNat_graphic b hm
    constructor <;> (rintro rfl; exact absurd this (by decide))

/-- The headers written for a safe part. -/
theorem safe_own [FloatText] {h : Option Val} (hs : SafePart h) {own : List Header}
    (ho : requestHeaders h = .ok own) (body : Bytes) :
    SafeHeaders (own ++ [contentLength body]) ∧ Framed (own ++ [contentLength body]) body := by
  have key : ∀ x ∈ own, (SafeName x.1 ∧ SafeValue x.2) ∧ nameText x.1 ≠ "content-length".toList ∧
      nameText x.1 ≠ "transfer-encoding".toList := by
    cases hs with
    | absent => cases ho; simp
    | struct hf he =>
      rw [requestHeaders, serHeaders_struct (Spec.HeaderFields.sent hf)] at ho
      cases ho
      intro x hx
      obtain ⟨y, hy, rfl⟩ := List.mem_map.1 hx
      obtain ⟨h1, h2, h3, h4⟩ := he y hy
      exact ⟨⟨h1, h2⟩, h3, h4⟩
  have hc : nameText contentLengthName ≠ "transfer-encoding".toList := by decide
  refine ⟨?_, ?_, ?_, ?_⟩
  · intro x hx
    rcases List.mem_append.1 hx with hx | hx
    · exact (key x hx).1
    · rw [List.mem_singleton.1 hx]; exact contentLength_safe body
  · simp
  · intro x hx hn
    rcases List.mem_append.1 hx with hx | hx
    · exact absurd hn (key x hx).2.1
    · exact List.mem_singleton.1 hx
  · intro x hx
    rcases List.mem_append.1 hx with hx | hx
    · exact (key x hx).2.2
    · rw [List.mem_singleton.1 hx]; exact hc

/-- **C67**, the hypotheses in terms of the request: its header part is safe. -/
theorem C67_safe_request [FloatText] (m : Method) (e : EntryPoint) (p q h : Option Val)
    (hs : SafePart h) (body : Bytes) (r : Request)
    (hr : serRequest m e (.struct (requestFields p q h)) body = .ok r) :
    SafeHeaders r.headers ∧ Framed r.headers body := by
  rw [C23_in_order] at hr
  split at hr
  · cases hr
  · rw [requestOf] at hr
    obtain ⟨path, -, hr⟩ := Res.bind_eq_ok.1 hr
    obtain ⟨query, -, hr⟩ := Res.bind_eq_ok.1 hr
    obtain ⟨own, ho, hr⟩ := Res.bind_eq_ok.1 hr
    cases hr
    exact safe_own hs ho body

theorem lookup_optField {α : Type} (k : Str) (v : Option α) : (optField k v).lookup k = v := by
  cases v <;> simp [optField]

theorem serResponse_headers [LawfulFloatText] {v : Val} {t : Ty} {ht : Option Ty} {c : Nat}
    (hv : PlainResponse v t ht c) {body : Bytes} {r : Response} (h : serResponse v body = .ok r) :
    ∃ own, requestHeaders (headerPart v) = .ok own ∧ r.headers = own ++ [contentLength body] := by
  have start : ∀ {n st}, RespSer.startNamed n RespSer.new = .ok st →
      ∃ s, st.response = some (s, []) := by
    intro n st h
    rw [RespSer.startNamed] at h
    obtain ⟨_, -, h⟩ := Res.bind_eq_ok.1 h
    obtain ⟨s, -, h⟩ := Res.bind_eq_ok.1 h
    cases h
    exact ⟨s, rfl⟩
  have add : ∀ {h : Val} {st st' : RespSer} {s}, st.response = some (s, []) →
      RespSer.addHeaders h st = .ok st' → ∃ own, requestHeaders (some h) = .ok own ∧
        st'.response = some (s, own) := by
    intro h st st' s hs ha
    rw [RespSer.addHeaders, hs] at ha
    obtain ⟨own, h1, h2⟩ := Res.bind_eq_ok.1 ha
    cases h2
    exact ⟨own, h1, rfl⟩
  have fin : ∀ {st : RespSer} {s own}, st.response = some (s, own) →
      RespSer.finish body st = .ok r → r.headers = own ++ [contentLength body] := by
    intro st s own hs hf
    rw [RespSer.finish, hs] at hf
    cases hf
    rfl
  have nh : ("header".toList : Str) ≠ "status".toList := by decide
  induction hv with
  | unit hn hl =>
    rw [serResponse, RespSer.ser] at h
    obtain ⟨st, h1, h2⟩ := Res.bind_eq_ok.1 h
    obtain ⟨s, hs⟩ := start h1
    exact ⟨[], rfl, fin hs h2⟩
  | @variant n c vs hd ht hn hl hh =>
    rw [serResponse, RespSer.ser] at h
    obtain ⟨st, h1, h2⟩ := Res.bind_eq_ok.1 h
    obtain ⟨st0, h3, h4⟩ := Res.bind_eq_ok.1 h1
    obtain ⟨s, hs⟩ := start h3
    rw [headerPart, lookup_optField]
    cases hd with
    | none => cases h4; exact ⟨[], rfl, fin hs h2⟩
    | some w =>
      rw [optField, RespSer.serVariantFields] at h4
      obtain ⟨st1, h5, h6⟩ := Res.bind_eq_ok.1 h4
      cases h6
      rw [RespSer.serVariantField, if_pos rfl] at h5
      obtain ⟨own, h7, h8⟩ := add hs h5
      exact ⟨own, h7, fin h8 h2⟩
  | @struct it n c hd ht hn hit hh =>
    rw [serResponse, RespSer.ser, RespSer.serFields] at h
    obtain ⟨st, h1, h2⟩ := Res.bind_eq_ok.1 h
    obtain ⟨st0, h3, h4⟩ := Res.bind_eq_ok.1 h1
    rw [RespSer.serField, if_pos rfl] at h3
    obtain ⟨_, -, h3⟩ := Res.bind_eq_ok.1 h3
    obtain ⟨_, -, h3⟩ := Res.bind_eq_ok.1 h3
    obtain ⟨s, -, h3⟩ := Res.bind_eq_ok.1 h3
    cases h3
    have hp : headerPart (.struct (("status".toList, .int it (Int.ofNat c)) ::
        optField "header".toList hd)) = hd := by
      rw [headerPart, List.lookup_cons, beq_false_of_ne nh]
      exact lookup_optField _ _
    rw [hp]
    cases hd with
    | none => cases h4; exact ⟨[], rfl, fin rfl h2⟩
    | some w =>
      rw [optField, RespSer.serFields] at h4
      obtain ⟨st1, h5, h6⟩ := Res.bind_eq_ok.1 h4
      cases h6
      rw [RespSer.serField, if_neg nh, if_pos rfl] at h5
      obtain ⟨_, -, h5⟩ := Res.bind_eq_ok.1 h5
      obtain ⟨own, h7, h8⟩ := add rfl h5
      exact ⟨own, h7, fin h8 h2⟩
  | newtype hv ih => exact ih h

/-- **C67**, the hypotheses in terms of the response. -/
theorem C67_safe_response [LawfulFloatText] (v : Val) (t : Ty) (ht : Option Ty) (c : Nat)
    (hv : PlainResponse v t ht c) (hs : SafePart (headerPart v)) (body : Bytes) (r : Response)
    (h : serResponse v body = .ok r) : SafeHeaders r.headers ∧ Framed r.headers body := by
  obtain ⟨own, h1, h2⟩ := serResponse_headers hv h
  rw [h2]
  exact safe_own hs h1 body

/-- **C26.** A handler that asks for the length of the body before it reads it is told the length of
what the client gave. -/
theorem C26_handler_told [FloatText] [MethodNames] (m : Method) (e : EntryPoint) (p q h : Option Val)
    (hs : SafePart h) (body : Bytes) (r : Request)
    (hr : serRequest m e (.struct (requestFields p q h)) body = .ok r) (more rest : Bytes) (rh : ReqHead)
    (ha : readHead (writeRequest r ++ more) = .done rh rest) :
    fixedLength rh.headers = some body.length := by
  obtain ⟨h1, h2⟩ := C67_safe_request m e p q h hs body r hr
  rw [(C67_request_arrives_partial m e _ body r hr h1 h2).1 more] at ha
  cases ha
  refine fixedLength_framed h2 fun x hx b hb => ?_
  have := isToken_facts ((h1 x hx).1.2 b hb)
  omega

/-- **C67.** The full statement, without the restriction on the headers, is false: line breaks in a
header value end the head, and the server takes what follows for the next request.  So whoever
chooses the text of a header can make the client send any request `s`, to any procedure. -/
theorem C67_full_fails [FloatText] [MethodNames] (m : Method) (body : Bytes) (s : Str) :
    ∃ v r rest, serRequest m [] (.struct (requestFields none none
        (some (.struct [("x".toList, .str v)])))) body = .ok r ∧
      (∀ more, readHead (writeRequest r ++ more) =
        .done ⟨m, "/".toList, [(utf8 "x".toList, utf8 "a".toList)]⟩ (utf8 s ++ rest ++ more)) ∧
      ∃ f, readBody [(utf8 "x".toList, utf8 "a".toList)] = some f ∧
        ∀ more, f more = .done [] more := by
  refine ⟨"a\r\n\r\n".toList ++ s,
    ⟨m, "/".toList, [(utf8 "x".toList, utf8 ("a\r\n\r\n".toList ++ s)), contentLength body], body⟩,
    crlf ++ writeHeaders [contentLength body] ++ body, ?_, ?_, ?_⟩
  · rw [C23_in_order, if_neg (by simp)]
    rfl
  · intro more
    have e : writeRequest ⟨m, "/".toList, [(utf8 "x".toList, utf8 ("a\r\n\r\n".toList ++ s)),
          contentLength body], body⟩ ++ more =
        writeHead m "/".toList [(utf8 "x".toList, utf8 "a".toList)] ++
          (utf8 s ++ (crlf ++ writeHeaders [contentLength body] ++ body) ++ more) := by
      have h1 : utf8 ("a\r\n\r\n".toList ++ s) = utf8 "a".toList ++ crlf ++ crlf ++ utf8 s := by
        rw [utf8_append]; rfl
      simp only [writeRequest, writeHead, writeHeaders, writeHeader, h1, List.flatMap_cons,
        List.flatMap_nil, List.append_assoc, List.cons_append, List.nil_append]
    rw [e, readHead_write]
    · exact .path (p := []) (by simp)
    · intro x hx
      rw [List.mem_singleton.1 hx]
      refine ⟨⟨by decide, by decide⟩, by decide, ?_⟩
      intro b hb
      have : b = 97 := by
        rcases hb with hb | hb
        · simpa [utf8, utf8Char] using hb.symm
        · simpa [utf8, utf8Char] using hb.symm
      subst this
      decide
  · exact ⟨_, rfl, fun more => rfl⟩

end Htrpc
