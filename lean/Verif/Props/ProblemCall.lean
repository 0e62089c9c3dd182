/-
C120: problems on their way from a handler to a caller.
-/
import Verif.Lemmas.JsonText
import Verif.Props.Conversation
import Verif.Props.Problem

set_option linter.unusedSectionVars false

namespace Htrpc
open Spec Http

section
variable [UrlText] [JsonText]

/-- What is answered after a handler has returned is what it has returned. -/
theorem answer_of_returned [FloatText] [Wire] {cfg : ServerCfg} {es : List ConnEvent} {hd : ReqHead}
    {l : List ConnEffect} (hb : (hd, l) ∈ blocks (connLog cfg es)) {resp : Val} {out : Bytes}
    (hret : (resp, out) ∈ returned l) {a : Response} (ha : a ∈ answers l) :
    ∃ r, serResponse resp out = .ok r ∧ a = onWire hd r := by
  obtain ⟨i, hi⟩ := List.mem_iff_getElem?.1 hb
  rcases (transcript cfg es).blocks i hd l hi with hx | ⟨hx, -⟩
  all_goals
    generalize hl : ConnEffect.read hd :: l = l0 at hx
    cases hx
    all_goals
      cases hl
      simp [returned, answers] at hret ha
      try
        obtain ⟨rfl, rfl⟩ := hret
        subst ha
        exact ⟨_, by assumption, rfl⟩

theorem deVariant_missing [FloatText] (i : RespInput) (n : Str) : ∀ vs : List (Str × VTy),
    vs.lookup n = none → RespDe.deVariant i n vs = .err .invalid
  | [], _ => by rw [RespDe.deVariant]
  | (m, x) :: vs, h => by
    rw [RespDe.deVariant]
    rw [List.lookup_cons] at h
    by_cases hm : n = m
    · subst hm
      simp at h
    · rw [if_neg hm]
      have : (n == m) = false := by simpa using hm
      rw [this] at h
      exact deVariant_missing i n vs h

variable [LawfulFloatText]

/-- **C120.** Let a handler that is called for a request return a problem in a variant, whatever its name.
What is written has the status of the problem. The call that has sent the request, and gets what the
server has written for it, however long it waits and whatever comes after it, completes with the variant
of this status if the client has declared one with a problem; and with the body that the handler has
returned, from which the client gets the problem, but for `HEAD` with none. If the client has not declared
a variant for the status, the call fails with `Invalid`. -/
theorem C120_returned [Wire] (cfg : ServerCfg) (es : List ConnEvent) (hd : ReqHead) (l : List ConnEffect)
    (hb : (hd, l) ∈ blocks (connLog cfg es)) (x : Problem) (m : Str)
    (hret : (.newtypeVariant m (ProblemResponse.ofProblem x).toVal, (ProblemResponse.ofProblem x).bodyBytes) ∈
      returned l)
    (a : Response) (ha : a ∈ answers l) (p : Proc) (hm : p.method = hd.method) (vs : List (Str × VTy))
    (hty : p.resTy = .enum vs) (phrase : Bytes) (hp : ∀ b ∈ phrase, ValueByte b) (more : Bytes)
    (v : Val) (body : Bytes) (r : Request) (hr : serRequest p.method p.entry v body = .ok r)
    (rs : List IoResult)
    (hrs : rs.filter Happened =
      .connected :: .written :: hear p.method (writeResponse phrase a ++ more)) :
    ∃ n, (n, x.statusCode.toNat) ∈ statusTable ∧ a.status.code = x.statusCode.toNat ∧
      (vs.lookup n = some (.newtype ProblemResponse.ty) →
        (callRun p (.new v body) rs).2 = .ready (.newtypeVariant n (ProblemResponse.toVal ⟨none, x⟩))
          (if p.method = .head then [] else (ProblemResponse.ofProblem x).bodyBytes) ∧
        ∀ q, ProblemResponse.setBody ⟨none, q⟩ (ProblemResponse.ofProblem x).bodyBytes = ⟨none, x⟩) ∧
      (vs.lookup n = none → (callRun p (.new v body) rs).2 = .failed .invalid) := by
  obtain ⟨r', hser, rfl⟩ := answer_of_returned hb hret ha
  have hx : ∃ n, (n, x.statusCode.toNat) ∈ statusTable := by
    by_contra hno
    have := C35_unknown_status x (fun n hn => hno ⟨n, hn⟩) (ProblemResponse.ofProblem x).bodyBytes
    rw [serResponse, RespSer.ser] at hser
    rw [serResponse] at this
    rw [this] at hser
    cases hser
  obtain ⟨n, hn⟩ := hx
  obtain ⟨s, hs, -⟩ := status_of_table hn
  have hser' : serResponse (.newtypeVariant m (ProblemResponse.ofProblem x).toVal)
      (ProblemResponse.ofProblem x).bodyBytes = .ok ⟨s,
        [(utf8 "content-type".toList, utf8 "application/problem+json".toList)] ++
          [contentLength (ProblemResponse.ofProblem x).bodyBytes], (ProblemResponse.ofProblem x).bodyBytes⟩ := by
    rw [serResponse, RespSer.ser]
    exact serResponse_problem _ rfl hs
  rw [hser] at hser'
  cases hser'
  have hw : ∀ r : Response, (onWire hd r).status = r.status := fun r => by rw [onWire]; split <;> rfl
  have hsafe : SafeHeaders ([(utf8 "content-type".toList, utf8 "application/problem+json".toList)] ++
      [contentLength (ProblemResponse.ofProblem x).bodyBytes]) := by
    rw [safe_append]
    intro h hh
    cases List.mem_singleton.1 hh
    exact ⟨⟨by decide, by decide⟩, by decide, by
      intro b hb
      have : b ∈ utf8 "application/problem+json".toList := by
        rcases hb with hb | hb
        · exact List.mem_of_head? hb
        · exact List.mem_of_getLast? hb
      clear hb
      revert b
      decide⟩
  have hframe : Framed ([(utf8 "content-type".toList, utf8 "application/problem+json".toList)] ++
      [contentLength (ProblemResponse.ofProblem x).bodyBytes]) (ProblemResponse.ofProblem x).bodyBytes := by
    refine framed_append _ fun h hh => ?_
    cases List.mem_singleton.1 hh
    exact ⟨by decide, by decide⟩
  obtain ⟨a1, f, a2, a3⟩ := C67_response_arrives_partial _ _ _ hser hsafe hframe phrase hp hd
  have hreads : Reads p.method (writeResponse phrase (onWire hd ⟨s,
        [(utf8 "content-type".toList, utf8 "application/problem+json".toList)] ++
          [contentLength (ProblemResponse.ofProblem x).bodyBytes],
        (ProblemResponse.ofProblem x).bodyBytes⟩) ++ more) s.code
      ([(utf8 "content-type".toList, utf8 "application/problem+json".toList)] ++
          [contentLength (ProblemResponse.ofProblem x).bodyBytes])
      (if p.method = .head then [] else (ProblemResponse.ofProblem x).bodyBytes) more := by
    have a1 := a1 more
    rw [hm]
    by_cases hh : hd.method = .head
    · rw [if_pos hh] at a1 ⊢
      exact .head hh a1
    · rw [if_neg hh] at a1 ⊢
      exact .full hh a1 a2 (a3 more)
  have hrun := callRun_reads hr hreads hrs
  refine ⟨n, hn, by rw [hw]; exact hs, fun hv => ?_, fun hv => ?_⟩
  · obtain ⟨r'', k1, -, k3, k4⟩ := C32_problem_received x n m vs hn hv
    rw [hser] at k1
    cases k1
    have := k3 [] [] (by simp [AsciiNames]) (by simp [AsciiNames]) (by simp)
    rw [List.nil_append, List.append_nil, ← hty] at this
    rw [this] at hrun
    exact ⟨hrun, k4⟩
  · have : deResponse p.resTy s.code ([(utf8 "content-type".toList, utf8 "application/problem+json".toList)] ++
          [contentLength (ProblemResponse.ofProblem x).bodyBytes]) = .err .invalid := by
      rw [hty, deResponse, RespDe.de]
      simp only [hs, (statusCodeToStr_table _ _).2 hn, Res.ofOption, Res.bind_ok]
      rw [deVariant_missing _ _ _ hv]
    rw [this] at hrun
    exact hrun

/-- **C120.** If the problem has another status than the known ones, nothing is written. -/
theorem C120_unknown_status [Wire] (cfg : ServerCfg) (es : List ConnEvent) (hd : ReqHead)
    (l : List ConnEffect) (hb : (hd, l) ∈ blocks (connLog cfg es)) (x : Problem) (m : Str)
    (hret : (.newtypeVariant m (ProblemResponse.ofProblem x).toVal, (ProblemResponse.ofProblem x).bodyBytes) ∈
      returned l) (hx : ∀ n, (n, x.statusCode.toNat) ∉ statusTable) : answers l = [] := by
  refine List.eq_nil_iff_forall_not_mem.2 fun a ha => ?_
  obtain ⟨r, hser, -⟩ := answer_of_returned hb hret ha
  have := C35_unknown_status x hx (ProblemResponse.ofProblem x).bodyBytes
  rw [serResponse, RespSer.ser] at hser
  rw [serResponse] at this
  rw [this] at hser
  cases hser

/-- **C120.** A call whose response type is a problem response does not complete, whatever the server does. -/
theorem C120_bare (p : Proc) (hty : p.resTy = ProblemResponse.ty) (v : Val) (body : Bytes)
    (rs : List IoResult) (w : Val) (b : Bytes) : (callRun p (.new v body) rs).2 ≠ .ready w b := by
  intro h
  obtain ⟨r, code, hs, -, -, hde, -⟩ := C55_ready p v body rs w b h
  rw [hty, C33_never_received] at hde
  cases hde

end

/-- **C120.** An empty body, which is all that a client gets for `HEAD`, leaves the problem with which the
client has made the response: `about:blank` with the status 500, whatever the status of the variant is. -/
theorem C120_head [FloatText] [UrlText] (phrase : Status → Str) : letI := JsonCodec.jsonText
    ProblemResponse.setBody ⟨none, Problem.default phrase⟩ [] =
      ⟨none, .aboutBlank ⟨phrase .internalServerError, 500⟩⟩ := by
  have h : (JsonCodec.jsonText).parse [] = none := by
    show (fromUtf8 (utf8 [])).bind JsonCodec.parse = none
    rw [fromUtf8_utf8]
    simp [JsonCodec.parse, JsonCodec.value, JsonCodec.skipWs]
  show (match ((JsonCodec.jsonText).parse []).bind Problem.ofJson with
    | some p => (⟨none, p⟩ : ProblemResponse)
    | none => ⟨none, Problem.default phrase⟩) = _
  rw [h]
  rfl

end Htrpc
