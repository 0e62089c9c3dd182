/-
Properties of the server (C37-C44).
-/
import Verif.Lemmas.Sync

set_option linter.unusedSectionVars false

namespace Htrpc
open Spec

section
variable [FloatText] [UrlText] [JsonText] [Wire]

/-- Everything observed of a connection with these events. -/
abbrev connLog (cfg : ServerCfg) (es : List ConnEvent) : List ConnEffect :=
  (ConnState.run cfg .new es).2

theorem transcript (cfg : ServerCfg) (es : List ConnEvent) : Transcript cfg (connLog cfg es) :=
  (atConn cfg es).transcript

/-! ### C37 -/

/-- **C37.** For every request with a path the decision table has exactly one verdict. -/
theorem C37_one_verdict (cfg : ServerCfg) (h : ReqHead) (hp : ¬ Pathless cfg h) :
    ∃ d, Judged cfg h d ∧ ∀ d', Judged cfg h d' → d' = d := by
  cases ht : parseTarget cfg.oracle h.target with
  | none =>
    refine ⟨_, .noUrl ht, fun d' hj => ?_⟩
    cases hj with
    | noUrl => rfl
    | noPath h1 => rw [ht] at h1; cases h1
    | noMethod h1 => rw [ht] at h1; cases h1
    | undecodable => rfl
    | call h1 => rw [ht] at h1; cases h1
  | some t =>
    cases hs : t.segs with
    | none => exact absurd ⟨t, ht, hs⟩ hp
    | some segs =>
      have key : ∀ d', Judged cfg h d' →
          (dispatch h.method segs (table cfg) = .error .notFound ∧
            d' = .refuse (.aboutBlank { title := cfg.phrase .notFound, status := 404 })) ∨
          (dispatch h.method segs (table cfg) = .error .methodNotAllowed ∧
            d' = .refuse (.aboutBlank { title := cfg.phrase .methodNotAllowed, status := 405 })) ∨
          ∃ s, dispatch h.method segs (table cfg) = .ok s ∧
            (((∀ v, deRequest s.entry s.reqTy t h.headers ≠ .ok v) ∧
              d' = .refuse (Spec.badRequest cfg h)) ∨
            ∃ v, deRequest s.entry s.reqTy t h.headers = .ok v ∧ d' = .call s v) := by
        intro d' hj
        cases hj with
        | noUrl h1 => rw [ht] at h1; cases h1
        | noPath h1 h2 h3 =>
          rw [ht] at h1; cases h1; rw [hs] at h2; cases h2; exact .inl ⟨h3, rfl⟩
        | noMethod h1 h2 h3 =>
          rw [ht] at h1; cases h1; rw [hs] at h2; cases h2; exact .inr (.inl ⟨h3, rfl⟩)
        | undecodable h1 h2 h3 h4 =>
          rw [ht] at h1; cases h1; rw [hs] at h2; cases h2
          exact .inr (.inr ⟨_, h3, .inl ⟨h4, rfl⟩⟩)
        | call h1 h2 h3 h4 =>
          rw [ht] at h1; cases h1; rw [hs] at h2; cases h2
          exact .inr (.inr ⟨_, h3, .inr ⟨_, h4, rfl⟩⟩)
      cases hd : dispatch h.method segs (table cfg) with
      | error e =>
        cases e with
        | notFound =>
          refine ⟨_, .noPath ht hs hd, fun d' hj => ?_⟩
          rcases key d' hj with ⟨-, h1⟩ | ⟨h1, -⟩ | ⟨s, h1, -⟩
          · exact h1
          · rw [hd] at h1; cases h1
          · rw [hd] at h1; cases h1
        | methodNotAllowed =>
          refine ⟨_, .noMethod ht hs hd, fun d' hj => ?_⟩
          rcases key d' hj with ⟨h1, -⟩ | ⟨-, h1⟩ | ⟨s, h1, -⟩
          · rw [hd] at h1; cases h1
          · exact h1
          · rw [hd] at h1; cases h1
      | ok s =>
        rcases C58_request s.entry s.reqTy t h.headers with ⟨v, hv⟩ | hv
        · refine ⟨_, .call ht hs hd hv, fun d' hj => ?_⟩
          rcases key d' hj with ⟨h1, -⟩ | ⟨h1, -⟩ | ⟨s', h1, h2⟩
          · rw [hd] at h1; cases h1
          · rw [hd] at h1; cases h1
          · rw [hd] at h1; cases h1
            rcases h2 with ⟨h2, -⟩ | ⟨v', h2, h3⟩
            · exact absurd hv (h2 v)
            · rw [hv] at h2; cases h2; exact h3
        · refine ⟨_, .undecodable ht hs hd (by rw [hv]; intro v; simp), fun d' hj => ?_⟩
          rcases key d' hj with ⟨h1, -⟩ | ⟨h1, -⟩ | ⟨s', h1, h2⟩
          · rw [hd] at h1; cases h1
          · rw [hd] at h1; cases h1
          · rw [hd] at h1; cases h1
            rcases h2 with ⟨-, h2⟩ | ⟨v', h2, -⟩
            · exact h2
            · rw [hv] at h2; cases h2

theorem judged_not_pathless {cfg : ServerCfg} {h : ReqHead} {d : Verdict}
    (hj : Judged cfg h d) : ¬ Pathless cfg h := by
  rintro ⟨t, h1, h2⟩
  cases hj with
  | noUrl h3 => rw [h1] at h3; cases h3
  | noPath h3 h4 => rw [h1] at h3; cases h3; rw [h2] at h4; cases h4
  | noMethod h3 h4 => rw [h1] at h3; cases h3; rw [h2] at h4; cases h4
  | undecodable h3 h4 => rw [h1] at h3; cases h3; rw [h2] at h4; cases h4
  | call h3 h4 => rw [h1] at h3; cases h3; rw [h2] at h4; cases h4

theorem judged_unique {cfg : ServerCfg} {h : ReqHead} {d d' : Verdict} (hj : Judged cfg h d)
    (hj' : Judged cfg h d') : d = d' := by
  obtain ⟨d0, -, hu⟩ := C37_one_verdict cfg h (judged_not_pathless hj)
  rw [hu d hj, hu d' hj']

/-- **C37.** A request that is to be refused is answered, if at all, with the problem of the decision
table; no handler is called. -/
theorem C37_refused (cfg : ServerCfg) (es : List ConnEvent) (h : ReqHead) (l : List ConnEffect)
    (hb : (h, l) ∈ blocks (connLog cfg es)) (p : Problem) (hj : Judged cfg h (.refuse p)) :
    calls l = [] ∧ ∀ r ∈ answers l, ∃ s : Status, s.code = p.statusCode.toNat ∧
      r = onWire h (problemResponse s p) := by
  obtain ⟨i, hi⟩ := List.mem_iff_getElem?.1 hb
  rcases (transcript cfg es).blocks i h l hi with hx | ⟨hx, -⟩
  · generalize hl : ConnEffect.read h :: l = l0 at hx
    cases hx with
    | refused hj' hs =>
      cases hl
      cases judged_unique hj hj'
      refine ⟨rfl, fun r hmem => ⟨_, hs, ?_⟩⟩
      simpa only [answers, List.filterMap, List.mem_singleton] using hmem
    | served hj' => cases judged_unique hj hj'
  · generalize hl : ConnEffect.read h :: l = l0 at hx
    cases hx with
    | read => cases hl; exact ⟨rfl, by simp [answers]⟩
    | refusing hj' hs =>
      cases hl
      cases judged_unique hj hj'
      refine ⟨rfl, fun r hmem => ⟨_, hs, ?_⟩⟩
      simpa only [answers, List.filterMap, List.mem_singleton] using hmem
    | invoked hj' => cases judged_unique hj hj'
    | returned hj' => cases judged_unique hj hj'
    | serving hj' => cases judged_unique hj hj'

/-- **C37.** A request that is to be handled is answered, if at all, with what the handler made of
it. -/
theorem C37_served (cfg : ServerCfg) (es : List ConnEvent) (h : ReqHead) (l : List ConnEffect)
    (hb : (h, l) ∈ blocks (connLog cfg es)) (s : Service) (v : Val)
    (hj : Judged cfg h (.call s v)) : ∀ r ∈ answers l, ∃ w resp body r',
      calls l = [(s, v, w)] ∧ returned l = [(resp, body)] ∧ serResponse resp body = .ok r' ∧
      r = onWire h r' := by
  obtain ⟨i, hi⟩ := List.mem_iff_getElem?.1 hb
  rcases (transcript cfg es).blocks i h l hi with hx | ⟨hx, -⟩
  · generalize hl : ConnEffect.read h :: l = l0 at hx
    cases hx with
    | refused hj' hs => cases judged_unique hj hj'
    | served hj' hr =>
      cases hl
      cases judged_unique hj hj'
      intro r hmem
      simp only [answers, List.filterMap, List.mem_singleton] at hmem
      exact ⟨_, _, _, _, rfl, rfl, hr, hmem⟩
  · generalize hl : ConnEffect.read h :: l = l0 at hx
    cases hx with
    | read => cases hl; simp [answers]
    | refusing hj' hs => cases judged_unique hj hj'
    | invoked hj' => cases hl; simp [answers]
    | returned hj' => cases hl; simp [answers]
    | serving hj' hr =>
      cases hl
      cases judged_unique hj hj'
      intro r hmem
      simp only [answers, List.filterMap, List.mem_singleton] at hmem
      exact ⟨_, _, _, _, rfl, rfl, hr, hmem⟩

theorem accept_refuse {cfg : ServerCfg} {h : ReqHead} {p : Problem} (hj : Judged cfg h (.refuse p))
    {f : Bytes → Parsed Bytes} (hf : Wire.body h.headers = some f) (c : ConnState) :
    c.accept cfg h = ({ c with method := h.method, phase := .refusing h p }, []) := by
  generalize hd : Verdict.refuse p = d at hj
  have hr : ∀ segs, cfg.router.route h.method segs = dispatch h.method segs (table cfg) :=
    fun segs => C02_exact_dispatch _ _ _
  cases hj with
  | noUrl h1 =>
    cases hd
    simp only [ConnState.accept, parseRelativeUrl, h1, Res.ofOption_none, ConnState.withBody, hf]
    rfl
  | noPath h1 h2 h3 =>
    cases hd
    simp only [ConnState.accept, parseRelativeUrl, h1, Res.ofOption_some, routeUrl, h2, hr, h3,
      ConnState.withBody, hf]
    rfl
  | noMethod h1 h2 h3 =>
    cases hd
    simp only [ConnState.accept, parseRelativeUrl, h1, Res.ofOption_some, routeUrl, h2, hr, h3,
      ConnState.withBody, hf]
    rfl
  | @undecodable t segs s h1 h2 h3 h4 =>
    cases hd
    have h5 : deRequest s.entry s.reqTy t h.headers = .err .invalid := by
      rcases C58_request s.entry s.reqTy t h.headers with ⟨v, hv⟩ | hv
      · exact absurd hv (h4 v)
      · exact hv
    simp only [ConnState.accept, parseRelativeUrl, h1, Res.ofOption_some, routeUrl, h2, hr, h3,
      ConnState.handle, h5, ConnState.withBody, hf]
    rfl
  | call => cases hd

theorem accept_call {cfg : ServerCfg} {h : ReqHead} {s : Service} {v : Val}
    (hj : Judged cfg h (.call s v)) {f : Bytes → Parsed Bytes} (hf : Wire.body h.headers = some f)
    (c : ConnState) :
    c.accept cfg h = ({ c with method := h.method, phase := .readBody h s v }, []) := by
  generalize hd : Verdict.call s v = d at hj
  have hr : ∀ segs, cfg.router.route h.method segs = dispatch h.method segs (table cfg) :=
    fun segs => C02_exact_dispatch _ _ _
  cases hj with
  | call h1 h2 h3 h4 =>
    cases hd
    simp only [ConnState.accept, parseRelativeUrl, h1, Res.ofOption_some, routeUrl, h2, hr, h3,
      ConnState.handle, h4, ConnState.withBody, hf]
  | _ => cases hd

/-- **C37.** When a request that is to be refused has arrived completely, polling answers it, and the
next request is read after its last byte. -/
theorem C37_refusal_is_answered (cfg : ServerCfg) (c : ConnState) (h : ReqHead) (p : Problem)
    (f : Bytes → Parsed Bytes) (rest b rest' : Bytes) (hc : c.phase = .readHead)
    (hh : Wire.head c.input = .done h rest) (hf : Wire.body h.headers = some f)
    (hb : f rest = .done b rest') (hj : Judged cfg h (.refuse p)) :
    ∃ s : Status, s.code = p.statusCode.toNat ∧
      c.run cfg [.input, .input, .written true] = (⟨.readHead, h.method, rest', c.closed⟩,
        [.read h, .drained b, .answer (onWire h (problemResponse s p)), .written]) := by
  have hs : ∃ s : Status, s.code = p.statusCode.toNat := by
    have := accept_current cfg c h
    rw [accept_refuse hj hf] at this
    exact this.2.2.2
  obtain ⟨s, hs⟩ := hs
  refine ⟨s, hs, ?_⟩
  have hr : serResponse (ProblemResponse.ofProblem p).toVal
      (ProblemResponse.ofProblem p).bodyBytes = .ok (problemResponse s p) :=
    serResponse_problem _ rfl hs
  have hw := onWire_eq ⟨.readHead, h.method, rest', c.closed⟩ h rfl (problemResponse s p)
  simp only at hw
  simp only [ConnState.run, ConnState.step, hc, ConnState.pollHead, hh, accept_refuse hj hf,
    ConnState.pollRefusing, hf, hb, ConnState.respond, hr, hw]
  rfl

/-- **C37.** When a request that is to be handled has arrived completely, it is given to its handler,
and what this returns is written, unless it is no response at all. -/
theorem C37_call_is_answered (cfg : ServerCfg) (c : ConnState) (h : ReqHead) (s : Service) (v w : Val)
    (f : Bytes → Parsed Bytes) (rest b rest' : Bytes) (resp : Val) (body : Bytes) (r : Response)
    (hc : c.phase = .readHead)
    (hh : Wire.head c.input = .done h rest) (hf : Wire.body h.headers = some f)
    (hb : f rest = .done b rest') (hj : Judged cfg h (.call s v))
    (hr : serResponse resp body = .ok r) :
    c.run cfg [.input, .bodyRead w rest', .handled resp body, .written true] =
      (⟨.readHead, h.method, rest', c.closed⟩,
        [.read h, .invoked s v w, .returned resp body, .answer (onWire h r), .written]) := by
  have hw := onWire_eq ⟨.readHead, h.method, rest', c.closed⟩ h rfl r
  simp only at hw
  have hleaves : ConnState.leaves f rest rest' = true := by
    simp only [ConnState.leaves, hb]
    simp [Wire.body_rest _ _ _ _ _ hf hb]
  simp only [ConnState.run, ConnState.step, hc, ConnState.pollHead, hh, accept_call hj hf,
    hf, hleaves, if_true, ConnState.respond, hr, hw]
  rfl

/-! ### C38 -/

/-- **C38.** Over any history, the calls of handlers are exactly those for the requests read which
have a handler and decode, in order and with the decoded values; only the call for the last request
may be outstanding, while this is not answered yet. -/
theorem C38_calls (cfg : ServerCfg) (es : List ConnEvent) :
    ∃ outstanding, (reads (connLog cfg es)).filterMap (wanted cfg) =
        (calls (connLog cfg es)).map (fun c => (c.1, c.2.1)) ++ outstanding ∧
      outstanding.length ≤ 1 ∧
      (outstanding ≠ [] → (answers (connLog cfg es)).length < (reads (connLog cfg es)).length) :=
  (transcript cfg es).calls

/-- **C38.** So when all requests are answered, the handlers have been called exactly once for each
request that is wanted, and for no other. -/
theorem C38_calls_when_answered (cfg : ServerCfg) (es : List ConnEvent)
    (h : (answers (connLog cfg es)).length = (reads (connLog cfg es)).length) :
    (calls (connLog cfg es)).map (fun c => (c.1, c.2.1)) =
      (reads (connLog cfg es)).filterMap (wanted cfg) := by
  obtain ⟨out, h1, -, h3⟩ := C38_calls cfg es
  cases out with
  | nil => rw [h1, List.append_nil]
  | cons x out => exact absurd (h3 (by simp)) (by omega)

/-- **C38.** `wanted` is the column of the decision table for calls. -/
theorem C38_wanted_iff (cfg : ServerCfg) (h : ReqHead) (s : Service) (v : Val) :
    wanted cfg h = some (s, v) ↔ Judged cfg h (.call s v) := by
  constructor
  · intro hw
    have hp : ¬ Pathless cfg h := by
      rintro ⟨t, h1, h2⟩
      simp [wanted, h1, h2] at hw
    obtain ⟨d, hd, -⟩ := C37_one_verdict cfg h hp
    have := wanted_of_judged hd
    rw [hw] at this
    cases d with
    | refuse p => cases this
    | call s' v' => cases this; exact hd
  · intro hj; exact wanted_of_judged hj

/-! ### C39 -/

/-- **C39.** At every moment: no more responses have been written than begun, no more begun than
requests read, and at most one request more has been read than responses were written
completely. -/
theorem C39_one_at_a_time (cfg : ServerCfg) (es : List ConnEvent) (p : List ConnEffect)
    (hp : p <+: connLog cfg es) :
    writtenCount p ≤ (answers p).length ∧ (answers p).length ≤ (reads p).length ∧
      (reads p).length ≤ writtenCount p + 1 :=
  (transcript cfg es).orderly p hp

/-- **C39.** The `n`-th response is the one for the `n`-th request. -/
theorem C39_nth_response (cfg : ServerCfg) (es : List ConnEvent) (n : Nat) (r : Response)
    (hr : (answers (connLog cfg es))[n]? = some r) :
    ∃ h l, (reads (connLog cfg es))[n]? = some h ∧ (blocks (connLog cfg es))[n]? = some (h, l) ∧
      answers l = [r] := by
  obtain ⟨h, l, h1, h2⟩ := (transcript cfg es).nth n r hr
  refine ⟨h, l, ?_, h1, h2⟩
  rw [← blocks_reads, List.getElem?_map, h1]
  rfl

/-- **C39.** Every request but the last one has exactly one response, written completely before the
next request was read. -/
theorem C39_one_response_each (cfg : ServerCfg) (es : List ConnEvent) (n : Nat) (h : ReqHead)
    (l : List ConnEffect) (hb : (blocks (connLog cfg es))[n]? = some (h, l))
    (hn : n + 1 < (blocks (connLog cfg es)).length) :
    ∃ l' r, l = l' ++ [.answer r, .written] ∧ answers l' = [] ∧ writtenCount l' = 0 := by
  rcases (transcript cfg es).blocks n h l hb with hx | ⟨-, hx⟩
  · generalize hl : ConnEffect.read h :: l = l0 at hx
    cases hx with
    | refused => cases hl; exact ⟨[_], _, rfl, rfl, rfl⟩
    | served => cases hl; exact ⟨[_, _], _, rfl, rfl, rfl⟩
  · omega

/-! ### C40 -/

theorem serResponse_length {v : Val} {body : Bytes} {r : Response}
    (h : serResponse v body = .ok r) : r.body = body ∧ contentLength body ∈ r.headers := by
  rw [serResponse] at h
  obtain ⟨st, -, h⟩ := Res.bind_eq_ok.1 h
  rw [RespSer.finish] at h
  split at h
  · cases h
  · cases h; exact ⟨rfl, by simp⟩

/-- **C40.** The response to the `n`-th request is written with its body, entirely, exactly if this
request is not a `HEAD` request; the content length is in any case that of the entire body, which is
the document of the problem or what the handler returned. -/
theorem C40_head_without_body (cfg : ServerCfg) (es : List ConnEvent) (n : Nat) (h : ReqHead)
    (r : Response) (hh : (reads (connLog cfg es))[n]? = some h)
    (hr : (answers (connLog cfg es))[n]? = some r) :
    ∃ body, contentLength body ∈ r.headers ∧
      r.body = (if h.method = .head then [] else body) ∧
      ((∃ p, Judged cfg h (.refuse p) ∧ body = JsonText.render p.toJson) ∨
       ∃ s v l resp, Judged cfg h (.call s v) ∧ (blocks (connLog cfg es))[n]? = some (h, l) ∧
         returned l = [(resp, body)]) := by
  obtain ⟨h', l, h1, h2, h3⟩ := C39_nth_response cfg es n r hr
  rw [hh] at h1
  cases h1
  have hw : ∀ r' : Response, (onWire h r').headers = r'.headers ∧
      (onWire h r').body = if h.method = .head then [] else r'.body := by
    intro r'
    rw [onWire]
    cases h.method <;> simp
  have refuse : ∀ {p s}, Judged cfg h (.refuse p) → r = onWire h (problemResponse s p) →
      contentLength (JsonText.render p.toJson) ∈ r.headers ∧
      r.body = (if h.method = .head then [] else JsonText.render p.toJson) := by
    intro p s _ hr
    rw [hr, (hw _).1, (hw _).2]
    exact ⟨by simp [problemResponse], rfl⟩
  have serve : ∀ {resp body r'}, serResponse resp body = .ok r' → r = onWire h r' →
      contentLength body ∈ r.headers ∧ r.body = (if h.method = .head then [] else body) := by
    intro resp body r' hs hr
    obtain ⟨h4, h5⟩ := serResponse_length hs
    rw [hr, (hw _).1, (hw _).2, h4]
    exact ⟨h5, rfl⟩
  rcases (transcript cfg es).blocks n h l h2 with hx | ⟨hx, -⟩
  · generalize hl : ConnEffect.read h :: l = l0 at hx
    cases hx with
    | refused hj hs =>
      cases hl
      simp only [answers, List.filterMap, List.cons.injEq, and_true] at h3
      obtain ⟨h5, h6⟩ := refuse hj h3.symm
      exact ⟨_, h5, h6, .inl ⟨_, hj, rfl⟩⟩
    | served hj hs =>
      cases hl
      simp only [answers, List.filterMap, List.cons.injEq, and_true] at h3
      obtain ⟨h5, h6⟩ := serve hs h3.symm
      exact ⟨_, h5, h6, .inr ⟨_, _, _, _, hj, h2, rfl⟩⟩
  · generalize hl : ConnEffect.read h :: l = l0 at hx
    cases hx with
    | read => cases hl; simp [answers] at h3
    | invoked => cases hl; simp [answers] at h3
    | returned => cases hl; simp [answers] at h3
    | refusing hj hs =>
      cases hl
      simp only [answers, List.filterMap, List.cons.injEq, and_true] at h3
      obtain ⟨h5, h6⟩ := refuse hj h3.symm
      exact ⟨_, h5, h6, .inl ⟨_, hj, rfl⟩⟩
    | serving hj hs =>
      cases hl
      simp only [answers, List.filterMap, List.cons.injEq, and_true] at h3
      obtain ⟨h5, h6⟩ := serve hs h3.symm
      exact ⟨_, h5, h6, .inr ⟨_, _, _, _, hj, h2, rfl⟩⟩

/-! ### C41 -/

/-- The connection is over. -/
def ConnState.ended (c : ConnState) : Prop :=
  c.phase = .finished ∨ c.phase = .failed ∨ c.phase = .panicked

theorem step_ended (cfg : ServerCfg) {c : ConnState} (hc : c.ended) (e : ConnEvent) :
    (c.step cfg e).1.ended ∧ (c.step cfg e).2 = [] := by
  cases e with
  | recv bs => rw [ConnState.step]; split <;> exact ⟨hc, rfl⟩
  | close k => rw [ConnState.step]; split <;> exact ⟨hc, rfl⟩
  | _ =>
    rcases hc with hc | hc | hc <;> simp [ConnState.step, hc, ConnState.ended]

theorem run_ended (cfg : ServerCfg) {c : ConnState} (hc : c.ended) (es : List ConnEvent) :
    (c.run cfg es).2 = [] := by
  induction es generalizing c with
  | nil => rfl
  | cons e es ih =>
    obtain ⟨h1, h2⟩ := step_ended cfg hc e
    simp only [ConnState.run, h2, ih h1]
    rfl

theorem AtConn.ended_iff {cfg : ServerCfg} {c : ConnState} {log : List ConnEffect}
    (h : AtConn cfg c log) : (∃ e ∈ log, isFinal e = true) → c.ended := by
  obtain ⟨past, cur, rfl, hp, hc⟩ := h
  have hpast : ∀ e ∈ past, isFinal e = false := by
    clear hc
    induction hp with
    | nil => simp
    | snoc _ hx ih =>
      obtain ⟨l, rfl, hl⟩ := hx.shape
      intro e he
      rcases List.mem_append.1 he with he | he
      · exact ih e he
      · rcases List.mem_cons.1 he with rfl | he
        · rfl
        · have := hl e he; simp at this; exact this.2
  have hst : ∀ {h l}, Started cfg h l → ∀ e ∈ l, isFinal e = false := by
    intro h l hx e he
    obtain ⟨l, rfl, hl⟩ := hx.shape
    rcases List.mem_cons.1 he with rfl | he
    · rfl
    · have := hl e he; simp at this; exact this.2
  rintro ⟨e, he, hf⟩
  rcases List.mem_append.1 he with he | he
  · rw [hpast e he] at hf; cases hf
  · rw [Current] at hc
    split at hc
    · subst hc; cases he
    · subst hc; cases he
    · obtain ⟨rfl, -⟩ := hc; rw [hst .read e he] at hf; cases hf
    · obtain ⟨rfl, -⟩ := hc; rw [hst .read e he] at hf; cases hf
    · obtain ⟨h, s, v, w, rfl, hj, -⟩ := hc; rw [hst (.invoked hj) e he] at hf; cases hf
    · obtain ⟨h, hs, -⟩ := hc; rw [hst hs e he] at hf; cases hf
    · rename_i hp; exact .inl hp
    · rename_i hp; exact .inr (.inl hp)
    · rename_i hp; exact .inr (.inr hp)

/-- **C41.** After the end of a connection, whichever it is, nothing is read, called or written,
whatever happens. -/
theorem C41_nothing_after_end (cfg : ServerCfg) (es es' : List ConnEvent)
    (h : ∃ e ∈ connLog cfg es, isFinal e = true) : connLog cfg (es ++ es') = connLog cfg es := by
  rw [connLog, conn_run_append]
  simp only [run_ended cfg ((atConn cfg es).ended_iff h) es', List.append_nil]

/-- **C41.** There is one end at most, and it is the last thing observed. -/
theorem C41_end_is_last (cfg : ServerCfg) (es : List ConnEvent) (a b : List ConnEffect)
    (e : ConnEffect) (h : connLog cfg es = a ++ e :: b) (he : isFinal e = true) : b = [] :=
  (transcript cfg es).final a e b h he

/-- **C41.** If the peer closes or resets the connection where a request would begin, or within its
head, the connection ends quietly. -/
theorem C41_quiet_end (cfg : ServerCfg) (c : ConnState) (hc : c.phase = .readHead)
    (hh : Wire.head c.input = .more) (hk : c.closed = some .eof ∨ c.closed = some .reset) :
    c.step cfg .input = ({ c with phase := .finished }, [.finished]) := by
  simp only [ConnState.step, hc, ConnState.pollHead, hh]
  rcases hk with hk | hk <;> rw [hk]

/-- **C41.** Every failure ends the connection with a warning: to establish it, to write a response,
to read the body, a malformed head or body, and I/O errors other than the two. -/
theorem C41_failures (cfg : ServerCfg) (c : ConnState) :
    (c.phase = .connecting → c.step cfg (.connected false) = c.fail) ∧
    (c.phase = .writing → c.step cfg (.written false) = c.fail) ∧
    (∀ h s v, c.phase = .readBody h s v → c.step cfg .bodyFailed = c.fail) ∧
    (c.phase = .readHead → Wire.head c.input = .bad → c.step cfg .input = c.fail) ∧
    (c.phase = .readHead → Wire.head c.input = .more → c.closed = some .failure →
      c.step cfg .input = c.fail) ∧
    (∀ h p f, c.phase = .refusing h p → Wire.body h.headers = some f →
      (f c.input = .bad ∨ f c.input = .more ∧ c.closed ≠ none) → c.step cfg .input = c.fail) ∧
    (c.phase = .handling → ∀ resp body, (∀ r, serResponse resp body ≠ .ok r) →
      c.step cfg (.handled resp body) = (c.fail.1, .returned resp body :: c.fail.2)) := by
  refine ⟨fun h => ?_, fun h => ?_, fun hd s v h => ?_, fun h h1 => ?_, fun h h1 h2 => ?_,
    fun hd p f h h1 h2 => ?_, fun h resp body h1 => ?_⟩
  · simp [ConnState.step, h]
  · simp [ConnState.step, h]
  · simp [ConnState.step, h]
  · simp [ConnState.step, h, ConnState.pollHead, h1]
  · simp [ConnState.step, h, ConnState.pollHead, h1, h2]
  · rcases h2 with h2 | ⟨h2, h3⟩
    · simp [ConnState.step, h, ConnState.pollRefusing, h1, h2]
    · cases hk : c.closed with
      | none => exact absurd hk h3
      | some k => simp [ConnState.step, h, ConnState.pollRefusing, h1, h2, hk]
  · rcases C31_response_sent_or_invalid resp body with ⟨r, hr, -⟩ | hr
    · exact absurd hr (h1 r)
    · simp [ConnState.step, h, ConnState.respond, hr]

/-- **C41.** A connection ends quietly only after the peer has closed or reset it and every request
read has been answered completely. -/
theorem C41_finished (cfg : ServerCfg) (es : List ConnEvent)
    (h : ConnEffect.finished ∈ connLog cfg es) :
    (.close .eof ∈ es ∨ .close .reset ∈ es) ∧
    writtenCount (connLog cfg es) = (reads (connLog cfg es)).length := by
  constructor
  · -- how `closed` and `finished` come about
    have key : ∀ (es : List ConnEvent) (c : ConnState),
        ConnEffect.finished ∈ (c.run cfg es).2 →
        (c.closed = some .eof ∨ c.closed = some .reset) ∨ .close .eof ∈ es ∨ .close .reset ∈ es := by
      intro es
      induction es with
      | nil => intro c h; cases h
      | cons e es ih =>
        intro c h
        simp only [ConnState.run, List.mem_append] at h
        rcases h with h | h
        · left
          have hacc : ∀ (c : ConnState) h, ConnEffect.finished ∉ (c.accept cfg h).2 := by
            intro c h
            rcases accept_left cfg c h with ⟨_, he, -⟩ | ⟨_, he, -⟩ | ⟨_, he, -⟩ <;> rw [he] <;>
              simp [ConnState.fail, ConnState.panic]
          have hresp : ∀ (c : ConnState) v b, ConnEffect.finished ∉ (c.respond v b).2 := by
            intro c v b
            rw [ConnState.respond]
            split <;> simp [ConnState.fail, ConnState.panic]
          cases e with
          | recv bs => rw [ConnState.step] at h; split at h <;> cases h
          | close k => rw [ConnState.step] at h; split at h <;> cases h
          | notReady => cases h
          | connected ok =>
            rw [ConnState.step] at h
            split at h
            · split at h <;> simp [ConnState.fail] at h
            · cases h
          | input =>
            rw [ConnState.step] at h
            split at h
            · rw [ConnState.pollHead] at h
              split at h
              · simp only [List.mem_cons] at h
                rcases h with h | h
                · cases h
                · exact absurd h (hacc _ _)
              · simp [ConnState.fail] at h
              · split at h
                · cases h
                · rename_i hk; exact .inl hk
                · rename_i hk; exact .inr hk
                · simp [ConnState.fail] at h
            · rw [ConnState.pollRefusing] at h
              split at h
              · simp [ConnState.fail] at h
              · split at h
                · simp only [List.mem_cons] at h
                  rcases h with h | h
                  · cases h
                  · exact absurd h (hresp _ _ _)
                · simp [ConnState.fail] at h
                · split at h
                  · cases h
                  · simp [ConnState.fail] at h
            · cases h
          | bodyRead w rest =>
            rw [ConnState.step] at h
            split at h
            · split at h
              · cases h
              · split at h <;> simp at h
            · cases h
          | bodyFailed =>
            rw [ConnState.step] at h
            split at h
            · simp [ConnState.fail] at h
            · cases h
          | handled v body =>
            rw [ConnState.step] at h
            split at h
            · simp only [List.mem_cons] at h
              rcases h with h | h
              · cases h
              · exact absurd h (hresp _ _ _)
            · cases h
          | written ok =>
            rw [ConnState.step] at h
            split at h
            · split at h <;> simp [ConnState.fail] at h
            · cases h
        · rcases ih _ h with h | h
          · by_cases hk : ∃ k, e = .close k
            · obtain ⟨k, rfl⟩ := hk
              rw [ConnState.step] at h
              split at h
              · rcases h with h | h <;> cases h
                · exact .inr (.inl List.mem_cons_self)
                · exact .inr (.inr List.mem_cons_self)
              · exact .inl h
            · rw [step_closed cfg c e fun k h => hk ⟨k, h⟩] at h
              exact .inl h
          · rcases h with h | h
            · exact .inr (.inl (List.mem_cons_of_mem _ h))
            · exact .inr (.inr (List.mem_cons_of_mem _ h))
    rcases key es .new h with h | h
    · rcases h with h | h <;> cases h
    · exact h
  · have ht := transcript cfg es
    revert h
    generalize connLog cfg es = log at ht
    have hst : ∀ {h l}, Started cfg h l → ConnEffect.finished ∉ l := by
      intro h l hx hm
      obtain ⟨l, rfl, hl⟩ := hx.shape
      simp only [List.mem_cons, reduceCtorEq, false_or] at hm
      have := hl _ hm
      simp [isFinal] at this
    induction ht with
    | @exchange h l rest hx ht ih =>
      intro hm
      obtain ⟨h1, h2, h3⟩ := hx.counts
      rcases List.mem_append.1 hm with hm | hm
      · obtain ⟨l, rfl, hl⟩ := hx.shape
        simp only [List.mem_cons, reduceCtorEq, false_or] at hm
        have := hl _ hm
        simp [isFinal] at this
      · rw [writtenCount_append, reads_append, List.length_append, h1, h3, ih hm]
        rfl
    | idle => intro hm; cases hm
    | finished => intro _; rfl
    | failed => intro hm; simp at hm
    | started hx => intro hm; exact absurd hm (hst hx)
    | broken hx =>
      intro hm
      simp only [List.mem_append, List.mem_singleton, reduceCtorEq, or_false] at hm
      exact absurd hm (hst hx)
    | panicked => intro hm; simp at hm

/-! ### C42 -/

/-- **C42.** A request makes the server panic exactly if its target is a URL without a path of
segments. -/
theorem C42_panics_iff (cfg : ServerCfg) (c : ConnState) (h : ReqHead) (rest : Bytes)
    (hc : c.phase = .readHead) (hh : Wire.head c.input = .done h rest) :
    ConnEffect.panicked ∈ (c.step cfg .input).2 ↔ Pathless cfg h := by
  have hs : (c.step cfg .input).2 = .read h :: (ConnState.accept cfg { c with input := rest } h).2 := by
    simp only [ConnState.step, hc, ConnState.pollHead, hh]
  rw [hs]
  constructor
  · intro hm
    by_contra hp
    obtain ⟨d, hj, -⟩ := C37_one_verdict cfg h hp
    have hcur := accept_current cfg { c with input := rest } h
    rcases accept_left cfg { c with input := rest } h with ⟨_, he, -⟩ | ⟨c', he, -⟩ | ⟨c', he, -⟩
    · rw [he] at hm; simp at hm
    · rw [he] at hm; simp [ConnState.fail] at hm
    · rw [he] at hcur
      obtain ⟨h', hp', he'⟩ := hcur
      cases he'
      exact hp hp'
  · rintro ⟨t, h1, h2⟩
    simp [ConnState.accept, parseRelativeUrl, h1, routeUrl, h2, ConnState.panic]

/-- **C42.** Nothing else makes a connection panic, over any history. -/
theorem C42_only_pathless_panics (cfg : ServerCfg) (es : List ConnEvent)
    (h : ConnEffect.panicked ∈ connLog cfg es) : ∃ r ∈ reads (connLog cfg es), Pathless cfg r := by
  have ht := transcript cfg es
  revert h
  generalize connLog cfg es = log at ht
  have hst : ∀ {h l}, Started cfg h l → ConnEffect.panicked ∉ l := by
    intro h l hx hm
    obtain ⟨l, rfl, hl⟩ := hx.shape
    simp only [List.mem_cons, reduceCtorEq, false_or] at hm
    have := hl _ hm
    simp [isFinal] at this
  induction ht with
  | @exchange h l rest hx ht ih =>
    intro hm
    rcases List.mem_append.1 hm with hm | hm
    · obtain ⟨l, rfl, hl⟩ := hx.shape
      simp only [List.mem_cons, reduceCtorEq, false_or] at hm
      have := hl _ hm
      simp [isFinal] at this
    · obtain ⟨r, hr, hp⟩ := ih hm
      exact ⟨r, by rw [reads_append]; exact List.mem_append_right _ hr, hp⟩
  | idle => intro hm; cases hm
  | finished => intro hm; simp at hm
  | failed => intro hm; simp at hm
  | started hx => intro hm; exact absurd hm (hst hx)
  | broken hx =>
    intro hm
    simp only [List.mem_append, List.mem_singleton, reduceCtorEq, or_false] at hm
    exact absurd hm (hst hx)
  | @panicked h hp => intro _; exact ⟨h, by simp [reads], hp⟩

theorem dropWhile_none {α : Type} {p : α → Bool} {l : List α} (h : ∀ x ∈ l, p x = false) :
    l.dropWhile p = l := by
  cases l with
  | nil => rfl
  | cons x l => rw [List.dropWhile_cons_of_neg (by rw [h x List.mem_cons_self]; simp)]

theorem parseTarget_visible (o : UrlOracle) {t : Str} (h : ∀ c ∈ t, 0x20 < c.toNat) :
    parseTarget o t = match parseScheme t with
      | none => parseAgainstBase o t
      | some (scheme, rest) =>
        if scheme = "file".toList then o.hier t
        else if scheme ∈ specialSchemes then
          if scheme = "http".toList ∧ ¬ (rest.length ≥ 2 ∧ (rest.take 2).all isSlash) then
            parseAgainstBase o rest
          else o.hier t
        else
          match rest with
          | '/' :: '/' :: _ => o.hier t
          | '/' :: r => some (pathQuery false r)
          | r => some ⟨none, (pathQuery false r).query⟩ := by
  have h0 : ∀ c ∈ t, decide (c.toNat ≤ 0x20) = false := by
    intro c hc
    have := h c hc
    simp; omega
  have h1 : t.filter (fun c => !isTabNl c) = t := by
    rw [List.filter_eq_self]
    intro c hc
    have hgt := h c hc
    simp only [isTabNl, Bool.not_eq_true', Bool.or_eq_false_iff, beq_eq_false_iff_ne]
    refine ⟨⟨?_, ?_⟩, ?_⟩ <;> (rintro rfl; revert hgt; decide)
  rw [parseTarget]
  simp only [dropWhile_none h0, dropWhile_none (l := t.reverse) (fun c hc => h0 c (by simpa using hc)),
    List.reverse_reverse, h1]
  split <;> rename_i hp
  · rw [hp]
  · rw [hp]; rfl

/-- **C42.** A target that begins with a slash, as clients send it, never makes the server panic
(for `//`, where the rest is a host, as long as the URL parser gives it a path). -/
theorem C42_slash_never_panics (cfg : ServerCfg) (h : ReqHead) (r : Str)
    (ht : h.target = '/' :: r) (hvis : ∀ c ∈ r, 0x20 < c.toNat)
    (hhost : ∀ d r', r = d :: r' → isSlash d = true →
      ∀ t, cfg.oracle.hier h.target = some t → t.segs ≠ none) :
    ¬ Pathless cfg h := by
  rintro ⟨t, h1, h2⟩
  have hv : ∀ c ∈ h.target, 0x20 < c.toNat := by
    rw [ht]
    intro c hc
    rcases List.mem_cons.1 hc with rfl | hc
    · decide
    · exact hvis c hc
  rw [parseTarget_visible _ hv] at h1
  have hs : parseScheme h.target = none := by rw [ht]; rfl
  rw [hs] at h1
  simp only [ht, parseAgainstBase] at h1
  rw [if_pos (by decide)] at h1
  cases r with
  | nil => cases h1; cases h2
  | cons d r =>
    simp only at h1
    split at h1
    · rename_i hd
      rw [← ht] at h1
      exact hhost d r rfl hd t h1 h2
    · cases h1; cases h2

/-- The first counterexample to the full statement of **C42**: a target with an unknown scheme and
no slash after it makes every server panic. -/
theorem C42_pathless_target (cfg : ServerCfg) (h : ReqHead) (scheme rest : Str)
    (hvis : ∀ c ∈ h.target, 0x20 < c.toNat) (hs : parseScheme h.target = some (scheme, rest))
    (hf : scheme ≠ "file".toList) (hsp : scheme ∉ specialSchemes) (hr : rest.head? ≠ some '/') :
    Pathless cfg h := by
  refine ⟨⟨none, (pathQuery false rest).query⟩, ?_, rfl⟩
  rw [parseTarget_visible _ hvis, hs]
  simp only [hf, hsp, if_false]
  split
  · simp at hr
  · simp at hr
  · rfl

/-! ### C43 -/

/-- **C43.** If the peer sends requests one after another, and the handlers' `read_body` reads the
bodies, then the requests read are the first of those sent, in order, and the bodies dropped or given
to the handlers are theirs: whichever branch answers, the next request is read from its first byte.  If the connection
ends quietly after all bytes have arrived, all requests have been read. -/
theorem C43_in_step (cfg : ServerCfg) (es : List ConnEvent) (ms : List (ReqHead × Bytes))
    (bytes : Bytes) (hms : Messages ms bytes) (harr : arriving es <+: bytes)
    (g : ReadBody) (hw : ReadsWhole cfg g .new es) :
    ∃ seen left, ms = seen ++ left ∧
      List.Forall₂ (SameRequest g) (received (connLog cfg es)) seen ∧
      (arriving es = bytes → ConnEffect.finished ∈ connLog cfg es → left = []) := by
  obtain ⟨tail, htail⟩ := harr
  have h0 : Sync g [] ms .new [] (toCome .new es tail) := by
    refine ⟨[], ms, rfl, .nil, ?_⟩
    show Stream [] ms ([] ++ toCome .new es tail)
    rw [stream_nil, show toCome .new es tail = arriving es ++ tail from rfl, htail]
    exact hms
  have h := h0.run es noHead_nil hw
  obtain ⟨seen, left, h1, h2, h3⟩ := h
  refine ⟨seen, left, h1, h2, fun hall hfin => ?_⟩
  have htl : tail = [] := by
    rw [hall] at htail
    simpa using htail
  subst htl
  have hend : (ConnState.run cfg .new es).1.phase = .finished := by
    have hat := atConn cfg es
    obtain ⟨past, cur, hlog, hp, hc⟩ := hat
    rw [connLog, hlog] at hfin
    have hnot : ConnEffect.finished ∉ past := by
      clear hc hlog hfin
      induction hp with
      | nil => simp
      | snoc _ hx ih =>
        obtain ⟨l, rfl, hl⟩ := hx.shape
        intro hm
        rcases List.mem_append.1 hm with hm | hm
        · exact ih hm
        · simp only [List.mem_cons, reduceCtorEq, false_or] at hm
          have := hl _ hm
          simp [isFinal] at this
    have hst : ∀ {h l}, Started cfg h l → ConnEffect.finished ∉ l := by
      intro h l hx hm
      obtain ⟨l, rfl, hl⟩ := hx.shape
      simp only [List.mem_cons, reduceCtorEq, false_or] at hm
      have := hl _ hm
      simp [isFinal] at this
    rcases List.mem_append.1 hfin with hm | hm
    · exact absurd hm hnot
    · rw [Current] at hc
      split at hc
      · subst hc; cases hm
      · subst hc; cases hm
      · obtain ⟨rfl, -⟩ := hc; exact absurd hm (hst .read)
      · obtain ⟨rfl, -⟩ := hc; exact absurd hm (hst .read)
      · obtain ⟨h, s, v, w, rfl, hj, -⟩ := hc; exact absurd hm (hst (.invoked hj))
      · obtain ⟨h, hs, -⟩ := hc; exact absurd hm (hst hs)
      · rename_i hp; exact hp
      · rcases hc with rfl | ⟨h, l, hs, rfl⟩
        · simp at hm
        · simp only [List.mem_append, List.mem_singleton, reduceCtorEq, or_false] at hm
          exact absurd hm (hst hs)
      · obtain ⟨h, -, rfl⟩ := hc; simp at hm
  rw [Left, hend] at h3
  obtain ⟨h4, h5, -⟩ := h3
  rw [List.append_nil] at h4
  cases left with
  | nil => rfl
  | cons m left =>
    obtain ⟨rest, h6, -⟩ := Stream.head h4
    rw [h5] at h6
    cases h6

/-! ### C44 -/

theorem server_run_append (cfg : ServerCfg) (s : ServerState) (es es' : List ServerEvent) :
    s.run cfg (es ++ es') = (((s.run cfg es).1.run cfg es').1,
      (s.run cfg es).2 ++ ((s.run cfg es).1.run cfg es').2) := by
  induction es generalizing s with
  | nil => rfl
  | cons e es ih =>
    simp only [List.cons_append, ServerState.run]
    rw [ih]
    simp

theorem effectsOn_map (i j : Nat) (l : List ConnEffect) :
    effectsOn i (l.map (.conn j)) = if j = i then l else [] := by
  induction l with
  | nil => split <;> rfl
  | cons e l ih =>
    rw [List.map_cons, effectsOn, List.filterMap_cons]
    rw [effectsOn] at ih
    by_cases h : j = i
    · simp only [h, if_true] at ih ⊢
      rw [ih]
    · simp only [h, if_false] at ih ⊢
      rw [ih]

theorem effectsOn_append (i : Nat) (a b : List ServerEffect) :
    effectsOn i (a ++ b) = effectsOn i a ++ effectsOn i b := List.filterMap_append

/-- One event, seen from a connection. -/
theorem server_step_conn (cfg : ServerCfg) (s : ServerState) (e : ServerEvent) (i : Nat)
    (c : ConnState) (hc : s.conns[i]? = some c) :
    ((s.step cfg e).1.conns)[i]? = some (c.run cfg (eventsOn i [e])).1 ∧
      effectsOn i (s.step cfg e).2 = (c.run cfg (eventsOn i [e])).2 := by
  have hlt : i < s.conns.length := (List.getElem?_eq_some_iff.1 hc).1
  cases e with
  | bound ok =>
    rw [ServerState.step]
    split
    · split <;> exact ⟨hc, rfl⟩
    · exact ⟨hc, rfl⟩
  | client =>
    rw [ServerState.step]
    split
    · refine ⟨?_, rfl⟩
      show (s.conns ++ [_])[i]? = _
      rw [List.getElem?_append_left hlt]
      exact hc
    · exact ⟨hc, rfl⟩
  | listenFailed => rw [ServerState.step]; split <;> exact ⟨hc, rfl⟩
  | listenEnded => rw [ServerState.step]; split <;> exact ⟨hc, rfl⟩
  | conn j e =>
    by_cases hj : j = i
    · subst hj
      have he : eventsOn j [.conn j e] = [e] := by simp [eventsOn]
      simp only [ServerState.step, hc, he, ConnState.run, effectsOn_map, if_true, List.append_nil,
        and_true]
      rw [List.getElem?_set_self hlt]
    · have he : eventsOn i [.conn j e] = [] := by simp [eventsOn, hj]
      rw [he, ServerState.step]
      split
      · exact ⟨hc, rfl⟩
      · simp only [ConnState.run, effectsOn_map, hj, if_false, and_true]
        rw [List.getElem?_set_ne hj]
        exact hc

theorem server_run_conn (cfg : ServerCfg) (s : ServerState) (es : List ServerEvent) (i : Nat)
    (c : ConnState) (hc : s.conns[i]? = some c) :
    ((s.run cfg es).1.conns)[i]? = some (c.run cfg (eventsOn i es)).1 ∧
      effectsOn i (s.run cfg es).2 = (c.run cfg (eventsOn i es)).2 := by
  induction es generalizing s c with
  | nil => exact ⟨hc, rfl⟩
  | cons e es ih =>
    obtain ⟨h1, h2⟩ := server_step_conn cfg s e i c hc
    obtain ⟨h3, h4⟩ := ih _ _ h1
    have he : eventsOn i (e :: es) = eventsOn i [e] ++ eventsOn i es := by
      rw [eventsOn, eventsOn, eventsOn, ← List.filterMap_append]
      rfl
    rw [he, conn_run_append]
    refine ⟨h3, ?_⟩
    show effectsOn i ((s.step cfg e).2 ++ ((s.step cfg e).1.run cfg es).2) = _
    rw [effectsOn_append, h2, h4]

/-- No effects of connections that do not exist. -/
theorem server_run_fresh (cfg : ServerCfg) (s : ServerState) (es : List ServerEvent) (i : Nat)
    (hi : (s.run cfg es).1.conns.length ≤ i) : effectsOn i (s.run cfg es).2 = [] := by
  induction es generalizing s with
  | nil => rfl
  | cons e es ih =>
    have hmono : ∀ (es : List ServerEvent) (s : ServerState),
        s.conns.length ≤ (s.run cfg es).1.conns.length := by
      intro es
      induction es with
      | nil => intro s; exact Nat.le_refl _
      | cons e es ih =>
        intro s
        refine Nat.le_trans ?_ (ih (s.step cfg e).1)
        cases e with
        | bound ok => rw [ServerState.step]; split <;> [split <;> exact Nat.le_refl _; exact Nat.le_refl _]
        | client => rw [ServerState.step]; split <;> simp
        | listenFailed => rw [ServerState.step]; split <;> exact Nat.le_refl _
        | listenEnded => rw [ServerState.step]; split <;> exact Nat.le_refl _
        | conn j e => rw [ServerState.step]; split <;> simp
    have h1 := ih (s.step cfg e).1 hi
    have h2 : effectsOn i (s.step cfg e).2 = [] := by
      have hlen : s.conns.length ≤ i := Nat.le_trans (hmono (e :: es) s) hi
      cases e with
      | bound ok => rw [ServerState.step]; split <;> [split <;> rfl; rfl]
      | client => rw [ServerState.step]; split <;> rfl
      | listenFailed => rw [ServerState.step]; split <;> rfl
      | listenEnded => rw [ServerState.step]; split <;> rfl
      | conn j e =>
        rw [ServerState.step]
        split
        · rfl
        · rename_i c hc
          have hlt : j < s.conns.length := (List.getElem?_eq_some_iff.1 hc).1
          rw [effectsOn_map, if_neg (by omega)]
    show effectsOn i ((s.step cfg e).2 ++ ((s.step cfg e).1.run cfg es).2) = _
    rw [effectsOn_append, h1, h2]
    rfl

/-- **C44.** What is observed of a connection depends on nothing but what happens on this
connection: it is the same as if the connection were alone, whatever happens on others and to the
listener. -/
theorem C44_isolated (cfg : ServerCfg) (es es' : List ServerEvent)
    (hl : (ServerState.run cfg .new es).1.phase = .listening) :
    effectsOn (ServerState.run cfg .new es).1.conns.length
        (ServerState.run cfg .new (es ++ .client :: es')).2 =
      connLog cfg (eventsOn (ServerState.run cfg .new es).1.conns.length es') := by
  generalize hs : ServerState.run cfg .new es = x at hl
  rw [server_run_append, hs]
  have hfresh := server_run_fresh cfg .new es x.1.conns.length (by rw [hs]; exact Nat.le_refl _)
  rw [hs] at hfresh
  rw [effectsOn_append, hfresh]
  have hstep : x.1.step cfg .client =
      ({ x.1 with conns := x.1.conns ++ [.new] }, [.spawned x.1.conns.length]) := by
    simp [ServerState.step, hl]
  simp only [ServerState.run, hstep]
  rw [effectsOn_append]
  have := (server_run_conn cfg { x.1 with conns := x.1.conns ++ [.new] } es' x.1.conns.length .new
    (by simp)).2
  rw [this]
  rfl

/-- **C44.** As long as the listener works, every client gets a connection of its own, whatever has
happened on other connections. -/
theorem C44_keeps_accepting (cfg : ServerCfg) (es : List ServerEvent)
    (hb : ∃ es0 es1, es = es0 ++ .bound true :: es1 ∧
      ∀ e ∈ es0, e ≠ .bound false)
    (hl : ∀ e ∈ es, e ≠ .listenFailed ∧ e ≠ .listenEnded) :
    (ServerState.run cfg .new es).1.phase = .listening ∧
      (ServerState.run cfg .new (es ++ [.client])).2 =
        (ServerState.run cfg .new es).2 ++
          [.spawned (ServerState.run cfg .new es).1.conns.length] := by
  have keep : ∀ (es : List ServerEvent) (s : ServerState), s.phase = .listening →
      (∀ e ∈ es, e ≠ .listenFailed ∧ e ≠ .listenEnded) → (s.run cfg es).1.phase = .listening := by
    intro es
    induction es with
    | nil => intro s h _; exact h
    | cons e es ih =>
      intro s h hl
      refine ih (s.step cfg e).1 ?_ fun e he => hl e (List.mem_cons_of_mem _ he)
      cases e with
      | bound ok => simp [ServerState.step, h]
      | client => simp [ServerState.step, h]
      | listenFailed => exact absurd rfl (hl _ List.mem_cons_self).1
      | listenEnded => exact absurd rfl (hl _ List.mem_cons_self).2
      | conn j e => rw [ServerState.step]; split <;> exact h
  have bind : ∀ (es : List ServerEvent) (s : ServerState),
      s.phase = .binding ∨ s.phase = .listening →
      (∀ e ∈ es, e ≠ .bound false) → (∀ e ∈ es, e ≠ .listenFailed ∧ e ≠ .listenEnded) →
      (s.run cfg es).1.phase = .binding ∨ (s.run cfg es).1.phase = .listening := by
    intro es
    induction es with
    | nil => intro s h _ _; exact h
    | cons e es ih =>
      intro s h hb hl
      refine ih (s.step cfg e).1 ?_ (fun e he => hb e (List.mem_cons_of_mem _ he))
        fun e he => hl e (List.mem_cons_of_mem _ he)
      cases e with
      | bound ok =>
        cases ok with
        | false => exact absurd rfl (hb _ List.mem_cons_self)
        | true => rcases h with h | h <;> simp [ServerState.step, h]
      | client => rcases h with h | h <;> simp [ServerState.step, h]
      | listenFailed => exact absurd rfl (hl _ List.mem_cons_self).1
      | listenEnded => exact absurd rfl (hl _ List.mem_cons_self).2
      | conn j e => rw [ServerState.step]; split <;> exact h
  obtain ⟨es0, es1, rfl, h0⟩ := hb
  have hph : (ServerState.run cfg .new (es0 ++ .bound true :: es1)).1.phase = .listening := by
    rw [server_run_append]
    have h1 := bind es0 .new (.inl rfl) h0 fun e he => hl e (List.mem_append_left _ he)
    generalize ServerState.run cfg .new es0 = x at h1
    refine keep es1 (x.1.step cfg (.bound true)).1 ?_
      fun e he => hl e (List.mem_append_right _ (List.mem_cons_of_mem _ he))
    rcases h1 with h1 | h1 <;> simp [ServerState.step, h1]
  refine ⟨hph, ?_⟩
  rw [server_run_append]
  generalize ServerState.run cfg .new (es0 ++ .bound true :: es1) = x at hph
  simp [ServerState.run, ServerState.step, hph]

/-- **C44.** A failure of the listener does end the server: it is reported once, with its kind, and no
client gets a connection any more. -/
theorem C44_listener_failure_ends (cfg : ServerCfg) (es es' : List ServerEvent) (e : ServerEvent)
    (k : Kind) (hl : (ServerState.run cfg .new es).1.phase = .listening)
    (he : e = .listenFailed ∧ k = .other ∨ e = .listenEnded ∧ k = .invalid) :
    ∃ effs, (ServerState.run cfg .new (es ++ e :: es')).2 =
        (ServerState.run cfg .new es).2 ++ .failed k :: effs ∧
      (∀ i, ServerEffect.spawned i ∉ effs) ∧ ∀ k', ServerEffect.failed k' ∉ effs := by
  have dead : ∀ (es : List ServerEvent) (s : ServerState), s.phase = .failed k →
      (∀ i, ServerEffect.spawned i ∉ (s.run cfg es).2) ∧
        ∀ k', ServerEffect.failed k' ∉ (s.run cfg es).2 := by
    intro es
    induction es with
    | nil => intro s _; exact ⟨by simp [ServerState.run], by simp [ServerState.run]⟩
    | cons e es ih =>
      intro s h
      have h1 : (s.step cfg e).1.phase = .failed k ∧
          (∀ i, ServerEffect.spawned i ∉ (s.step cfg e).2) ∧
          ∀ k', ServerEffect.failed k' ∉ (s.step cfg e).2 := by
        cases e with
        | conn j e =>
          rw [ServerState.step]
          split
          · exact ⟨h, by simp, by simp⟩
          · exact ⟨h, by simp, by simp⟩
        | _ => simp [ServerState.step, h]
      obtain ⟨h2, h3⟩ := ih _ h1.1
      refine ⟨fun i hi => ?_, fun k' hk => ?_⟩
      · rcases List.mem_append.1 (show _ ∈ (s.step cfg e).2 ++ _ from hi) with hi | hi
        · exact h1.2.1 i hi
        · exact h2 i hi
      · rcases List.mem_append.1 (show _ ∈ (s.step cfg e).2 ++ _ from hk) with hk | hk
        · exact h1.2.2 k' hk
        · exact h3 k' hk
  rw [server_run_append]
  generalize ServerState.run cfg .new es = x at hl
  have hstep : x.1.step cfg e = ({ x.1 with phase := .failed k }, [.failed k]) := by
    rcases he with ⟨rfl, rfl⟩ | ⟨rfl, rfl⟩ <;> simp [ServerState.step, hl]
  obtain ⟨h1, h2⟩ := dead es' { x.1 with phase := .failed k } rfl
  refine ⟨_, ?_, h1, h2⟩
  simp only [ServerState.run, hstep]
  rfl

/-- **C44.** Only a failure of the listener ends the server. -/
theorem C44_only_listener_ends (cfg : ServerCfg) (es : List ServerEvent) (k : Kind)
    (h : ServerEffect.failed k ∈ (ServerState.run cfg .new es).2) :
    .bound false ∈ es ∨ .listenFailed ∈ es ∨ .listenEnded ∈ es := by
  have key : ∀ (es : List ServerEvent) (s : ServerState), ServerEffect.failed k ∈ (s.run cfg es).2 →
      .bound false ∈ es ∨ .listenFailed ∈ es ∨ .listenEnded ∈ es := by
    intro es
    induction es with
    | nil => intro s h; cases h
    | cons e es ih =>
      intro s h
      rcases List.mem_append.1 (show _ ∈ (s.step cfg e).2 ++ _ from h) with h | h
      · cases e with
        | bound ok =>
          cases ok with
          | false => exact .inl List.mem_cons_self
          | true => rw [ServerState.step] at h; split at h <;> simp at h
        | client => rw [ServerState.step] at h; split at h <;> simp at h
        | listenFailed => exact .inr (.inl List.mem_cons_self)
        | listenEnded => exact .inr (.inr List.mem_cons_self)
        | conn j e => rw [ServerState.step] at h; split at h <;> simp at h
      · rcases ih _ h with h | h | h
        · exact .inl (List.mem_cons_of_mem _ h)
        · exact .inr (.inl (List.mem_cons_of_mem _ h))
        · exact .inr (.inr (List.mem_cons_of_mem _ h))
  exact key es .new h

end

end Htrpc
