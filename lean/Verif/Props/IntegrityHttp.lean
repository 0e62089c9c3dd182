/-
Remote procedure calls with any requests and responses arrive unchanged or not at all (C77).
-/
import Verif.Spec.IntegrityHttp
import Verif.Props.HttpEndToEnd
import Verif.Props.IntegrityRequest
import Verif.Props.IntegrityResponse

set_option linter.unusedSectionVars false

namespace Htrpc
open Spec Http

section
variable [LawfulFloatText] [UrlText] [JsonText] [MethodNames]

/-! ### Lemmas -/

theorem Spec.SafeHeaders.ascii {hs : List Header} (h : SafeHeaders hs) : AsciiNames hs := by
  intro x hx b hb
  have := isToken_facts ((h x hx).1.2 b hb)
  omega

theorem Spec.Issues.message {c : Invocation} {r : Request} (h : Issues c r) :
    letI := httpWire
    Message r.asRead.1 r.asRead.2 (writeRequest r) := by
  let := httpWire
  obtain ⟨hb, -, -⟩ := C26_request_content_length _ _ _ _ _ h.sent
  obtain ⟨-, f, hf, hf'⟩ := C67_request_arrives_partial _ _ _ _ _ h.sent h.safe h.framed
  refine ⟨writeHead r.method r.target r.headers, r.body, rfl, fun more => ?_, f, hf, fun more => ?_⟩
  · exact readHead_write _ (C66_target_safe _ _ _ _ _ h.sent) h.safe more
  · show f (r.body ++ more) = .done r.body more
    rw [hb]
    exact hf' more

theorem issues_messages {cs : List Invocation} {rs : List Request} (h : List.Forall₂ Issues cs rs) :
    letI := httpWire
    Messages (rs.map Request.asRead) (rs.flatMap writeRequest) := by
  let := httpWire
  induction h with
  | nil => exact .nil
  | cons h _ ih =>
    rw [List.flatMap_cons, List.map_cons]
    exact .cons h.message ih

omit [JsonText] [MethodNames] in
/-- What a call of a handler says about the request. -/
theorem called {cfg : ServerCfg} {h : ReqHead} {s : Service} {v : Val}
    (hj : Judged cfg h (.call s v)) : ∃ t segs, parseTarget cfg.oracle h.target = some t ∧
      t.segs = some segs ∧ s ∈ cfg.services ∧ s.method = h.method ∧ Matches s.entry segs ∧
      deRequest s.entry s.reqTy t h.headers = .ok v := by
  cases hj with
  | @call t segs _ _ h1 h2 h3 h4 =>
    rw [table, ← C02_exact_dispatch] at h3
    obtain ⟨r, hr, rfl, e2, e3⟩ := C01_routing_sound _ _ _ _ h3
    obtain ⟨s, hs, rfl⟩ := List.mem_map.1 hr
    exact ⟨t, segs, h1, h2, hs, e2, e3, h4⟩

omit [MethodNames] in
/-- The handler that was called in a block is the one for the request. -/
theorem block_called {cfg : ServerCfg} {es : List ConnEvent} [Wire] {n : Nat} {h : ReqHead}
    {l : List ConnEffect} (hn : (blocks (connLog cfg es))[n]? = some (h, l)) {s : Service} {v w : Val}
    (hc : (s, v, w) ∈ calls l) : Judged cfg h (.call s v) ∧ bodyUse l = .handed s v w := by
  rcases (transcript cfg es).blocks n h l hn with hx | ⟨hx, -⟩
  · generalize hl : ConnEffect.read h :: l = l0 at hx
    cases hx with
    | refused hj' => cases hl; simp [calls] at hc
    | served hj' hr =>
      cases hl
      simp only [calls, List.filterMap, List.mem_singleton, Prod.mk.injEq] at hc
      obtain ⟨rfl, rfl, rfl⟩ := hc
      exact ⟨hj', rfl⟩
  · generalize hl : ConnEffect.read h :: l = l0 at hx
    cases hx with
    | read => cases hl; simp [calls] at hc
    | refusing hj' => cases hl; simp [calls] at hc
    | invoked hj' | returned hj' | serving hj' hr =>
      cases hl
      simp only [calls, List.filterMap, List.mem_singleton, Prod.mk.injEq] at hc
      obtain ⟨rfl, rfl, rfl⟩ := hc
      exact ⟨hj', rfl⟩

/-- What was returned and answered in a block belongs together. -/
theorem block_answered {cfg : ServerCfg} {es : List ConnEvent} [Wire] {n : Nat} {h : ReqHead}
    {l : List ConnEffect} (hn : (blocks (connLog cfg es))[n]? = some (h, l)) {resp : Val}
    {body : Bytes} {a : Response} (hr : (resp, body) ∈ returned l) (ha : a ∈ answers l) :
    ∃ r, serResponse resp body = .ok r ∧ a = onWire h r := by
  rcases (transcript cfg es).blocks n h l hn with hx | ⟨hx, -⟩
  · generalize hl : ConnEffect.read h :: l = l0 at hx
    cases hx with
    | refused hj' => cases hl; simp [returned] at hr
    | served hj' hs =>
      cases hl
      simp only [returned, answers, List.filterMap, List.mem_singleton, Prod.mk.injEq] at hr ha
      obtain ⟨rfl, rfl⟩ := hr
      exact ⟨_, hs, ha⟩
  · generalize hl : ConnEffect.read h :: l = l0 at hx
    cases hx with
    | read => cases hl; simp [returned] at hr
    | refusing hj' => cases hl; simp [returned] at hr
    | invoked hj' => cases hl; simp [returned] at hr
    | returned hj' => cases hl; simp [answers] at ha
    | serving hj' hs =>
      cases hl
      simp only [returned, answers, List.filterMap, List.mem_singleton, Prod.mk.injEq] at hr ha
      obtain ⟨rfl, rfl⟩ := hr
      exact ⟨_, hs, ha⟩

/-- What a call that has seen a whole response can complete with. -/
theorem sees_ready {p : Proc} {v : Val} {body : Bytes} {rs : List IoResult} {code : Nat}
    {hs : List Header} {b : Bytes} (hsees : Sees p code hs b rs) {w : Val} {b' : Bytes}
    (h : (callRun p (.new v body) rs).2 = .ready w b') :
    deResponse p.resTy code hs = .ok w ∧ b' = if p.method = .head then [] else b := by
  rw [callRun_skip, hsees] at h
  cases hr : serRequest p.method p.entry v body with
  | err k =>
    by_cases hm : p.method = .head <;>
      simp [callRun, callStep, CallInner.new, hr, hm] at h
    rw [hm] at hr
    simp [hr] at h
  | panic =>
    by_cases hm : p.method = .head <;>
      simp [callRun, callStep, CallInner.new, hr, hm] at h
    rw [hm] at hr
    simp [hr] at h
  | ok r =>
    cases hd : deResponse p.resTy code hs with
    | err k =>
      by_cases hm : p.method = .head <;>
        simp [callRun, callStep, CallInner.new, hr, hm, callDecode, hd] at h
      rw [hm] at hr
      simp [hr] at h
    | panic =>
      by_cases hm : p.method = .head <;>
        simp [callRun, callStep, CallInner.new, hr, hm, callDecode, hd] at h
      rw [hm] at hr
      simp [hr] at h
    | ok w' =>
      by_cases hm : p.method = .head
      · rw [hm] at hr
        simp [callRun, callStep, CallInner.new, hr, hm, callDecode, hd] at h
        simp [hm, h.1, ← h.2]
      · simp [callRun, callStep, CallInner.new, hr, hm, callDecode, hd] at h
        simp [hm, h.1, ← h.2]

/-! ### C77 -/

/-- **C77.** Clients write any requests as HTTP, one after another.  However the bytes arrive at the
server, and whatever happens on the connection: the `n`-th request read is the `n`-th one written, and
if a handler is called for it, then with the body that was sent, and it is a handler for the method that
was sent; if it serves the procedure which the client has called, it gets the parts which the client has
sent, each as C72, C73 and C74 say. -/
theorem C77_requests (cfg : ServerCfg) (es : List ConnEvent) (cs : List Invocation)
    (rs : List Request) (hc : List.Forall₂ Issues cs rs) (g : ReadBody) (n : Nat) (h : ReqHead)
    (l : List ConnEffect) :
    letI := httpWire
    arriving es <+: rs.flatMap writeRequest → ReadsWhole cfg g .new es →
    (blocks (connLog cfg es))[n]? = some (h, l) →
    ∃ c r, cs[n]? = some c ∧ rs[n]? = some r ∧ h = ⟨c.method, r.target, r.headers⟩ ∧
      ∀ s v w, (s, v, w) ∈ calls l → s ∈ cfg.services ∧ s.method = c.method ∧ g s v c.body w ∧
        (s.entry = c.entry → s.reqTy = .struct c.types →
          ∃ ws, v = .struct ws ∧ FieldsArrive PartArrives c.fields ws) := by
  let := httpWire
  intro harr hg hn
  obtain ⟨seen, left, hsplit, hsame, -⟩ := C43_in_step cfg es _ _ (issues_messages hc) harr g hg
  rw [received_blocks] at hsame
  have hlen := hsame.length_eq
  have hnl : n < (blocks (connLog cfg es)).length := (List.getElem?_eq_some_iff.1 hn).1
  rw [List.length_map] at hlen
  have hns : n < seen.length := by omega
  have hs := (List.forall₂_iff_get.1 hsame).2 n (by simpa using hnl) hns
  obtain ⟨_, hbn⟩ := List.getElem?_eq_some_iff.1 hn
  simp only [List.get_eq_getElem, List.getElem_map, hbn] at hs
  have hnr : n < rs.length := by
    have := congrArg List.length hsplit
    rw [List.length_map, List.length_append] at this
    omega
  have hnc : n < cs.length := by rw [hc.length_eq]; exact hnr
  have hi := (List.forall₂_iff_get.1 hc).2 n hnc hnr
  simp only [List.get_eq_getElem] at hi
  have hseen : seen[n] = rs[n].asRead := by
    have : (rs.map Request.asRead)[n]? = some seen[n] := by
      rw [hsplit, List.getElem?_append_left hns, List.getElem?_eq_getElem hns]
    rw [List.getElem?_map, List.getElem?_eq_getElem hnr] at this
    exact (Option.some.inj this).symm
  rw [hseen] at hs
  generalize hcn : cs[n] = c at hi
  generalize hrn : rs[n] = r at hi hs
  obtain ⟨hb, hm, -⟩ := C26_request_content_length _ _ _ _ _ hi.sent
  obtain ⟨rfl, hs⟩ := hs
  refine ⟨c, r, by rw [List.getElem?_eq_getElem hnc, hcn], by rw [List.getElem?_eq_getElem hnr, hrn],
    by rw [← hm]; rfl, fun s v w hcall => ?_⟩
  obtain ⟨hj, hu⟩ := block_called hn hcall
  simp only [hu] at hs
  obtain ⟨t, segs, h1, h2, h3, h4, h5, h6⟩ := called hj
  refine ⟨h3, h4.trans hm, ?_, fun he ht => ?_⟩
  · rw [← hb]
    exact hs
  obtain ⟨-, -, t', segs', e1, e2, e3⟩ := C75_request cfg.oracle c.method c.entry c.fields c.types
    hi.typed hi.distinct hi.query hi.header c.body r hi.sent hi.safe.ascii
  have := e1.symm.trans h1
  cases this
  have := e2.symm.trans h2
  cases this
  rw [he, ht] at h6
  rw [he] at h5
  exact e3 r.headers hi.safe.ascii (fun _ _ => rfl) h5 v h6

/-- **C77.** And the `n`-th response, written as HTTP, is read by the client completely and no further.
If it was returned by a handler, and the client completes with some value, then this is what was returned,
as C76 says, with its body, which is empty for `HEAD`. -/
theorem C77_responses (cfg : ServerCfg) (es : List ConnEvent) (cs : List Invocation)
    (rs : List Request) (hc : List.Forall₂ Issues cs rs) (g : ReadBody) (n : Nat) (a : Response) :
    letI := httpWire
    arriving es <+: rs.flatMap writeRequest → ReadsWhole cfg g .new es →
    (answers (connLog cfg es))[n]? = some a →
    ∃ c h l, cs[n]? = some c ∧ (blocks (connLog cfg es))[n]? = some (h, l) ∧ answers l = [a] ∧
      ∀ resp body, (resp, body) ∈ returned l → SafeHeaders a.headers → Framed a.headers body →
      ∀ phrase more, (∀ b ∈ phrase, ValueByte b) →
        ∃ b, Reads c.method (writeResponse phrase a ++ more) a.status.code a.headers b more ∧
          b = (if c.method = .head then [] else body) ∧
          ∀ resTy, HasTy resp resTy → ResponseTy resTy →
            (∀ m, Around resp m → (m, a.status.code) ∈ statusTable) →
            ∀ io w b', Sees ⟨c.method, c.entry, resTy⟩ a.status.code a.headers b io →
              (callRun ⟨c.method, c.entry, resTy⟩ (.new (.struct c.fields) c.body) io).2 =
                .ready w b' →
              ResponseArrives false resp w ∧ b' = b := by
  let := httpWire
  intro harr hg ha
  obtain ⟨h, l, -, h2, h3⟩ := C39_nth_response cfg es n a ha
  obtain ⟨c, r, hcn, -, hh, -⟩ := C77_requests cfg es cs rs hc g n h l harr hg h2
  have hmeth : h.method = c.method := by rw [hh]
  refine ⟨c, h, l, hcn, h2, h3, ?_⟩
  intro resp body hret hsafe hframed phrase more hph
  obtain ⟨r0, hser, rfl⟩ := block_answered h2 hret (by rw [h3]; exact List.mem_singleton.2 rfl)
  have hw : (onWire h r0).headers = r0.headers ∧ (onWire h r0).status = r0.status := by
    rw [onWire]
    cases h.method <;> exact ⟨rfl, rfl⟩
  rw [hw.1] at hsafe hframed ⊢
  rw [hw.2]
  obtain ⟨k1, f, k2, k3⟩ := C67_response_arrives_partial resp body r0 hser hsafe hframed phrase hph h
  refine ⟨if c.method = .head then [] else body, ?_, rfl, ?_⟩
  · have k1 := k1 more
    rw [hmeth] at k1
    by_cases hh : c.method = .head
    · rw [if_pos hh] at k1 ⊢
      exact .head hh k1
    · rw [if_neg hh] at k1 ⊢
      exact .full hh k1 k2 (k3 more)
  · intro resTy hty hrt hv io w b' hsees hrun
    obtain ⟨hde, rfl⟩ := sees_ready hsees hrun
    refine ⟨(C76_response resp resTy hty hrt body r0 hser hv hsafe.ascii).2 r0.headers hsafe.ascii
      (fun _ _ _ _ => rfl) w hde, ?_⟩
    by_cases hh : c.method = .head <;> simp [hh]

end
end Htrpc
