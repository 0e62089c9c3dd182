/-
Remote procedure calls as bytes over HTTP (C68).
-/
import Verif.Props.EndToEnd
import Verif.Props.Http

set_option linter.unusedSectionVars false

namespace Htrpc
open Spec Http

section
variable [LawfulFloatText] [UrlText] [JsonText] [MethodNames]

/-! ### Lemmas -/

/-- A request as it is read. -/
def Request.asRead (r : Request) : ReqHead × Bytes := (⟨r.method, r.target, r.headers⟩, r.body)

theorem Spec.Sends.carries {cfg : ServerCfg} {m : Wish} {r : Request} (h : Sends cfg m r) :
    Carries cfg m r.asRead := by
  obtain ⟨⟨ht, hs⟩, -, hr⟩ := h
  have := Carries.intro (m := m) (hs := r.headers) hs hr (by
    have := Transported.intro (ht := ht) (sent := r.headers) (pre := []) (post := [])
      (by simp [AsciiNames]) (by simp [AsciiNames]) (by simp [Foreign]) (by simp [Foreign])
    simpa using this)
  exact this

theorem headerPart_request (p q h : Option Val) :
    headerPart (.struct (requestFields p q h)) = h := by
  rw [headerPart]
  cases p <;> cases q <;> cases h <;> rfl

theorem Spec.Sends.message {cfg : ServerCfg} {m : Wish} {r : Request} (h : Sends cfg m r) :
    letI := httpWire
    Message r.asRead.1 r.asRead.2 (writeRequest r) := by
  let := httpWire
  obtain ⟨⟨ht, hs⟩, hp, hr⟩ := h
  obtain ⟨hb, hm, -⟩ := C26_request_content_length _ _ _ _ _ hr
  have hsafe : SafeHeaders r.headers ∧ Framed r.headers m.body := by
    obtain ⟨svc, val, body⟩ := m
    cases hs with
    | @intro p q h =>
      rw [headerPart_request] at hp
      exact C67_safe_request _ _ p q h hp _ _ hr
  obtain ⟨h1, h2⟩ := C67_request_arrives_partial _ _ _ _ _ hr hsafe.1 hsafe.2
  refine ⟨writeHead r.method r.target r.headers, r.body, rfl, fun more => ?_, ?_⟩
  · exact readHead_write _ (C66_target_safe _ _ _ _ _ hr) hsafe.1 more
  · obtain ⟨f, hf, hf'⟩ := h2
    refine ⟨f, hf, fun more => ?_⟩
    show f (r.body ++ more) = .done r.body more
    rw [hb]
    exact hf' more

theorem sends_messages {cfg : ServerCfg} {wishes : List Wish} {rs : List Request}
    (h : List.Forall₂ (Sends cfg) wishes rs) :
    letI := httpWire
    List.Forall₂ (Carries cfg) wishes (rs.map Request.asRead) ∧
      Messages (rs.map Request.asRead) (rs.flatMap writeRequest) := by
  let := httpWire
  induction h with
  | nil => exact ⟨.nil, .nil⟩
  | cons h _ ih =>
    refine ⟨.cons h.carries ih.1, ?_⟩
    rw [List.flatMap_cons, List.map_cons]
    exact .cons h.message ih.2

/-! ### C68 -/

/-- **C68.** Clients write requests in the supported class as HTTP.  However the bytes arrive at the
server, and whatever happens on the connection, the `n`-th request read is the `n`-th one written,
its handler is called with the value and the body that were sent, and what it returns is
written. -/
theorem C68_served (cfg : ServerCfg) (es : List ConnEvent) (wishes : List Wish)
    (rs : List Request) (hw : List.Forall₂ (Sends cfg) wishes rs) (g : ReadBody) (n : Nat)
    (h : ReqHead) (l : List ConnEffect) :
    letI := httpWire
    arriving es <+: rs.flatMap writeRequest → ReadsWhole cfg g .new es →
    (blocks (connLog cfg es))[n]? = some (h, l) →
    ∃ m r, wishes[n]? = some m ∧ rs[n]? = some r ∧ h = ⟨r.method, r.target, r.headers⟩ ∧
      Serving g h m l := by
  let := httpWire
  intro harr hg hn
  obtain ⟨h1, h2⟩ := sends_messages hw
  obtain ⟨m, b, hm, hr, hs⟩ := C65_served cfg es wishes _ _ h1 h2 harr g hg n h l hn
  rw [List.getElem?_map, Option.map_eq_some_iff] at hr
  obtain ⟨r, hr, he⟩ := hr
  cases he
  exact ⟨m, r, hm, hr, rfl, hs⟩

/-- **C68.** The `n`-th response, written as HTTP, is read by the client completely and no further,
and the client completes with the value that the handler has returned, and its body, which is empty
for `HEAD`, provided the response is in the supported class for the client's type. -/
theorem C68_round_trip (cfg : ServerCfg) (es : List ConnEvent) (wishes : List Wish)
    (rs : List Request) (hw : List.Forall₂ (Sends cfg) wishes rs) (g : ReadBody) (n : Nat)
    (a : Response) :
    letI := httpWire
    arriving es <+: rs.flatMap writeRequest → ReadsWhole cfg g .new es →
    (answers (connLog cfg es))[n]? = some a →
    ∃ m w resp body, wishes[n]? = some m ∧ g m.service m.value m.body w ∧
      (∃ h l, (blocks (connLog cfg es))[n]? = some (h, l) ∧ calls l = [(m.service, m.value, w)] ∧
        returned l = [(resp, body)]) ∧
      ∀ resTy ht c phrase more, PlainResponse resp resTy ht c → SafePart (headerPart resp) →
        (∀ b ∈ phrase, ValueByte b) →
        ∃ hs b, Reads m.service.method (writeResponse phrase a ++ more) c hs b more ∧
          b = (if m.service.method = .head then [] else body) ∧
          ∀ io, Sees ⟨m.service.method, m.service.entry, resTy⟩ c hs b io →
            (callRun ⟨m.service.method, m.service.entry, resTy⟩ (.new m.value m.body) io).2 =
              .ready resp b := by
  let := httpWire
  intro harr hg ha
  obtain ⟨h1, h2⟩ := sends_messages hw
  obtain ⟨m, h, l, w, resp, body, hm, hl, hc, hgm, hr, hfin⟩ :=
    C65_round_trip cfg es wishes _ _ h1 h2 harr g hg n a ha
  refine ⟨m, w, resp, body, hm, hgm, ⟨h, l, hl, hc, hr⟩, ?_⟩
  intro resTy ht c phrase more hp hsp hph
  obtain ⟨m', r', hm', hr', hh, hserv⟩ := C68_served cfg es wishes rs hw g n h l harr hg hl
  rw [hm] at hm'
  cases hm'
  obtain ⟨h0, l0, h1', h2', h3'⟩ := C39_nth_response cfg es n a ha
  rw [hl] at h2'
  cases h2'
  have hsr : ∃ r0, serResponse resp body = .ok r0 ∧ a = onWire h r0 := by
    cases hserv with
    | read => simp [answers] at h3'
    | invoked => simp [answers] at h3'
    | returned => simp [answers] at h3'
    | answering _ hs =>
      simp only [answers, List.filterMap, List.cons.injEq, and_true] at h3'
      simp only [returned, List.filterMap, List.cons.injEq, Prod.mk.injEq, and_true] at hr
      obtain ⟨rfl, rfl⟩ := hr
      exact ⟨_, hs, h3'.symm⟩
    | answered _ hs =>
      simp only [answers, List.filterMap, List.cons.injEq, and_true] at h3'
      simp only [returned, List.filterMap, List.cons.injEq, Prod.mk.injEq, and_true] at hr
      obtain ⟨rfl, rfl⟩ := hr
      exact ⟨_, hs, h3'.symm⟩
  obtain ⟨r0, hser, rfl⟩ := hsr
  have hmeth : h.method = m.service.method := by
    have hs := (List.forall₂_iff_get.1 hw).2 n
    obtain ⟨n1, rfl⟩ := List.getElem?_eq_some_iff.1 hm
    obtain ⟨n2, rfl⟩ := List.getElem?_eq_some_iff.1 hr'
    have := (hs n1 n2).sent
    obtain ⟨-, e, -⟩ := C26_request_content_length _ _ _ _ _ this
    rw [hh]
    exact e
  obtain ⟨s1, s2⟩ := C67_safe_response resp resTy ht c hp hsp body r0 hser
  obtain ⟨k1, f, k2, k3⟩ := C67_response_arrives_partial resp body r0 hser s1 s2 phrase hph h
  obtain ⟨r1, e1, e2, e3, -⟩ := C29_response_round_trip resp resTy ht c hp body
  have := hser.symm.trans e1
  cases this
  have hw' : (onWire h r0).headers = r0.headers ∧ (onWire h r0).status = r0.status ∧
      (onWire h r0).body = if m.service.method = .head then [] else body := by
    rw [onWire, ← hmeth]
    cases h.method with
    | head => exact ⟨rfl, rfl, rfl⟩
    | other k => exact ⟨rfl, rfl, by simpa using e3⟩
  rw [hw'.1, hw'.2.1, hw'.2.2, e2] at hfin
  have ht' : Transported ht r0.headers r0.headers := by
    have := Transported.intro (ht := ht) (sent := r0.headers) (pre := []) (post := [])
      (by simp [AsciiNames]) (by simp [AsciiNames]) (by simp [Foreign]) (by simp [Foreign])
    simpa using this
  refine ⟨r0.headers, if m.service.method = .head then [] else body, ?_, rfl, ?_⟩
  · have k1 := k1 more
    rw [hmeth, e2] at k1
    by_cases hh : m.service.method = .head
    · rw [if_pos hh] at k1 ⊢
      exact .head hh k1
    · rw [if_neg hh] at k1 ⊢
      exact .full hh k1 k2 (k3 more)
  · intro io hsees
    exact hfin resTy ht c r0.headers io hp ht' hsees

end

end Htrpc
