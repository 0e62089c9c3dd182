/-
C105: the size of a request.
-/
import Verif.Lemmas.Limits
import Verif.Props.Malformed
import Verif.Props.Callee
import Verif.Props.World

namespace Htrpc
open Spec Http

section
variable [MethodNames]

theorem fitting_messages {ms : List (ReqHead × Bytes)} {bytes : Bytes} (h : FittingTexts ms bytes) :
    letI := serverWire
    Messages ms bytes := by
  let := serverWire
  induction h with
  | nil => exact .nil
  | @cons h head b ms rest ht hf hl _ ih =>
    refine .cons ?_ ih
    obtain ⟨-, -, -, hs, -⟩ := RequestText.parts (HeadText.request ht hl)
    obtain ⟨f, h2, h3⟩ := (readBody_iff (safe_ascii hs)).1 _ hl
    refine ⟨head, b, rfl, fun more => ?_, f, h2, fun more => ?_⟩
    · refine limitHead_done.2 ⟨headText_read ht more, ?_, hf.2⟩
      rw [List.length_append, Nat.add_sub_cancel]
      exact hf.1
    · rw [h3]
      simp

theorem fitting_each {ms : List (ReqHead × Bytes)} {bytes : Bytes} (h : FittingTexts ms bytes) :
    ∀ x ∈ ms, (∀ c ∈ x.1.target, 0x20 < c.toNat) ∧ AsciiNames x.1.headers := by
  induction h with
  | nil => intro x hx; cases hx
  | cons h _ hl _ ih =>
    intro x hx
    rcases List.mem_cons.1 hx with rfl | hx
    · cases h with
      | intro hv hh => exact ⟨fun c hc => (hv.2 c hc).1, (safe_ascii hh.safe)⟩
    · exact ih x hx

/-- **C105.** What does not begin with the head of a request for which there is room is never read as a
request; and it is not understood as soon as there is an empty line in it, or as it fills the buffer. -/
theorem C105_unfit (junk : Bytes) (hj : Unfit junk) :
    letI := serverWire
    NoHead junk ∧ (EmptyLine junk ∨ 8096 ≤ junk.length → Wire.head junk = .bad) := by
  let := serverWire
  have hn : ∀ h rest, limitHead maxHeadSize maxHeaders junk (readHead junk) ≠ .done h rest := by
    intro h rest hd
    obtain ⟨h1, h2, h3⟩ := limitHead_done.1 hd
    obtain ⟨t, e, ht⟩ := headText_only h1
    refine hj h t ht ⟨rest, e.symm⟩ ⟨?_, h3⟩
    rw [e, List.length_append, Nat.add_sub_cancel] at h2
    exact h2
  refine ⟨fun p h rest hp hd => ?_, fun he => ?_⟩
  · obtain ⟨x, rfl⟩ := hp
    exact hn h (rest ++ x) (limit_append x hd)
  · show limitHead maxHeadSize maxHeaders junk (readHead junk) = .bad
    cases hr : readHead junk with
    | bad => rfl
    | done h rest =>
      have := hn h rest
      rw [hr] at this
      rw [limitHead] at this ⊢
      split
      · rename_i hc
        exact absurd (if_pos hc) this
      · rfl
    | more =>
      rw [limitHead]
      rcases he with he | he
      · exact absurd hr (readHead_not_more he)
      · exact if_pos he

end

section
variable [LawfulFloatText] [UrlText] [JsonText] [MethodNames]

/-- **C105.** Requests for which there is room are all answered by the rules, whatever their bodies and
whatever follows them. -/
theorem C105_answered (cfg : ServerCfg) (hwn : ∀ s ∈ cfg.services, WellNamed s.reqTy)
    (g : ReadBody) (σ : Nat → ConnEvent) (ms : List (ReqHead × Bytes)) (bytes : Bytes)
    (hms : FittingTexts ms bytes) (ho : ∀ m ∈ ms, OriginForm m.1.target) :
    letI := serverWire
    (∃ n, bytes <+: arriving (upTo σ n)) →
    (∀ n, ReadsWhole cfg g .new (upTo σ n)) → (∀ n, Smooth cfg .new (upTo σ n)) → Fair cfg σ →
    ∃ n, List.Forall₂ (fun (m : ReqHead × Bytes) (x : ReqHead × List ConnEffect) => x.1 = m.1 ∧
      ∃ segs ps d, TargetOf m.1.target segs ps ∧ Decided cfg m.1 segs ps d ∧ Settled g m.1 m.2 d x.2)
      ms (blocks (connLog cfg (upTo σ n))) := by
  let := serverWire
  exact fun hall hrw hs hf => settled_of_messages cfg hwn g σ ms bytes (fitting_messages hms)
    (fitting_each hms) ho hall hrw hs hf

/-- **C105.** If something else follows, a request for which there is no room or no request at all, then
only the requests before it are read, answered and given to handlers, whatever follows. -/
theorem C105_unread (cfg : ServerCfg) (g : ReadBody) (es : List ConnEvent) (ms : List (ReqHead × Bytes))
    (bytes junk : Bytes) (hms : FittingTexts ms bytes) (hj : Unfit junk) :
    letI := serverWire
    arriving es <+: bytes ++ junk → ReadsWhole cfg g .new es →
    ∃ seen, seen <+: ms ∧ List.Forall₂ (SameRequest g) (received (connLog cfg es)) seen ∧
      (answers (connLog cfg es)).length ≤ seen.length := by
  let := serverWire
  exact fun harr hw => C104_unread cfg es ms bytes junk (fitting_messages hms) (C105_unfit junk hj).1 harr hw

/-- **C105.** And if there is an empty line in it or it fills the buffer, then the connection ends with a
warning, after all requests before it have been answered, whatever follows. -/
theorem C105_ends (cfg : ServerCfg) (g : ReadBody) (σ : Nat → ConnEvent) (ms : List (ReqHead × Bytes))
    (bytes junk : Bytes) (hms : FittingTexts ms bytes) (hj : Unfit junk)
    (he : EmptyLine junk ∨ 8096 ≤ junk.length) (hpath : ∀ m ∈ ms, ¬ Pathless cfg m.1) :
    letI := serverWire
    (∃ n, bytes ++ junk <+: arriving (upTo σ n)) →
    (∀ n, ReadsWhole cfg g .new (upTo σ n)) → (∀ n, Smooth cfg .new (upTo σ n)) → Fair cfg σ →
    ∃ n l, connLog cfg (upTo σ n) = l ++ [.warned] ∧ AllAnswered ms l := by
  let := serverWire
  exact fun hall hw hs hf => C104_ends cfg σ ms bytes junk (fitting_messages hms)
    ((C105_unfit junk hj).2 he) hall hw hs hpath hf

omit [UrlText] [JsonText] in
/-- **C105.** A request of a client has room if its first line and headers do not have more than 8096
bytes and there are at most 32 headers, among them `content-length`; otherwise it is not a request for the
server, whatever the client sends after it. -/
theorem C105_client (m : Method) (e : EntryPoint) (v : Val) (body : Bytes) (r : Request)
    (h : serRequest m e v body = .ok r) (hs : SafeHeaders r.headers) (hf : Framed r.headers body) :
    ((writeRequest r).length ≤ 8096 + body.length ∧ r.headers.length ≤ 32 →
      FittingTexts [(⟨m, r.target, r.headers⟩, body)] (writeRequest r)) ∧
    (¬ ((writeRequest r).length ≤ 8096 + body.length ∧ r.headers.length ≤ 32) →
      ∀ more, Unfit (writeRequest r ++ more) ∧ EmptyLine (writeRequest r ++ more)) := by
  obtain ⟨hb, hm, -⟩ := C26_request_content_length _ _ _ _ _ h
  have hw : (writeRequest r).length = (writeHead r.method r.target r.headers).length + body.length := by
    rw [writeRequest, List.length_append, hb]
  have hd := readHead_write m (C66_target_safe m e v body r h) hs
  have hh : HeadText ⟨m, r.target, r.headers⟩ (writeHead m r.target r.headers) := by
    have := hd []
    obtain ⟨t, e, ht⟩ := headText_only this
    rw [List.append_nil, List.append_nil] at e
    rwa [e]
  rw [hw, hm]
  refine ⟨fun ⟨h1, h2⟩ => ?_, fun hc more => ⟨fun h' t ht hp hfit => hc ?_, ?_⟩⟩
  · have := FittingTexts.cons hh ⟨by omega, h2⟩ ?_ .nil (b := body)
    · rw [writeRequest, hb, hm]
      simpa using this
    · obtain ⟨-, -, -, hl⟩ := RequestText.parts (C93_sent m e v body r h hs hf)
      exact hl.2
  · obtain ⟨x, hx⟩ := hp
    have h1 := headText_read ht x
    rw [hx, writeRequest, List.append_assoc, hm, hd] at h1
    cases h1
    obtain ⟨h2, h3⟩ := hfit
    have := congrArg List.length hx
    rw [writeRequest, hb, hm] at this
    simp only [List.length_append] at this
    exact ⟨by omega, h3⟩
  · obtain ⟨a, b, hab⟩ := headText_emptyLine hh
    refine ⟨a, b ++ r.body ++ more, ?_⟩
    rw [writeRequest, hm, ← hab]
    simp

end

section
variable [FloatText] [UrlText] [JsonText]

/-- A transport that understands the same requests as another one, but not all of them. -/
def Stricter (a b : Wire) : Prop :=
  (∀ hs, a.body hs = b.body hs) ∧ ∀ bs, a.head bs = b.head bs ∨ a.head bs = .bad

theorem step_stricter {a b : Wire} (h : Stricter a b) (cfg : ServerCfg) (c : ConnState) (e : ConnEvent) :
    @ConnState.step _ _ _ a cfg c e = @ConnState.step _ _ _ b cfg c e ∨
      (c.phase = .readHead ∧ a.head c.input = .bad ∧ @ConnState.step _ _ _ a cfg c e = c.fail) := by
  obtain ⟨hb, hh⟩ := h
  cases e with
  | input =>
    simp only [ConnState.step]
    split
    · rename_i hp
      simp only [ConnState.pollHead]
      rcases hh c.input with h1 | h1
      · left
        have : @ConnState.accept _ _ a = @ConnState.accept _ _ b := by
          funext cfg c h
          simp only [ConnState.accept, ConnState.handle, ConnState.withBody, hb]
        rw [h1, this]
      · right
        refine ⟨hp, h1, ?_⟩
        rw [h1]
    · left
      simp only [ConnState.pollRefusing, hb]
    · exact .inl rfl
  | bodyRead w rest =>
    left
    simp only [ConnState.step, hb]
  | _ => exact .inl rfl

theorem run_failed [Wire] (cfg : ServerCfg) (c : ConnState) (hc : c.phase = .failed) (es : List ConnEvent) :
    (ConnState.run cfg c es).2 = [] := by
  induction es generalizing c with
  | nil => rfl
  | cons e es ih =>
    have h : (c.step cfg e).1.phase = .failed ∧ (c.step cfg e).2 = [] := by
      cases hcl : c.closed <;> cases e <;> simp [ConnState.step, hc, hcl]
    simp only [ConnState.run, h.2, ih _ h.1, List.append_nil]

omit [FloatText] [UrlText] [JsonText] in
theorem blocks_warned (l : List ConnEffect) : blocks (l ++ [.warned]) = blocks l := by
  induction l with
  | nil => rfl
  | cons e l ih =>
    cases e <;> simp only [List.cons_append, blocks, ih]
    congr 2
    rw [List.takeWhile_append]
    split
    · rename_i h
      exact (List.append_nil l).trans ((List.takeWhile_prefix _).eq_of_length h).symm
    · rfl

theorem run_stricter {a b : Wire} (h : Stricter a b) (g : ReadBody) (cfg : ServerCfg) (c : ConnState)
    (es : List ConnEvent) :
    ∃ es', es' <+: es ∧
      ((@ConnState.run _ _ _ a cfg c es).2 = (@ConnState.run _ _ _ b cfg c es').2 ∨
        (@ConnState.run _ _ _ a cfg c es).2 = (@ConnState.run _ _ _ b cfg c es').2 ++ [.warned]) ∧
      (@ReadsWhole _ _ _ a cfg g c es → @ReadsWhole _ _ _ b cfg g c es') := by
  induction es generalizing c with
  | nil => exact ⟨[], List.prefix_refl _, .inl rfl, fun _ => trivial⟩
  | cons e es ih =>
    rcases step_stricter h cfg c e with hs | ⟨-, -, hs⟩
    · obtain ⟨es', h1, h2, h3⟩ := ih (@ConnState.step _ _ _ b cfg c e).1
      refine ⟨e :: es', List.cons_prefix_cons.2 ⟨rfl, h1⟩, ?_, fun hw => ⟨?_, ?_⟩⟩
      · simp only [ConnState.run, hs]
        rcases h2 with h2 | h2
        · exact .inl (by rw [h2])
        · exact .inr (by rw [h2, List.append_assoc])
      · have := hw.1
        simp only [h.1] at this
        exact this
      · have := hw.2
        rw [hs] at this
        exact h3 this
    · refine ⟨[], List.nil_prefix, .inr ?_, fun _ => trivial⟩
      simp only [ConnState.run, hs, List.nil_append]
      rw [@run_failed _ _ _ a cfg _ rfl]
      rfl

omit [FloatText] [UrlText] [JsonText] in
theorem server_stricter [MethodNames] : Stricter serverWire httpWire := by
  refine ⟨fun hs => rfl, fun bs => ?_⟩
  show limitHead _ _ bs (readHead bs) = readHead bs ∨ limitHead _ _ bs (readHead bs) = .bad
  cases readHead bs with
  | bad => exact .inl rfl
  | more => rw [limitHead]; split; exacts [.inr rfl, .inl rfl]
  | done h rest => rw [limitHead]; split; exacts [.inl rfl, .inr rfl]

/-- **C105.** Whatever else is shown of a server without limits holds with them: what is observed of a
connection is what would be observed without limits of the events up to some moment, possibly followed by
the warning with which the connection ends. -/
theorem C105_as_without [MethodNames] (cfg : ServerCfg) (g : ReadBody) (es : List ConnEvent) :
    ∃ es', es' <+: es ∧
      (@connLog _ _ _ serverWire cfg es = @connLog _ _ _ httpWire cfg es' ∨
        @connLog _ _ _ serverWire cfg es = @connLog _ _ _ httpWire cfg es' ++ [.warned]) ∧
      (@ReadsWhole _ _ _ serverWire cfg g .new es → @ReadsWhole _ _ _ httpWire cfg g .new es') :=
  run_stricter server_stricter g cfg .new es

end

section
variable [LawfulFloatText] [UrlText] [JsonText] [MethodNames]

/-- **C105.** So calls that are written one after another are served as C68 says, if they are served. -/
theorem C105_served (cfg : ServerCfg) (es : List ConnEvent) (wishes : List Wish)
    (rs : List Request) (hw : List.Forall₂ (Sends cfg) wishes rs) (g : ReadBody) (n : Nat)
    (h : ReqHead) (l : List ConnEffect) :
    letI := serverWire
    arriving es <+: rs.flatMap writeRequest → ReadsWhole cfg g .new es →
    (blocks (connLog cfg es))[n]? = some (h, l) →
    ∃ m r, wishes[n]? = some m ∧ rs[n]? = some r ∧ h = ⟨r.method, r.target, r.headers⟩ ∧
      Serving g h m l := by
  intro harr hg hn
  obtain ⟨es', ⟨x, rfl⟩, hlog, hrw⟩ := C105_as_without cfg g es
  refine C68_served cfg es' wishes rs hw g n h l ((arriving_prefix es' x).trans harr) (hrw hg) ?_
  rcases hlog with hlog | hlog
  · rwa [hlog] at hn
  · rw [hlog, blocks_warned] at hn
    exact hn

end

section
variable [FloatText] [UrlText] [JsonText]

/-- If everything to be read next is understood, the stricter transport makes no difference. -/
theorem step_same {a b : Wire} (h : Stricter a b) {g : ReadBody} {cfg : ServerCfg} {c : ConnState}
    {ms : List (ReqHead × Bytes)} {log : List ConnEffect} {fut : Bytes}
    (hs : @Sync _ a g [] ms c log fut) (e : ConnEvent) :
    @ConnState.step _ _ _ a cfg c e = @ConnState.step _ _ _ b cfg c e := by
  refine (step_stricter h cfg c e).resolve_right fun ⟨hp, hbad, _⟩ => ?_
  obtain ⟨seen, left, -, -, h4⟩ := hs
  simp only [Left, hp] at h4
  have hb := a.head_bad _ fut hbad
  cases left with
  | nil =>
    rw [@Stream.nil_input _ _ _ a _ _ h4, a.head_nil] at hb
    cases hb
  | cons m left =>
    obtain ⟨h, b⟩ := m
    obtain ⟨rest, h5, -⟩ := @Stream.head _ _ _ a _ _ _ _ _ h4
    rw [h5] at hb
    cases hb

theorem run_same {a b : Wire} (h : Stricter a b) {g : ReadBody} {cfg : ServerCfg} {c : ConnState}
    {ms : List (ReqHead × Bytes)} {log : List ConnEffect} {tail : Bytes} (es : List ConnEvent)
    (hs : @Sync _ a g [] ms c log (toCome c es tail)) (hw : @ReadsWhole _ _ _ b cfg g c es) :
    @ConnState.run _ _ _ a cfg c es = @ConnState.run _ _ _ b cfg c es := by
  induction es generalizing c log with
  | nil => rfl
  | cons e es ih =>
    have hstep := step_same (cfg := cfg) h hs e
    have hnext := @Sync.next _ _ _ a g [] cfg ms e es c log tail (.inl (@noHead_nil _ _ _ a)) hs (by
      have := hw.1
      simp only [← h.1] at this
      exact this)
    rw [hstep] at hnext
    simp only [ConnState.run, hstep]
    rw [ih hnext hw.2]

end

section
variable [LawfulFloatText] [UrlText] [JsonText] [MethodNames]

/-- **C105.** As long as all requests fit, a connection with limits does what it does without. -/
theorem C105_same (cfg : ServerCfg) (g : ReadBody) (es : List ConnEvent) (ms : List (ReqHead × Bytes))
    (bytes : Bytes) (hms : FittingTexts ms bytes) (harr : arriving es <+: bytes)
    (hw : @ReadsWhole _ _ _ httpWire cfg g .new es) :
    @connLog _ _ _ serverWire cfg es = @connLog _ _ _ httpWire cfg es := by
  obtain ⟨tail, htail⟩ := harr
  have h0 : @Sync _ serverWire g [] ms .new [] (toCome .new es tail) := by
    let := serverWire
    refine ⟨[], ms, rfl, .nil, ?_⟩
    show Stream [] ms ([] ++ toCome .new es tail)
    rw [show toCome .new es tail = arriving es ++ tail from rfl, htail]
    exact stream_nil.2 (fitting_messages hms)
  exact congrArg Prod.snd (run_same server_stricter es h0 hw)

omit [LawfulFloatText] [UrlText] [JsonText] in
theorem fitting_append {m : ReqHead × Bytes} {ms : List (ReqHead × Bytes)} {a b : Bytes}
    (h : FittingTexts [m] a) (h' : FittingTexts ms b) : FittingTexts (m :: ms) (a ++ b) := by
  cases h with
  | cons h1 h2 h3 h4 =>
    cases h4
    rw [List.append_nil]
    exact .cons h1 h2 h3 h'

/-- **C105.** So in a world of pooled clients and servers, in which all requests fit, the servers with limits
do what the servers of C87 do, and every call ends as C87 says. -/
theorem C105_world (w : World) (types : Nat → List (Str × Ty)) (hw : w.Works) (he : w.Expressible types)
    (hfit : w.AllFit) (n : Nat) (c : Conn) :
    @connLog _ _ _ serverWire (w.cfg c) (upTo (w.servers c) n) = w.log n c := by
  obtain ⟨cs, h1, -⟩ := conn_issues w.size (upTo w.clients n) types (he n) c
  have hms : FittingTexts ((requestsOn (w.wire n c)).map fun z => z.2.asRead)
      ((requestsOn (w.wire n c)).flatMap fun z => writeRequest z.2) := by
    have h2 : List.Forall₂ _ cs (requestsOn (w.wire n c)) := h1
    generalize requestsOn (w.wire n c) = zs at h2
    clear h1
    induction h2 with
    | nil => exact .nil
    | @cons k z cs zs h _ ih =>
      obtain ⟨hi, p, a, h3, h4, h5, -⟩ := h
      have hs := hi.sent
      obtain ⟨e1, e2, -⟩ := C26_request_content_length _ _ _ _ _ hs
      have h6 := (C105_client _ _ _ _ _ hs hi.safe hi.framed).1 (hfit n z.1 p a _ _ z.2 h3 (by rw [h4, h5]; exact hs))
      rw [List.map_cons, List.flatMap_cons]
      refine fitting_append ?_ ih
      rw [Request.asRead, e1, e2]
      exact h6
  exact C105_same (w.cfg c) (w.read c) _ _ _ hms (hw.linked n c).there (hw.bodies n c)

end

end Htrpc
