/-
C122: messages whose bodies are sent in chunks.
-/
import Verif.Lemmas.Chunked
import Verif.Props.Consumed
import Verif.Props.Header
import Verif.Props.Limits

namespace Htrpc
open Spec Http

/-! ### Bodies -/

theorem bodyReader_cases {hs : List Header} {f : Bytes → Parsed Bytes} (h : bodyReader hs = some f) :
    (∃ v, header? "transfer-encoding" hs = some v ∧ lowerName v = utf8 "chunked".toList ∧ f = readChunks) ∨
    (header? "transfer-encoding" hs = none ∧ readBody hs = some f) := by
  rw [bodyReader] at h
  split at h
  · rename_i v hv
    split at h
    · cases h; exact .inl ⟨v, hv, by assumption, rfl⟩
    · cases h
  · exact .inr ⟨by assumption, h⟩

theorem readBody_form {hs : List Header} {f : Bytes → Parsed Bytes} (h : readBody hs = some f) :
    ∃ n, ∀ bs, f bs = if n ≤ bs.length then .done (bs.take n) (bs.drop n) else .more := by
  rw [readBody] at h
  split at h
  · cases h
  · split at h
    · cases h; exact ⟨0, fun bs => by simp⟩
    · obtain ⟨n, -, rfl⟩ := Option.map_eq_some_iff.1 h
      exact ⟨n, fun bs => rfl⟩

theorem lowerByte_small (b : UInt8) (h : (lowerByte b).toNat < 128) : b.toNat < 128 := by
  unfold lowerByte at h
  split at h
  · rename_i hc
    omega
  · exact h

theorem chunked_ascii {v : Bytes} (h : lowerName v = utf8 "chunked".toList) :
    (∀ b ∈ v, b.toNat < 128) ∧ nameText v = "chunked".toList := by
  have hsmall : ∀ b ∈ utf8 "chunked".toList, b.toNat < 128 := by decide
  have ha : ∀ b ∈ v, b.toNat < 128 := by
    intro b hb
    apply lowerByte_small
    apply hsmall
    rw [← h]
    exact List.mem_map_of_mem hb
  exact ⟨ha, utf8_injective (by rw [← lowerName_utf8 ha, h])⟩

/-- The reader for these headers reads a body as it is sent, whatever follows. -/
theorem bodyReader_text {hs : List Header} (ha : AsciiNames hs) {b t : Bytes} (h : BodyText hs b t) :
    ∃ f, bodyReader hs = some f ∧ ∀ more, f (t ++ more) = .done b more := by
  cases h with
  | plain h =>
    obtain ⟨f, h1, h2⟩ := (readBody_iff ha).1 _ h
    refine ⟨f, ?_, fun more => by rw [h2]; simp⟩
    have hte : header? "transfer-encoding" hs = none := by
      rw [(header?_iff ha _).1]
      generalize b.length = n at h
      cases h with
      | absent h => exact h
      | given h => exact h
    rw [bodyReader, hte]
    exact h1
  | chunked h1 h2 h3 h4 h5 h6 =>
    refine ⟨readChunks, ?_, readChunks_text h6⟩
    rw [bodyReader, ((header?_iff ha _).2 _).2 ⟨_, _, _, h1, h2, h3⟩]
    dsimp only
    rw [if_pos]
    rw [lowerName_utf8 h4, h5]

/-- And nothing else. -/
theorem bodyReader_only {hs : List Header} (ha : AsciiNames hs) {f : Bytes → Parsed Bytes}
    (hf : bodyReader hs = some f) {bs b rest : Bytes} (h : f bs = .done b rest) :
    ∃ t, bs = t ++ rest ∧ BodyText hs b t := by
  rcases bodyReader_cases hf with ⟨v, h1, h2, rfl⟩ | ⟨h1, h2⟩
  · obtain ⟨x, n, y, e1, e2, e3⟩ := ((header?_iff ha _).2 _).1 h1
    obtain ⟨t, e, ht⟩ := readChunks_only h
    obtain ⟨k1, k2⟩ := chunked_ascii h2
    exact ⟨t, e, .chunked e1 e2 e3 k1 k2 ht⟩
  · obtain ⟨n, hn⟩ := (readBody_iff ha).2 f h2
    obtain ⟨f', hf', hfb⟩ := (readBody_iff ha).1 n hn
    rw [h2] at hf'
    cases hf'
    rw [hfb] at h
    split at h
    · rename_i hle
      cases h
      exact ⟨bs.take n, by simp, .plain (by rw [List.length_take, Nat.min_eq_left hle]; exact hn)⟩
    · cases h

theorem bodyReader_append {hs : List Header} {f : Bytes → Parsed Bytes} (hf : bodyReader hs = some f)
    {bs b rest : Bytes} (more : Bytes) (h : f bs = .done b rest) :
    f (bs ++ more) = .done b (rest ++ more) := by
  rcases bodyReader_cases hf with ⟨v, -, -, rfl⟩ | ⟨-, h2⟩
  · obtain ⟨t, rfl, ht⟩ := readChunks_only h
    rw [List.append_assoc, readChunks_text ht]
  · obtain ⟨n, hn⟩ := readBody_form h2
    rw [hn] at h ⊢
    split at h
    · rename_i hle
      cases h
      rw [if_pos (by rw [List.length_append]; omega), List.take_append_of_le_length hle,
        List.drop_append_of_le_length hle]
    · cases h

theorem bodyReader_bad {hs : List Header} {f : Bytes → Parsed Bytes} (hf : bodyReader hs = some f)
    {bs : Bytes} (more : Bytes) (h : f bs = .bad) : f (bs ++ more) = .bad := by
  rcases bodyReader_cases hf with ⟨v, -, -, rfl⟩ | ⟨-, h2⟩
  · exact readChunks_bad h more
  · obtain ⟨n, hn⟩ := readBody_form h2
    rw [hn] at h
    split at h <;> cases h

/-! ### The server -/

section
variable [MethodNames]

/-- The transport of the server, with bodies in chunks. -/
@[instance_reducible] def chunkedWire : Wire where
  head bs := limitHead maxHeadSize maxHeaders bs (readHead bs)
  body := bodyReader
  head_nil := serverWire.head_nil
  head_append := serverWire.head_append
  body_append _ _ _ _ _ more hf h := bodyReader_append hf more h
  head_bad := serverWire.head_bad
  body_bad _ _ _ more hf h := bodyReader_bad hf more h
  body_rest hs f bs b rest hf h := by
    rcases bodyReader_cases hf with ⟨v, -, -, rfl⟩ | ⟨-, h2⟩
    · obtain ⟨t, rfl, -⟩ := readChunks_only h
      exact ⟨t, rfl⟩
    · exact httpWire.body_rest _ _ _ _ _ h2 h

/-- What is shown of the bytes that belong to a request (C96) holds also for this transport. -/
theorem chunked_cutWire : letI := chunkedWire; CutWire := by
  let := chunkedWire
  refine ⟨fun bs h rest hd => ?_, fun hs f bs b rest hf hb => ?_⟩
  · obtain ⟨h1, h2, h3⟩ := limitHead_done.1 hd
    obtain ⟨t, rfl, ht⟩ := headText_only h1
    refine ⟨t, rfl, fun more => limitHead_done.2 ⟨headText_read ht more, ?_, h3⟩⟩
    rw [List.length_append, Nat.add_sub_cancel] at h2 ⊢
    exact h2
  · rcases bodyReader_cases hf with ⟨v, -, -, rfl⟩ | ⟨-, h2⟩
    · obtain ⟨t, rfl, ht⟩ := readChunks_only hb
      exact ⟨t, rfl, readChunks_text ht⟩
    · exact (let := httpWire; cutWire.body_cut hs f bs b rest h2 hb)

theorem headText_ascii {h : ReqHead} {t : Bytes} (ht : HeadText h t) : AsciiNames h.headers := by
  cases ht with
  | intro _ hh => exact safe_ascii hh.safe

/-- **C122.** A request whose body is sent in chunks, however it is cut into them, is read with the whole
body, and no further. -/
theorem C122_read (h : ReqHead) (t b bb : Bytes) (ht : HeadText h t) (hf : Fits h t)
    (hb : BodyText h.headers b bb) :
    letI := chunkedWire
    Message h b (t ++ bb) := by
  let := chunkedWire
  obtain ⟨f, h1, h2⟩ := bodyReader_text (headText_ascii ht) hb
  refine ⟨t, bb, rfl, fun more => limitHead_done.2 ⟨headText_read ht more, ?_, hf.2⟩, f, h1, h2⟩
  rw [List.length_append, Nat.add_sub_cancel]
  exact hf.1

/-- **C122.** Nothing else is taken for a request with its body: the bytes that were read are those of a
head and of a body as its headers say, and no others are used up. -/
theorem C122_only (h : ReqHead) (b bytes rest rest' : Bytes) (f : Bytes → Parsed Bytes) :
    letI := chunkedWire
    Wire.head bytes = .done h rest → Wire.body h.headers = some f → f rest = .done b rest' →
    ∃ t bb, bytes = t ++ bb ++ rest' ∧ HeadText h t ∧ Fits h t ∧ BodyText h.headers b bb := by
  intro hh hf hb
  obtain ⟨h1, h2, h3⟩ := limitHead_done.1 hh
  obtain ⟨t, rfl, ht⟩ := headText_only h1
  obtain ⟨bb, rfl, hbb⟩ := bodyReader_only (headText_ascii ht) hf hb
  refine ⟨t, bb, by simp, ht, ⟨?_, h3⟩, hbb⟩
  rw [List.length_append, Nat.add_sub_cancel] at h2
  exact h2

/-- **C122.** Where a body ends does not depend on what follows: the same bytes are not two different bodies,
and no part of a body is a body or an error. -/
theorem C122_one (hs : List Header) (ha : AsciiNames hs) (b t : Bytes) (ht : BodyText hs b t) :
    (∀ b' t' r r', BodyText hs b' t' → t ++ r = t' ++ r' → b = b' ∧ t = t' ∧ r = r') ∧
    ∀ x y, t = x ++ y → y ≠ [] →
      letI := chunkedWire
      ∃ f, Wire.body hs = some f ∧ f x = .more := by
  obtain ⟨f, h1, h2⟩ := bodyReader_text ha ht
  constructor
  · intro b' t' r r' ht' e
    obtain ⟨f', h1', h2'⟩ := bodyReader_text ha ht'
    rw [h1] at h1'
    cases h1'
    have h3 := h2 r
    rw [e, h2'] at h3
    simp only [Parsed.done.injEq] at h3
    obtain ⟨rfl, rfl⟩ := h3
    exact ⟨rfl, List.append_cancel_right e, rfl⟩
  · rintro x y rfl hy
    refine ⟨f, h1, ?_⟩
    have h3 := h2 []
    rw [List.append_nil] at h3
    cases hf : f x with
    | more => rfl
    | bad => rw [bodyReader_bad h1 y hf] at h3; cases h3
    | done b' r' =>
      rw [bodyReader_append h1 y hf] at h3
      simp only [Parsed.done.injEq] at h3
      exact absurd (List.append_eq_nil_iff.1 h3.2).2 hy

theorem chunked_messages {ms : List (ReqHead × Bytes)} {bytes : Bytes} (h : ChunkedTexts ms bytes) :
    letI := chunkedWire
    Messages ms bytes := by
  let := chunkedWire
  induction h with
  | nil => exact .nil
  | cons h1 h2 h3 _ ih => exact .cons (C122_read _ _ _ _ h1 h2 h3) ih

theorem chunked_each {ms : List (ReqHead × Bytes)} {bytes : Bytes} (h : ChunkedTexts ms bytes) :
    ∀ x ∈ ms, (∀ c ∈ x.1.target, 0x20 < c.toNat) ∧ AsciiNames x.1.headers := by
  induction h with
  | nil => intro x hx; cases hx
  | cons h _ _ _ ih =>
    intro x hx
    rcases List.mem_cons.1 hx with rfl | hx
    · cases h with
      | intro hv hh => exact ⟨fun c hc => (hv.2 c hc).1, (safe_ascii hh.safe)⟩
    · exact ih x hx

end

section
variable [LawfulFloatText] [UrlText] [JsonText] [MethodNames]

/-- **C122.** Requests one after another, some with bodies in chunks and some without, are all answered by
the rules, each with its own body. -/
theorem C122_answered (cfg : ServerCfg) (hwn : ∀ s ∈ cfg.services, WellNamed s.reqTy)
    (g : ReadBody) (σ : Nat → ConnEvent) (ms : List (ReqHead × Bytes)) (bytes : Bytes)
    (hms : ChunkedTexts ms bytes) (ho : ∀ m ∈ ms, OriginForm m.1.target) :
    letI := chunkedWire
    (∃ n, bytes <+: arriving (upTo σ n)) →
    (∀ n, ReadsWhole cfg g .new (upTo σ n)) → (∀ n, Smooth cfg .new (upTo σ n)) → Fair cfg σ →
    ∃ n, List.Forall₂ (fun (m : ReqHead × Bytes) (x : ReqHead × List ConnEffect) => x.1 = m.1 ∧
      ∃ segs ps d, TargetOf m.1.target segs ps ∧ Decided cfg m.1 segs ps d ∧ Settled g m.1 m.2 d x.2)
      ms (blocks (connLog cfg (upTo σ n))) := by
  let := chunkedWire
  exact fun hall hrw hs hf => settled_of_messages cfg hwn g σ ms bytes (chunked_messages hms)
    (chunked_each hms) ho hall hrw hs hf

end

/-! ### How the body is sent does not matter -/

theorem unframed_entries {hs hs' : List Header} (h : unframed hs = unframed hs') (fs : List (Str × Ty))
    (h1 : ¬ Declared fs "content-length".toList) (h2 : ¬ Declared fs "transfer-encoding".toList) :
    (entries hs).filter (fun e => decide (Declared fs e.1)) =
      (entries hs').filter fun e => decide (Declared fs e.1) := by
  have key : ∀ hs : List Header, hs.filter (fun h => decide (Declared fs (nameText h.1))) =
      (unframed hs).filter fun h => decide (Declared fs (nameText h.1)) := by
    intro hs
    rw [unframed, List.filter_filter]
    apply List.filter_congr
    intro x _
    by_cases hd : Declared fs (nameText x.1)
    · have e1 : nameText x.1 ≠ "content-length".toList := fun e => h1 (e ▸ hd)
      have e2 : nameText x.1 ≠ "transfer-encoding".toList := fun e => h2 (e ▸ hd)
      rw [decide_eq_true hd, decide_eq_true (p := _ ∧ _) ⟨e1, e2⟩]
      rfl
    · rw [decide_eq_false hd]
      rfl
  rw [← entries_filter, ← entries_filter, key hs, key hs', h]

theorem readsHeaders_unframed [FloatText] {hs hs' : List Header} (h : unframed hs = unframed hs') {u : Ty}
    (hu : isStruct u = true) (h1 : "content-length".toList ∉ names u)
    (h2 : "transfer-encoding".toList ∉ names u) {v : Val} (hv : ReadsHeaders hs u v) :
    ReadsHeaders hs' u v := by
  induction hv with
  | @struct fs v hr =>
    refine .struct ?_
    rw [← readStruct_filter, ← unframed_entries h fs h1 h2, readStruct_filter]
    exact hr
  | map => cases hu
  | @single t _ _ h => cases t <;> simp_all [isStruct, isSingle]
  | some _ ih => exact .some (ih hu h1 h2)
  | newtype _ ih => exact .newtype (ih hu h1 h2)

theorem readsRequest_unframed [FloatText] {e : EntryPoint} {segs : List Str} {ps : List (Str × Str)}
    {hs hs' : List Header} (h : unframed hs = unframed hs') (hne : hs' ≠ []) {t : Ty} (ht : Unframed t)
    {v : Val} (hv : ReadsRequest e segs ps hs t v) : ReadsRequest e segs ps hs' t v := by
  obtain ⟨fs, h1, h2⟩ := ht
  induction hv with
  | @struct fs' vs _ hf =>
    cases h1
    refine .struct (.inr hne) ?_
    rename_i hany
    clear hne hany
    induction hf with
    | nil => exact .nil
    | cons hp _ ih =>
      refine .cons ?_ (ih fun u hu => h2 u (List.mem_cons_of_mem _ hu))
      cases hp with
      | path hp => exact .path hp
      | query hp => exact .query hp
      | header hp =>
        obtain ⟨k1, k2, k3⟩ := h2 _ List.mem_cons_self
        exact .header (readsHeaders_unframed h k1 k2 k3 hp)
      | other a b c => exact .other a b c
  | map => cases h1
  | newtype _ ih =>
    cases h1 with
    | newtypeStruct h1 => exact .newtype (ih h1)

/-- **C122.** Whether the body is sent in chunks or with its length, the same handler is called with the
same value, if no type of requests asks for the headers that make the difference. -/
theorem C122_same [FloatText] [UrlText] [JsonText] (cfg : ServerCfg) (ht : ∀ s ∈ cfg.services, Unframed s.reqTy)
    (h h' : ReqHead) (hm : h.method = h'.method) (hh : unframed h.headers = unframed h'.headers)
    (hne : h.headers ≠ []) (hne' : h'.headers ≠ []) (segs : List Str) (ps : List (Str × Str))
    (s : Service) (hs : s ∈ cfg.services) (v : Val) :
    Decided cfg h segs ps (.call s v) ↔ Decided cfg h' segs ps (.call s v) := by
  constructor
  · intro hd
    cases hd with
    | call h1 h2 => exact .call (hm ▸ h1) (readsRequest_unframed hh hne' (ht s hs) h2)
  · intro hd
    cases hd with
    | call h1 h2 => exact .call (hm ▸ h1) (readsRequest_unframed hh.symm hne (ht s hs) h2)

/-! ### The client -/

theorem hearChunked_text {m : Method} {c : Nat} {hs : List Header} {b text : Bytes}
    (h : ChunkedResponse m c hs b text) (more : Bytes) :
    hearChunked m (text ++ more) = if m = .head then [.head c hs] else [.head c hs, .body b] := by
  cases h with
  | head h1 h2 h3 => rw [hearChunked, readResponseHead_text h2 h3]; simp [h1]
  | body h1 h2 h3 h4 =>
    obtain ⟨f, k1, k2⟩ := bodyReader_text (safe_ascii h3.safe) h4
    rw [List.append_assoc, hearChunked, readResponseHead_text h2 h3]
    simp [h1, k1, k2]

theorem hearChunked_prefix {m : Method} {c : Nat} {hs : List Header} {b bytes more : Bytes}
    (h : ChunkedResponse m c hs b (bytes ++ more)) (hm : more ≠ []) :
    hearChunked m bytes = [] ∨ m ≠ .head ∧ hearChunked m bytes = [.head c hs] := by
  have hr : ∃ r, readResponseHead (bytes ++ more) = .done (c, hs) r ∧ AsciiNames hs ∧
      ((m = .head ∧ r = []) ∨ (m ≠ .head ∧ BodyText hs b r)) := by
    generalize hx : bytes ++ more = x at h
    cases h with
    | head h1 h2 h3 =>
      have := readResponseHead_text h2 h3 []
      rw [List.append_nil] at this
      exact ⟨_, this, safe_ascii h3.safe, .inl ⟨h1, rfl⟩⟩
    | body h1 h2 h3 h4 => exact ⟨_, readResponseHead_text h2 h3 _, safe_ascii h3.safe, .inr ⟨h1, h4⟩⟩
  obtain ⟨r, h1, ha, h2⟩ := hr
  rw [hearChunked]
  cases hh : readResponseHead bytes with
  | more => exact .inl rfl
  | bad => rw [(responseHead_more bytes more).2 hh] at h1; cases h1
  | done x rest =>
    rw [(responseHead_more bytes more).1 _ _ hh] at h1
    simp only [Parsed.done.injEq] at h1
    obtain ⟨rfl, rfl⟩ := h1
    rcases h2 with ⟨-, h2⟩ | ⟨h2, h3⟩
    · exact absurd (List.append_eq_nil_iff.1 h2).2 hm
    · refine .inr ⟨h2, ?_⟩
      obtain ⟨f, k1, k2⟩ := bodyReader_text ha h3
      have k3 := k2 []
      rw [List.append_nil] at k3
      simp only [h2, k1, if_false]
      cases hf : f rest with
      | more => rfl
      | bad => rw [bodyReader_bad k1 more hf] at k3; cases k3
      | done b' r' =>
        rw [bodyReader_append k1 more hf] at k3
        simp only [Parsed.done.injEq] at k3
        exact absurd (List.append_eq_nil_iff.1 k3.2).2 hm

section
variable [LawfulFloatText]

/-- **C122.** A call whose server sends the body of its response in chunks, in whatever pieces they arrive
and whatever follows, completes with the value which its declared type gives to the status and the headers,
and with the whole body; or it fails with `Invalid`, if there is no such value. -/
theorem C122_completes (p : Proc) (hp : WellNamed p.resTy) (v : Val) (body : Bytes) (r : Request)
    (hreq : serRequest p.method p.entry v body = .ok r) (c : Nat) (hs : List Header)
    (b text more : Bytes) (ht : ChunkedResponse p.method c hs b text) (rs : List IoResult)
    (hrs : rs.filter Happened = .connected :: .written :: hearChunked p.method (text ++ more)) :
    (∃ w, (callRun p (.new v body) rs).2 = .ready w b ∧ ReadsResponse c hs true p.resTy w) ∨
    ((callRun p (.new v body) rs).2 = .failed .invalid ∧
      ∀ w, ¬ ReadsResponse c hs true p.resTy w) := by
  have hn : AsciiNames hs := by
    cases ht with
    | head _ _ h => exact safe_ascii h.safe
    | body _ _ h => exact safe_ascii h.safe
  have hb : p.method = .head → b = [] := by
    intro hm
    cases ht with
    | head => rfl
    | body h => exact absurd hm h
  rw [hearChunked_text ht] at hrs
  have hend : (callRun p (.new v body) rs).2 = match deResponse p.resTy c hs with
      | .ok w => .ready w b
      | .err k => .failed k
      | .panic => .panicked := by
    rw [callRun_skip, hrs]
    by_cases hm : p.method = .head
    · rw [if_pos hm, hb hm]
      simp only [callRun, callStep, CallInner.new, hreq, callDecode, if_pos hm]
      cases deResponse p.resTy c hs <;> rfl
    · rw [if_neg hm]
      simp only [callRun, callStep, CallInner.new, hreq, hm, callDecode, if_false]
      cases deResponse p.resTy c hs <;> rfl
  rw [hend]
  rcases C83_response_read _ hp c hs hn with ⟨w, hw, hw'⟩ | ⟨he, hno⟩
  · rw [hw]
    exact .inl ⟨w, rfl, hw'⟩
  · rw [he]
    exact .inr ⟨rfl, hno⟩

/-- **C122.** And a call completes only when such a response has arrived. -/
theorem C122_completed (p : Proc) (hp : WellNamed p.resTy) (v : Val) (body : Bytes) (bytes : Bytes)
    (rs : List IoResult)
    (hrs : rs.filter Happened = .connected :: .written :: hearChunked p.method bytes) (w : Val) (b : Bytes)
    (h : (callRun p (.new v body) rs).2 = .ready w b) :
    ∃ c hs text rest, bytes = text ++ rest ∧ ChunkedResponse p.method c hs b text ∧
      ReadsResponse c hs true p.resTy w := by
  have hmem : ∀ x, x ≠ .notReady → x ∈ rs →
      x = .connected ∨ x = .written ∨ x ∈ hearChunked p.method bytes := by
    intro x hx hm
    have : x ∈ rs.filter Happened := List.mem_filter.2 ⟨hm, by simp [Happened, hx]⟩
    rw [hrs] at this
    simpa using this
  obtain ⟨r, c, hs, -, hm, hd, hif⟩ := C55_ready p v body rs w b h
  have hm' : .head c hs ∈ hearChunked p.method bytes := by
    rcases hmem (.head c hs) nofun hm with h | h | h
    · cases h
    · cases h
    · exact h
  suffices hreads : ∃ text rest, bytes = text ++ rest ∧ ChunkedResponse p.method c hs b text by
    obtain ⟨text, rest, e, ht⟩ := hreads
    have hn : AsciiNames hs := by
      cases ht with
      | head _ _ k => exact safe_ascii k.safe
      | body _ _ k => exact safe_ascii k.safe
    exact ⟨c, hs, text, rest, e, ht, (C83_response_read _ hp c hs hn).ok_iff hd⟩
  rw [hearChunked] at hm'
  split at hm'
  · cases hm'
  · simp at hm'
  · rename_i c' hs' rest hh
    have hc : c' = c ∧ hs' = hs := by
      rcases List.mem_cons.1 hm' with h | h
      · cases h; exact ⟨rfl, rfl⟩
      · exfalso
        revert h
        split
        · simp
        · split
          · simp
          · split <;> simp
    obtain ⟨rfl, rfl⟩ := hc
    obtain ⟨l, hb, k1, k2, rfl⟩ := readResponseHead_only hh
    by_cases hmet : p.method = .head
    · rw [if_pos hmet] at hif
      rw [hif.2]
      exact ⟨_, rest, rfl, .head hmet k1 k2⟩
    · rw [if_neg hmet] at hif
      have hb' : .body b ∈ hearChunked p.method (l ++ [13, 10] ++ hb ++ [13, 10] ++ rest) := by
        rcases hmem (.body b) nofun hif.2 with h | h | h
        · cases h
        · cases h
        · exact h
      rw [hearChunked, hh] at hb'
      simp only [hmet, if_false] at hb'
      rcases List.mem_cons.1 hb' with hb' | hb'
      · cases hb'
      · split at hb'
        · simp at hb'
        · rename_i f hf
          split at hb'
          · cases hb'
          · simp at hb'
          · rename_i b' rest' hfb
            simp only [List.mem_singleton, IoResult.body.injEq] at hb'
            subst hb'
            obtain ⟨bb, rfl, hbb⟩ := bodyReader_only (safe_ascii k2.safe) hf hfb
            exact ⟨_, rest', (List.append_assoc ..).symm, .body hmet k1 k2 hbb⟩

omit [LawfulFloatText] in
/-- **C122.** Before the last chunk is complete the call waits: no part of the body is taken for the whole,
or for an error. -/
theorem C122_waits [FloatText] (p : Proc) (v : Val) (body : Bytes) (r : Request)
    (hreq : serRequest p.method p.entry v body = .ok r) (c : Nat) (hs : List Header)
    (b bytes more : Bytes) (ht : ChunkedResponse p.method c hs b (bytes ++ more)) (hm : more ≠ [])
    (rs : List IoResult)
    (hrs : rs.filter Happened = .connected :: .written :: hearChunked p.method bytes) :
    ∃ st, (callRun p (.new v body) rs).2 = .pending st := by
  rw [callRun_skip, hrs]
  rcases hearChunked_prefix ht hm with h | ⟨hmet, h⟩
  · rw [h]
    simp [callRun, callStep, CallInner.new, hreq]
  · rw [h]
    simp [callRun, callStep, CallInner.new, hreq, hmet]

end

end Htrpc
