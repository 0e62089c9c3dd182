/-
C93: what a client can expect of any server that speaks HTTP/1.1.
-/
import Verif.Spec.Callee
import Verif.Props.Interop
import Verif.Props.ReadsServer

namespace Htrpc
open Spec Http

/-! ### Status lines -/

theorem digits_ascii {ds : Str} (h : Digits ds) :
    utf8 ds = ds.map fun c => UInt8.ofNat c.toNat := by
  have hd : ∀ c ∈ ds, c.toNat < 0x80 := fun c hc => by
    have := (h.2 c hc).2
    have e : '9'.toNat = 57 := rfl
    omega
  clear h
  induction ds with
  | nil => rfl
  | cons c ds ih =>
    rw [utf8_cons, utf8Char_ascii (hd c List.mem_cons_self),
      ih fun d hm => hd d (List.mem_cons_of_mem _ hm)]
    rfl

theorem digits_length {ds : Str} (h : Digits ds) : (utf8 ds).length = ds.length := by
  rw [digits_ascii h, List.length_map]

theorem digits_graphic {ds : Str} (h : Digits ds) : ∀ b ∈ utf8 ds, isGraphic b = true := by
  refine (utf8_graphic fun c hc => ?_).1
  have := h.2 c hc
  have e : '9'.toNat = 57 := rfl
  have e' : '0'.toNat = 48 := rfl
  omega

theorem graphic_field {b : UInt8} (h : isGraphic b = true) : ValueByte b := by
  simp only [isGraphic, Bool.and_eq_true, decide_eq_true_eq] at h
  exact .inr (.inl (by omega))

theorem statusLine_field {c : Nat} {l : Bytes} (h : StatusLine c l) : ∀ b ∈ l, ValueByte b := by
  have h0 : ∀ b ∈ utf8 "HTTP/1.1 ".toList, ValueByte b := by decide
  cases h with
  | phrase h1 h2 h3 =>
    intro b hb
    simp only [List.mem_append, List.mem_singleton] at hb
    rcases hb with ((hb | hb) | rfl) | hb
    · exact h0 b hb
    · exact graphic_field (digits_graphic h1 b hb)
    · decide
    · exact h3 b hb
  | bare h1 h2 =>
    intro b hb
    rcases List.mem_append.1 hb with hb | hb
    · exact h0 b hb
    · exact graphic_field (digits_graphic h1 b hb)

theorem readStatusLine_iff (l : Bytes) (c : Nat) : readStatusLine l = some c ↔ StatusLine c l := by
  have ev : utf8 "HTTP/1.1 ".toList = version ++ [32] := by decide
  constructor
  · intro h
    rw [readStatusLine] at h
    split at h
    · cases h
    · rename_i x r hd
      have hx : x = 32 := by
        have := List.head?_dropWhile_not (fun b : UInt8 => decide (b ≠ 32)) l
        rw [hd] at this
        simpa using this
      have hl := List.takeWhile_append_dropWhile (p := fun b : UInt8 => decide (b ≠ 32)) (l := l)
      dsimp only at h
      split at h
      · rename_i hc
        obtain ⟨h1, h2, h3⟩ := hc
        obtain ⟨ds, h4, h5⟩ := Option.bind_eq_some_iff.1 h
        obtain ⟨h6, rfl⟩ := (parseDigits_iff ds c).1 h5
        rw [fromUtf8_iff] at h4
        rw [h1, hd, hx] at hl
        have hr := List.takeWhile_append_dropWhile (p := fun b : UInt8 => decide (b ≠ 32)) (l := r)
        have h7 : ds.length = 3 := by rw [← digits_length h6, ← h4, h2]
        rw [h4] at hr
        cases hd' : r.dropWhile (fun b : UInt8 => decide (b ≠ 32)) with
        | nil =>
          have e : l = utf8 "HTTP/1.1 ".toList ++ utf8 ds := by
            rw [hd', List.append_nil] at hr
            rw [← hl, ← hr, ev]
            simp
          rw [e]
          exact .bare h6 h7
        | cons y p =>
          have hy : y = 32 := by
            have := List.head?_dropWhile_not (fun b : UInt8 => decide (b ≠ 32)) r
            rw [hd'] at this
            simpa using this
          rw [hd', hy] at hr
          have e : l = utf8 "HTTP/1.1 ".toList ++ utf8 ds ++ [32] ++ p := by
            rw [← hl, ← hr, ev]
            simp
          rw [e]
          refine .phrase h6 h7 fun b hb => (valueByte_iff b).2 (List.all_eq_true.1 h3 b ?_)
          rw [← hr]
          simp [hb]
      · cases h
  · intro h
    have hf := statusLine_field h
    cases h with
    | @phrase ds p h1 h2 h3 =>
      have e : utf8 "HTTP/1.1 ".toList ++ utf8 ds ++ [32] ++ p =
          version ++ 32 :: (utf8 ds ++ 32 :: p) := by rw [ev]; simp
      rw [e] at hf ⊢
      have w1 := word (a := version) (r := utf8 ds ++ 32 :: p) (by decide)
      have w2 := word (a := utf8 ds) (r := p) fun b hb => (isGraphic_facts (digits_graphic h1 b hb)).1
      rw [readStatusLine]
      simp only [w1, w2]
      rw [if_pos ⟨trivial, by rw [digits_length h1, h2], List.all_eq_true.2 fun b hb =>
        (valueByte_iff b).1 (hf b (List.mem_append_right _ (List.mem_cons_of_mem _ hb)))⟩, fromUtf8_utf8, Option.bind_some,
        (parseDigits_iff ds _).2 ⟨h1, rfl⟩]
    | @bare ds h1 h2 =>
      have e : utf8 "HTTP/1.1 ".toList ++ utf8 ds = version ++ 32 :: utf8 ds := by rw [ev]; simp
      rw [e] at hf ⊢
      have w1 := word (a := version) (r := utf8 ds) (by decide)
      have w2 : (utf8 ds).takeWhile (fun b => decide (b ≠ 32)) = utf8 ds := by
        have := List.takeWhile_append_of_pos (p := fun b : UInt8 => decide (b ≠ 32)) (l₁ := utf8 ds)
          (l₂ := []) fun b hb => by simpa using (isGraphic_facts (digits_graphic h1 b hb)).1
        simpa using this
      rw [readStatusLine]
      simp only [w1, w2]
      rw [if_pos ⟨trivial, by rw [digits_length h1, h2], List.all_eq_true.2 fun b hb =>
        (valueByte_iff b).1 (hf b (List.mem_append_right _ (List.mem_cons_of_mem _ hb)))⟩, fromUtf8_utf8, Option.bind_some,
        (parseDigits_iff ds _).2 ⟨h1, rfl⟩]

/-! ### Heads -/

theorem readResponseHead_text {c : Nat} {l hb : Bytes} {hs : List Header} (h1 : StatusLine c l)
    (h2 : HeaderText hs hb) (more : Bytes) :
    readResponseHead (l ++ [13, 10] ++ hb ++ [13, 10] ++ more) = .done (c, hs) more := by
  obtain ⟨ls, h3, h4⟩ := h2.lines
  have e : l ++ [13, 10] ++ hb ++ [13, 10] ++ more = l ++ crlf ++ (hb ++ crlf ++ more) := by
    simp [crlf]
  have hne : l ≠ [] := by
    have : utf8 "HTTP/1.1 ".toList ≠ [] := by decide
    cases h1 with
    | phrase => simp
    | bare => exact fun h => this (List.append_eq_nil_iff.1 h).1
  rw [readResponseHead, e, readLines_line, if_neg (by simpa using hne), h4]
  · simp only [Option.map_some, List.nil_append, (readStatusLine_iff _ _).2 h1, h3]
  · rintro x hx rfl
    exact absurd (statusLine_field h1 _ hx) (by decide)

theorem readResponseHead_only {c : Nat} {bs rest : Bytes} {hs : List Header}
    (h : readResponseHead bs = .done (c, hs) rest) :
    ∃ l hb, StatusLine c l ∧ HeaderText hs hb ∧ bs = l ++ [13, 10] ++ hb ++ [13, 10] ++ rest := by
  rw [readResponseHead] at h
  split at h
  · cases h
  · cases h
  · rename_i l ls r hl
    split at h
    · rename_i h1 h2
      cases h
      have hw := (readLines_whole hl).2
      rw [List.nil_append, List.flatMap_cons] at hw
      exact ⟨l, _, (readStatusLine_iff _ _).1 h1, readHeaders_text h2, by rw [hw]; simp [crlf]⟩
    · cases h

/-- More bytes change nothing about a head that is complete, or malformed. -/
theorem responseHead_more (bs more : Bytes) :
    (∀ x rest, readResponseHead bs = .done x rest →
      readResponseHead (bs ++ more) = .done x (rest ++ more)) ∧
    (readResponseHead bs = .bad → readResponseHead (bs ++ more) = .bad) := by
  constructor
  · intro x rest h
    rw [readResponseHead] at h
    split at h
    · cases h
    · cases h
    · rename_i l ls r hl
      rw [readResponseHead, readLines_append more hl]
      split at h
      · rename_i h1 h2
        cases h
        simp only [h1, h2]
      · cases h
  · intro h
    rw [readResponseHead] at h
    split at h
    · cases h
    · rename_i r hl
      rw [readResponseHead, readLines_append more hl]
    · rename_i l ls r hl
      rw [readResponseHead, readLines_append more hl]
      split at h
      · cases h
      · rename_i hno
        cases h1 : readStatusLine l with
        | none => simp only [h1]
        | some c =>
          cases h2 : readHeaders ls with
          | none => simp only [h1, h2]
          | some hs => exact (hno _ _ h1 h2).elim

/-! ### C93 -/

/-- **C93.** Every response that is written according to the grammar is read as what it says, and so is
its body, whatever follows. -/
theorem C93_read (m : Method) (c : Nat) (hs : List Header) (b text more : Bytes)
    (h : ResponseText m c hs b text) : Reads m (text ++ more) c hs b more := by
  cases h with
  | head h1 h2 h3 => exact .head h1 (readResponseHead_text h2 h3 more)
  | full h1 h2 h3 h4 =>
    obtain ⟨f, hf, hf'⟩ := (readBody_iff (safe_ascii h3.safe)).1 _ h4
    rw [List.append_assoc]
    refine .full h1 (readResponseHead_text h2 h3 _) hf ?_
    rw [hf']
    simp

/-- **C93.** Nothing else is taken for a response: what is read are the bytes of a response according
to the grammar, and they are used up. -/
theorem C93_only (m : Method) (c : Nat) (hs : List Header) (b bytes rest : Bytes)
    (h : Reads m bytes c hs b rest) : ∃ text, bytes = text ++ rest ∧ ResponseText m c hs b text := by
  cases h with
  | head h1 h2 =>
    obtain ⟨l, hb, h3, h4, rfl⟩ := readResponseHead_only h2
    exact ⟨_, rfl, .head h1 h3 h4⟩
  | full h1 h2 h5 h6 =>
    rename_i r f
    obtain ⟨l, hb, h3, h4, rfl⟩ := readResponseHead_only h2
    obtain ⟨n, hn⟩ := (readBody_iff (safe_ascii h4.safe)).2 f h5
    obtain ⟨f', hf', hfb⟩ := (readBody_iff (safe_ascii h4.safe)).1 n hn
    rw [h5] at hf'
    cases hf'
    rw [hfb] at h6
    split at h6
    · rename_i hle
      cases h6
      refine ⟨l ++ [13, 10] ++ hb ++ [13, 10] ++ r.take n, ?_, .full h1 h3 h4 ?_⟩
      · simp
      · rw [List.length_take, Nat.min_eq_left hle]; exact hn
    · cases h6

theorem hear_reads {m : Method} {bytes : Bytes} {c : Nat} {hs : List Header} {b rest : Bytes}
    (h : Reads m bytes c hs b rest) :
    hear m bytes = if m = .head then [.head c hs] else [.head c hs, .body b] := by
  cases h with
  | head h1 h2 => simp [hear, h2, h1]
  | full h1 h2 h3 h4 => simp [hear, h2, h1, h3, h4]

/-- Nothing is heard of a response before it is complete, but perhaps its head. -/
theorem hear_prefix {m : Method} {c : Nat} {hs : List Header} {b bytes more : Bytes}
    (h : ResponseText m c hs b (bytes ++ more)) (hm : more ≠ []) :
    hear m bytes = [] ∨ m ≠ .head ∧ hear m bytes = [.head c hs] := by
  have hr := C93_read m c hs b (bytes ++ more) [] h
  rw [List.append_nil] at hr
  rw [hear]
  cases hh : readResponseHead bytes with
  | more => exact .inl rfl
  | bad =>
    have := (responseHead_more bytes more).2 hh
    cases hr with
    | head _ h2 => rw [this] at h2; cases h2
    | full _ h2 => rw [this] at h2; cases h2
  | done x rest =>
    have hd := (responseHead_more bytes more).1 _ _ hh
    cases hr with
    | head _ h2 =>
      rw [hd] at h2
      simp only [Parsed.done.injEq] at h2
      exact absurd (List.append_eq_nil_iff.1 h2.2).2 hm
    | full h1 h2 h3 h4 =>
      rename_i r f
      rw [hd] at h2
      simp only [Parsed.done.injEq] at h2
      obtain ⟨rfl, rfl⟩ := h2
      have hsafe := readResponseHead_safe hd
      obtain ⟨n, hn⟩ := (readBody_iff (safe_ascii hsafe)).2 f h3
      obtain ⟨f', hf', hfb⟩ := (readBody_iff (safe_ascii hsafe)).1 n hn
      rw [h3] at hf'
      cases hf'
      rw [hfb] at h4
      have hlt : ¬ n ≤ rest.length := by
        intro hle
        rw [if_pos (by rw [List.length_append]; omega)] at h4
        simp only [Parsed.done.injEq] at h4
        have := congrArg List.length h4.2
        rw [List.length_drop, List.length_append, List.length_nil] at this
        have : more.length = 0 := by omega
        exact hm (List.length_eq_zero_iff.1 this)
      refine .inr ⟨h1, ?_⟩
      simp only [h1, h3, hfb, hlt, if_false]

section
variable [LawfulFloatText]

/-- **C93.** So a call whose server answers with any such response, in whatever pieces it arrives and
whatever follows, completes with the value which its declared type gives to the status and the headers,
and with the body; or it fails with `Invalid`, if there is none. -/
theorem C93_completes (p : Proc) (hp : WellNamed p.resTy) (v : Val) (body : Bytes) (r : Request)
    (hreq : serRequest p.method p.entry v body = .ok r) (c : Nat) (hs : List Header)
    (b text more : Bytes) (ht : ResponseText p.method c hs b text) (rs : List IoResult)
    (hrs : rs.filter Happened = .connected :: .written :: hear p.method (text ++ more)) :
    (∃ w, (callRun p (.new v body) rs).2 = .ready w b ∧ ReadsResponse c hs true p.resTy w) ∨
    ((callRun p (.new v body) rs).2 = .failed .invalid ∧
      ∀ w, ¬ ReadsResponse c hs true p.resTy w) := by
  have hr := C93_read _ _ _ _ _ more ht
  have hn : AsciiNames hs := by
    cases ht with
    | head _ _ h => exact safe_ascii h.safe
    | full _ _ h => exact safe_ascii h.safe
  have hb : p.method = .head → b = [] := by
    intro hm
    cases ht with
    | head => rfl
    | full h => exact absurd hm h
  rw [hear_reads hr] at hrs
  have hend : (callRun p (.new v body) rs).2 = match deResponse p.resTy c hs with
      | .ok w => .ready w b
      | .err k => .failed k
      | .panic => .panicked := by
    rw [callRun_skip, hrs]
    by_cases hm : p.method = .head
    · rw [if_pos hm, hb hm]
      simp only [callRun, callStep, CallInner.new, hreq, callDecode, if_pos hm]
      cases deResponse p.resTy c hs <;> rfl
    · rw [if_neg hm]
      simp only [callRun, callStep, CallInner.new, hreq, hm, callDecode, if_false]
      cases deResponse p.resTy c hs <;> rfl
  rw [hend]
  rcases C83_response_read _ hp c hs hn with ⟨w, hw, hw'⟩ | ⟨he, hno⟩
  · rw [hw]
    exact .inl ⟨w, rfl, hw'⟩
  · rw [he]
    exact .inr ⟨rfl, hno⟩

omit [LawfulFloatText] in
/-- A call completes only with a response that it has read. -/
theorem callRun_ready [FloatText] {p : Proc} {v : Val} {body bytes : Bytes} {rs : List IoResult}
    (hrs : rs.filter Happened = .connected :: .written :: hear p.method bytes) {w : Val} {b : Bytes}
    (h : (callRun p (.new v body) rs).2 = .ready w b) :
    ∃ c hs rest, Reads p.method bytes c hs b rest ∧ deResponse p.resTy c hs = .ok w := by
  have hmem : ∀ x, x ≠ .notReady → x ∈ rs → x = .connected ∨ x = .written ∨ x ∈ hear p.method bytes := by
    intro x hx hm
    have : x ∈ rs.filter Happened := List.mem_filter.2 ⟨hm, by simp [Happened, hx]⟩
    rw [hrs] at this
    simpa using this
  obtain ⟨r, c, hs, -, hm, hd, hif⟩ := C55_ready p v body rs w b h
  have hm' : .head c hs ∈ hear p.method bytes := by
    rcases hmem (.head c hs) nofun hm with h | h | h
    · cases h
    · cases h
    · exact h
  suffices hreads : ∃ rest, Reads p.method bytes c hs b rest from
    hreads.elim fun rest hr => ⟨c, hs, rest, hr, hd⟩
  rw [hear] at hm'
  split at hm'
  · cases hm'
  · simp at hm'
  · rename_i c' hs' rest hh
    have hc : c' = c ∧ hs' = hs := by
      rcases List.mem_cons.1 hm' with h | h
      · cases h; exact ⟨rfl, rfl⟩
      · exfalso
        revert h
        split
        · simp
        · split
          · simp
          · split <;> simp
    obtain ⟨rfl, rfl⟩ := hc
    by_cases hmet : p.method = .head
    · rw [if_pos hmet] at hif
      rw [hif.2]
      exact ⟨rest, .head hmet hh⟩
    · rw [if_neg hmet] at hif
      have hb : .body b ∈ hear p.method bytes := by
        rcases hmem (.body b) nofun hif.2 with h | h | h
        · cases h
        · cases h
        · exact h
      rw [hear, hh] at hb
      simp only [hmet, if_false] at hb
      rcases List.mem_cons.1 hb with hb | hb
      · cases hb
      · split at hb
        · simp at hb
        · rename_i f hf
          split at hb
          · cases hb
          · simp at hb
          · rename_i b' rest' hfb
            simp only [List.mem_singleton, IoResult.body.injEq] at hb
            subst hb
            exact ⟨_, .full hmet hh hf hfb⟩

/-- **C93.** And a call completes only when such a response has arrived. -/
theorem C93_completed (p : Proc) (hp : WellNamed p.resTy) (v : Val) (body : Bytes) (bytes : Bytes)
    (rs : List IoResult)
    (hrs : rs.filter Happened = .connected :: .written :: hear p.method bytes) (w : Val) (b : Bytes)
    (h : (callRun p (.new v body) rs).2 = .ready w b) :
    ∃ c hs text rest, bytes = text ++ rest ∧ ResponseText p.method c hs b text ∧
      ReadsResponse c hs true p.resTy w := by
  obtain ⟨c, hs, rest, hr, hd⟩ := callRun_ready hrs h
  obtain ⟨text, e, ht⟩ := C93_only _ _ _ _ _ _ hr
  have hn : AsciiNames hs := by
    cases ht with
    | head _ _ h3 => exact safe_ascii h3.safe
    | full _ _ h3 => exact safe_ascii h3.safe
  exact ⟨c, hs, text, rest, e, ht, (C83_response_read _ hp c hs hn).ok_iff hd⟩

omit [LawfulFloatText] in
/-- **C93.** Before the response is complete the call waits: no piece of it is taken for the whole, or
for an error. -/
theorem C93_waits [FloatText] (p : Proc) (v : Val) (body : Bytes) (r : Request)
    (hreq : serRequest p.method p.entry v body = .ok r) (c : Nat) (hs : List Header)
    (b bytes more : Bytes) (ht : ResponseText p.method c hs b (bytes ++ more)) (hm : more ≠ [])
    (rs : List IoResult)
    (hrs : rs.filter Happened = .connected :: .written :: hear p.method bytes) :
    ∃ st, (callRun p (.new v body) rs).2 = .pending st := by
  rw [callRun_skip, hrs]
  rcases hear_prefix ht hm with h | ⟨hmet, h⟩
  · rw [h]
    simp [callRun, callStep, CallInner.new, hreq]
  · rw [h]
    simp [callRun, callStep, CallInner.new, hreq, hmet]

omit [LawfulFloatText] in
/-- **C93.** What the server gets is a request according to the grammar, if the headers are such as HTTP
can express and do not describe the body themselves. -/
theorem C93_sent [FloatText] [MethodNames] (m : Method) (e : EntryPoint) (v : Val) (body : Bytes)
    (r : Request) (h : serRequest m e v body = .ok r) (hs : SafeHeaders r.headers)
    (hf : Framed r.headers body) :
    RequestText ⟨m, r.target, r.headers⟩ body (writeRequest r) := by
  obtain ⟨h1, f, h2, h3⟩ := C67_request_arrives_partial m e v body r h hs hf
  have h4 := h1 []
  have h5 := h3 []
  rw [List.append_nil] at h4
  obtain ⟨text, he, ht⟩ := C88_only _ _ _ _ _ f h4 h2 h5
  rw [List.append_nil] at he
  rwa [he]

end

end Htrpc
