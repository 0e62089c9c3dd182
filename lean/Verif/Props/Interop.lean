/-
C88: what any client that speaks HTTP/1.1 can expect of the server.
-/
import Verif.Lemmas.Interop
import Verif.Props.Live
import Verif.Props.System
import Verif.Props.Target

namespace Htrpc
open Spec Http

section
variable [MethodNames]

omit [MethodNames] in
theorem Spec.HeaderText.safe {hs : List Header} {bs : Bytes} (h : HeaderText hs bs) :
    SafeHeaders hs := by
  induction h with
  | nil => intro x hx; cases hx
  | cons hn hv _ _ _ ih =>
    intro x hx
    rcases List.mem_cons.1 hx with rfl | hx
    · exact ⟨hn, hv⟩
    · exact ih x hx

omit [MethodNames] in
theorem safe_ascii {hs : List Header} (h : SafeHeaders hs) : AsciiNames hs := by
  intro x hx b hb
  have := isToken_facts ((h x hx).1.2 b hb)
  omega

theorem readRequestLine_visible (m : Method) {t : Str} (h : Visible t) :
    readRequestLine (MethodNames.name m ++ 32 :: utf8 t ++ 32 :: version) = some (m, t) := by
  obtain ⟨hg, hm⟩ := utf8_graphic (t := t) fun c hc => ⟨(h.2 c hc).1, (h.2 c hc).2⟩
  have hu : utf8 t ≠ [] := by
    cases ht : t with
    | nil => exact absurd ht h.1
    | cons c t => simp [utf8Char_ne_nil]
  have h1 := word (a := MethodNames.name m) (r := utf8 t ++ 32 :: version) fun b hb =>
    (isGraphic_facts (MethodNames.graphic m b hb)).1
  have h2 := word (a := utf8 t) (r := version) fun b hb => (isGraphic_facts (hg b hb)).1
  rw [List.append_assoc, List.cons_append, readRequestLine]
  simp only [h1, h2]
  rw [if_pos ⟨trivial, hu, List.all_eq_true.2 hg⟩, MethodNames.ofName_name, hm]
  rfl

theorem headText_read {h : ReqHead} {text : Bytes} (ht : HeadText h text) (more : Bytes) :
    readHead (text ++ more) = .done h more := by
  cases ht with
  | @intro m t hs hb hv hh =>
    obtain ⟨ls, h1, h2⟩ := hh.lines
    have e : MethodNames.name m ++ [32] ++ utf8 t ++ [32] ++ utf8 "HTTP/1.1".toList ++ [13, 10] ++
        hb ++ [13, 10] ++ more = (MethodNames.name m ++ 32 :: utf8 t ++ 32 :: version) ++ crlf ++
          (hb ++ crlf ++ more) := by
      simp [crlf, version]
    have hg := (utf8_graphic (t := t) fun c hc => ⟨(hv.2 c hc).1, (hv.2 c hc).2⟩).1
    rw [readHead, e, readLines_line, if_neg (by simp), h2]
    · simp only [Option.map_some, List.nil_append, readRequestLine_visible m hv, h1]
    · intro x hx
      simp only [List.mem_append, List.mem_cons] at hx
      rcases hx with (hx | rfl | hx) | rfl | hx
      · exact (isGraphic_facts (MethodNames.graphic m x hx)).2
      · decide
      · exact (isGraphic_facts (hg x hx)).2
      · decide
      · rintro rfl; exact absurd hx (by decide)

theorem headText_only {h : ReqHead} {bytes rest : Bytes} (hh : readHead bytes = .done h rest) :
    ∃ text, bytes = text ++ rest ∧ HeadText h text := by
  rw [readHead] at hh
  split at hh
  · cases hh
  · cases hh
  · rename_i l ls r hl
    split at hh
    · rename_i m t hs h1 h2
      cases hh
      have hw := (readLines_whole hl).2
      rw [List.nil_append, List.flatMap_cons] at hw
      -- the first line
      rw [readRequestLine] at h1
      split at h1
      · cases h1
      · rename_i x r1 hd1
        dsimp only at h1
        split at h1
        · cases h1
        · rename_i y v hd2
          split at h1
          · rename_i hc
            obtain ⟨rfl, hne, hall⟩ := hc
            obtain ⟨m', hm, he⟩ := Option.map_eq_some_iff.1 h1
            simp only [Prod.mk.injEq] at he
            obtain ⟨rfl, rfl⟩ := he
            have hname := MethodNames.name_ofName _ _ hm
            have hsp : ∀ {l : Bytes} {x r}, l.dropWhile (fun b => decide (b ≠ 32)) = x :: r →
                l = l.takeWhile (fun b => decide (b ≠ 32)) ++ 32 :: r := by
              intro l x r hd
              have hx : x = 32 := by
                have := List.head?_dropWhile_not (fun b : UInt8 => decide (b ≠ 32)) l
                rw [hd] at this
                simpa using this
              have := List.takeWhile_append_dropWhile (p := fun b : UInt8 => decide (b ≠ 32)) (l := l)
              rw [hd, hx] at this
              exact this.symm
            have e1 := hsp hd1
            have e2 := hsp hd2
            rw [hname] at e1
            generalize r1.takeWhile (fun b => decide (b ≠ 32)) = t at *
            have hgr := List.all_eq_true.1 hall
            have hv : Visible (t.map fun b => Char.ofNat b.toNat) := by
              refine ⟨by simpa using hne, fun c hc => ?_⟩
              obtain ⟨b, hb, rfl⟩ := List.mem_map.1 hc
              have := hgr b hb
              simp only [isGraphic, Bool.and_eq_true, decide_eq_true_eq] at this
              rw [charOfByte_toNat]
              omega
            have hu : ∀ t : Bytes, (∀ x ∈ t, isGraphic x = true) →
                utf8 (t.map fun b => Char.ofNat b.toNat) = t := by
              intro t hgr
              induction t with
              | nil => rfl
              | cons b t ih =>
                have := hgr b List.mem_cons_self
                simp only [isGraphic, Bool.and_eq_true, decide_eq_true_eq] at this
                rw [List.map_cons, utf8_cons, utf8Char_ofByte (by omega),
                  ih fun b hb => hgr b (List.mem_cons_of_mem _ hb)]
                rfl
            refine ⟨_, ?_, HeadText.intro (m := m') hv (readHeaders_text h2)⟩
            rw [hw, e1, e2, hu _ hgr]
            simp [crlf, version]
          · cases h1
    · cases hh

theorem HeadText.request {h : ReqHead} {text body : Bytes} (ht : HeadText h text)
    (hl : BodyLength h.headers body.length) : RequestText h body (text ++ body) := by
  cases ht with
  | intro hv hh => exact .intro hv hh hl

theorem RequestText.parts {h : ReqHead} {b bytes : Bytes} (ht : RequestText h b bytes) :
    ∃ text, bytes = text ++ b ∧ HeadText h text ∧ SafeHeaders h.headers ∧
      BodyLength h.headers b.length := by
  cases ht with
  | intro hv hh hl => exact ⟨_, rfl, .intro hv hh, hh.safe, hl⟩

/-- **C88.** Every request that is written according to the grammar is read as what it says, and so is
its body, whatever follows. -/
theorem C88_read (h : ReqHead) (b bytes : Bytes) (ht : RequestText h b bytes) :
    letI := httpWire
    Message h b bytes := by
  let := httpWire
  obtain ⟨text, rfl, ht, hs, hl⟩ := RequestText.parts ht
  refine ⟨text, b, rfl, headText_read ht, ?_⟩
  obtain ⟨f, hf, hf'⟩ := (readBody_iff (safe_ascii hs)).1 _ hl
  refine ⟨f, hf, fun more => ?_⟩
  rw [hf']
  simp

/-- **C88.** Nothing else is taken for a request: what is read are the bytes of a request according to
the grammar, and they are used up. -/
theorem C88_only (h : ReqHead) (b bytes rest rest' : Bytes) (f : Bytes → Parsed Bytes)
    (hh : readHead bytes = .done h rest) (hf : readBody h.headers = some f)
    (hb : f rest = .done b rest') : ∃ text, bytes = text ++ rest' ∧ RequestText h b text := by
  have hsafe := readHead_safe hh
  obtain ⟨n, hn⟩ := (readBody_iff (safe_ascii hsafe)).2 f hf
  obtain ⟨f', hf', hfb⟩ := (readBody_iff (safe_ascii hsafe)).1 n hn
  rw [hf] at hf'
  cases hf'
  rw [hfb] at hb
  split at hb
  · rename_i hle
    cases hb
    obtain ⟨text, rfl, ht⟩ := headText_only hh
    refine ⟨text ++ rest.take n, by simp, HeadText.request ht ?_⟩
    rw [List.length_take, Nat.min_eq_left hle]
    exact hn
  · cases hb

theorem requestTexts_messages {ms : List (ReqHead × Bytes)} {bytes : Bytes}
    (h : RequestTexts ms bytes) :
    letI := httpWire
    Messages ms bytes := by
  let := httpWire
  induction h with
  | nil => exact .nil
  | cons h _ ih => exact .cons (C88_read _ _ _ h) ih

theorem Spec.RequestTexts.each {ms : List (ReqHead × Bytes)} {bytes : Bytes}
    (h : RequestTexts ms bytes) : ∀ x ∈ ms, (∀ c ∈ x.1.target, 0x20 < c.toNat) ∧
      AsciiNames x.1.headers := by
  induction h with
  | nil => intro x hx; cases hx
  | cons h _ ih =>
    intro x hx
    rcases List.mem_cons.1 hx with rfl | hx
    · cases h with
      | intro hv hh _ => exact ⟨fun c hc => (hv.2 c hc).1, (safe_ascii hh.safe)⟩
    · exact ih x hx

end

section
variable [LawfulFloatText] [UrlText] [JsonText]

/-- When all requests have been answered, there are only finished exchanges. -/
theorem Spec.Transcript.all_exchanges {cfg : ServerCfg} {log : List ConnEffect}
    (ht : Transcript cfg log) (hw : (reads log).length ≤ writtenCount log) :
    ∀ h l, (h, l) ∈ Spec.blocks log → Exchange cfg h (.read h :: l) := by
  have started : ∀ {h l} (rest : List ConnEffect), Started cfg h l → writtenCount rest = 0 →
      ¬ (reads (l ++ rest)).length ≤ writtenCount (l ++ rest) := by
    intro h l rest hs hr
    rw [reads_append, writtenCount_append, hr, List.length_append]
    cases hs <;> simp [reads, writtenCount]
  induction ht with
  | @exchange h l rest hx ht ih =>
    obtain ⟨h1, -, h3⟩ := hx.counts
    rw [reads_append, writtenCount_append, h1, h3, List.length_append, List.length_singleton] at hw
    have ih := ih (by omega)
    obtain ⟨l, rfl, hl⟩ := hx.shape
    rw [blocks_cons h hl ht.fresh]
    intro h' l' hm
    rcases List.mem_cons.1 hm with e | hm
    · cases e; exact hx
    · exact ih h' l' hm
  | idle => intro h l hm; cases hm
  | finished => intro h l hm; cases hm
  | failed => intro h l hm; cases hm
  | started hs => exact absurd hw (by simpa using started [] hs rfl)
  | broken hs => exact absurd hw (started _ hs rfl)
  | panicked => simp [reads, writtenCount] at hw

/-- Requests with targets in origin form are answered by the rules, over any transport. -/
theorem settled_of_messages [Wire] (cfg : ServerCfg) (hwn : ∀ s ∈ cfg.services, WellNamed s.reqTy)
    (g : ReadBody) (σ : Nat → ConnEvent) (ms : List (ReqHead × Bytes)) (bytes : Bytes)
    (hm : Messages ms bytes)
    (each : ∀ x ∈ ms, (∀ c ∈ x.1.target, 0x20 < c.toNat) ∧ AsciiNames x.1.headers)
    (ho : ∀ m ∈ ms, OriginForm m.1.target)
    (hall : ∃ n, bytes <+: arriving (upTo σ n))
    (hrw : ∀ n, ReadsWhole cfg g .new (upTo σ n)) (hs : ∀ n, Smooth cfg .new (upTo σ n))
    (hf : Fair cfg σ) :
    ∃ n, List.Forall₂ (fun (m : ReqHead × Bytes) (x : ReqHead × List ConnEffect) => x.1 = m.1 ∧
      ∃ segs ps d, TargetOf m.1.target segs ps ∧ Decided cfg m.1 segs ps d ∧ Settled g m.1 m.2 d x.2)
      ms (blocks (connLog cfg (upTo σ n))) := by
  have hpath : ∀ m ∈ ms, ¬ Pathless cfg m.1 := by
    rintro m hmem ⟨t, h1, h2⟩
    obtain ⟨r, hr, hsl⟩ := ho m hmem
    obtain ⟨segs, ps, ht, -⟩ := C85_every_target r hsl
    rw [← hr] at ht
    obtain ⟨q, h3, -⟩ := C85_target cfg.oracle _ (each m hmem).1 segs ps ht
    rw [h1] at h3
    cases h3
    cases h2
  obtain ⟨n, ⟨hr, hc⟩, hsame⟩ := C84_whatever_follows (g := g) cfg σ ms bytes hm hall hrw hs hpath hf
  refine ⟨n, ?_⟩
  have hex := (transcript cfg (upTo σ n)).all_exchanges (by rw [hr, hc]; simp)
  rw [received_blocks, List.forall₂_map_left_iff] at hsame
  refine List.forall₂_iff_get.2 ⟨hsame.length_eq.symm, fun i h1 h2 => ?_⟩
  have hi := (List.forall₂_iff_get.1 hsame).2 i h2 h1
  have hmem := List.get_mem ms ⟨i, h1⟩
  have hx := hex _ _ (List.get_mem _ ⟨i, h2⟩)
  generalize ms.get ⟨i, h1⟩ = m at hi hmem
  generalize (blocks (connLog cfg (upTo σ n))).get ⟨i, h2⟩ = x at hi hx
  obtain ⟨h, b⟩ := m
  obtain ⟨h', l⟩ := x
  obtain ⟨rfl, hb⟩ := hi
  obtain ⟨r, hr, hsl⟩ := ho _ hmem
  obtain ⟨segs, ps, ht, -⟩ := C85_every_target r hsl
  rw [← hr] at ht
  obtain ⟨hv, hn⟩ := each _ hmem
  refine ⟨rfl, segs, ps, ?_⟩
  dsimp only at hx ht hv hn hb ⊢
  generalize hl : ConnEffect.read h' :: l = l0 at hx
  cases hx with
  | refused hj hst =>
    cases hl
    refine ⟨_, ht, C85_verdict cfg h' hv segs ps ht hwn hn _ hj, ?_⟩
    cases (show _ = b from hb)
    exact .refused hst
  | served hj hst =>
    cases hl
    exact ⟨_, ht, C85_verdict cfg h' hv segs ps ht hwn hn _ hj, .served hb hst⟩

/-- **C88.** So a client that sends requests according to the grammar, with targets in origin form, gets
an answer to each of them, in order: the handler is called with what the rules for paths, queries and
headers find in the request and with its body, and what it returns is written; or the request is
refused with 404, 405 or 400, as the rules say.  This holds whatever it sends afterwards. -/
theorem C88_answered [MethodNames] (cfg : ServerCfg) (hwn : ∀ s ∈ cfg.services, WellNamed s.reqTy)
    (g : ReadBody) (σ : Nat → ConnEvent) (ms : List (ReqHead × Bytes)) (bytes : Bytes)
    (hms : RequestTexts ms bytes) (ho : ∀ m ∈ ms, OriginForm m.1.target) :
    letI := httpWire
    (∃ n, bytes <+: arriving (upTo σ n)) →
    (∀ n, ReadsWhole cfg g .new (upTo σ n)) → (∀ n, Smooth cfg .new (upTo σ n)) → Fair cfg σ →
    ∃ n, List.Forall₂ (fun (m : ReqHead × Bytes) (x : ReqHead × List ConnEffect) => x.1 = m.1 ∧
      ∃ segs ps d, TargetOf m.1.target segs ps ∧ Decided cfg m.1 segs ps d ∧ Settled g m.1 m.2 d x.2)
      ms (blocks (connLog cfg (upTo σ n))) := by
  let := httpWire
  exact fun hall hrw hs hf => settled_of_messages cfg hwn g σ ms bytes (requestTexts_messages hms)
    hms.each ho hall hrw hs hf

/-- **C88.** And what the server writes are responses that the client reads one after another, each as
it was answered and no further, if the handlers return headers that HTTP can express. -/
theorem C88_responses [MethodNames] (cfg : ServerCfg) (es : List ConnEvent) (phrase : Status → Bytes)
    (hp : ∀ s, ∀ b ∈ phrase s, ValueByte b) :
    letI := httpWire
    SafelyReturned (connLog cfg es) →
    ReadsAll (((reads (connLog cfg es)).take (answers (connLog cfg es)).length).map ReqHead.method)
      (written phrase (answers (connLog cfg es)))
      ((answers (connLog cfg es)).map fun a => (a.status.code, a.headers, a.body)) [] := by
  let := httpWire
  intro hsafe
  have hgood : ∀ (n : Nat) a h, (answers (connLog cfg es))[n]? = some a →
      (reads (connLog cfg es))[n]? = some h → Good h.method a := by
    intro n a h ha hh
    obtain ⟨h', l, -, h2, h3⟩ := C39_nth_response cfg es n a ha
    rw [← blocks_reads, List.getElem?_map, h2] at hh
    cases hh
    exact answer_good hsafe h2 (by rw [h3]; exact List.mem_singleton.2 rfl)
  have hle := ((transcript cfg es).orderly _ (List.prefix_refl _)).2.1
  generalize answers (connLog cfg es) = as at hgood hle
  generalize reads (connLog cfg es) = hs at hgood hle
  clear hsafe
  induction as generalizing hs with
  | nil => exact .nil
  | cons a as ih =>
    cases hs with
    | nil => simp at hle
    | cons h hs =>
      have hg := hgood 0 a h rfl rfl
      have hw : written phrase (a :: as) = writeResponse (phrase a.status) a ++ written phrase as := by
        simp [written]
      rw [hw, List.length_cons, List.take_succ_cons, List.map_cons, List.map_cons]
      have hd := readResponseHead_write (hp a.status) hg.1 (written phrase as)
      refine .cons (d' := written phrase as) ?_ (ih hs (fun n => hgood (n + 1)) (by simpa using hle))
      by_cases hm : h.method = .head
      · have hb : a.body = [] := by
          obtain ⟨-, body, -, hb⟩ := hg
          rw [hb, if_pos hm]
        rw [hb] at hd ⊢
        exact .head hm hd
      · obtain ⟨f, h4, h5⟩ := readBody_good hg hm
        exact .full hm hd h4 (h5 _)

end

end Htrpc
