/-
C110: exactly which calls are transparent.
-/
import Verif.Lemmas.Limits
import Verif.Lemmas.ReadBack
import Verif.Props.ExactResponse
import Verif.Spec.Transparent

namespace Htrpc
open Spec Http

section
variable [LawfulFloatText]

/-- The path that the server finds. -/
theorem segs_sent {o : UrlOracle} {m : Method} {e : EntryPoint} {p q h : Option Val} {tp : Option Ty}
    {ss : List Str} (hp : PathPart e p tp ss) (hc : Carried (instantiate e ss)) {body : Bytes}
    {r : Request} (hs : serRequest m e (.struct (requestFields p q h)) body = .ok r) {target : Target}
    (ht : parseTarget o r.target = some target) :
    target.segs = some ((instantiate e ss).map encodeSegment) := by
  rw [C23_in_order] at hs
  split at hs
  · cases hs
  rw [requestOf] at hs
  obtain ⟨path, hpath, hs⟩ := Res.bind_ok_eq hs
  obtain ⟨query, hquery, hs⟩ := Res.bind_ok_eq hs
  obtain ⟨own, hown, hs⟩ := Res.bind_ok_eq hs
  cases hs
  have hqc : ∀ q ∈ query, ∀ c ∈ q, QueryChar c := by
    cases q with
    | none => cases hquery; intro q hq; cases hq
    | some v =>
      obtain ⟨text, htext, hquery⟩ := Res.bind_ok_eq hquery
      cases hquery
      intro q hq
      cases hq
      exact serQuery_chars htext
  have h4 := parseTarget_push o hc query hqc
  have hpe : path = (instantiate e ss).foldl pushSegment ['/'] := by
    cases hp with
    | absent hv =>
      rw [requestPath, if_neg hv] at hpath
      cases hpath
      rfl
    | @args v vs t ss k1 k2 k3 k4 k5 k6 =>
      rw [requestPath, serPath_tuple k1 (PathSer.writes_of_plain k3) e ['/'], if_pos] at hpath
      · cases hpath
        rfl
      · rw [← (PathSer.writes_of_plain k3).length, varCount_eq_countP]; exact k4.symm
  have h5 : parseTarget o (joinTarget path query) = some target := by
    rw [← ht]; cases query <;> rfl
  rw [hpe, h4] at h5
  cases h5
  rfl

/-- Headers whose names are those of a type frame the body, if the type does not name those that do. -/
theorem framed_own {v : Val} {t : Ty} (hvt : HasTy v t) (hst : isStruct t = true)
    (hcl : "content-length".toList ∉ (names t).map lowerText)
    (hte : "transfer-encoding".toList ∉ (names t).map lowerText) {own : List Header}
    (hown : serHeaders [] v = .ok ([] ++ own)) (hr : AsciiNames own) :
    ∀ x ∈ own, nameText x.1 ≠ "content-length".toList ∧ nameText x.1 ≠ "transfer-encoding".toList := by
  obtain ⟨own', he, hwr⟩ := serHeaders_written hown
  rw [← List.append_cancel_left he] at hwr
  have hself := askedFor_own hwr hvt hst hr
  intro x hx
  rw [← hself] at hx
  have := of_decide_eq_true (List.mem_filter.1 hx).2
  exact ⟨fun h => hcl (h ▸ this), fun h => hte (h ▸ this)⟩

omit [LawfulFloatText] in
theorem framed_append {own : List Header} (body : Bytes) (h : ∀ x ∈ own,
    nameText x.1 ≠ "content-length".toList ∧ nameText x.1 ≠ "transfer-encoding".toList) :
    Framed (own ++ [contentLength body]) body := by
  have hc : nameText contentLengthName ≠ "transfer-encoding".toList := by decide
  refine ⟨by simp, ?_, ?_⟩
  · intro x hx hn
    rcases List.mem_append.1 hx with hx | hx
    · exact absurd hn (h x hx).1
    · exact List.mem_singleton.1 hx
  · intro x hx
    rcases List.mem_append.1 hx with hx | hx
    · exact (h x hx).2
    · rw [List.mem_singleton.1 hx]; exact hc

omit [LawfulFloatText] in
theorem safe_append {own : List Header} (body : Bytes) :
    SafeHeaders (own ++ [contentLength body]) ↔ SafeHeaders own := by
  constructor
  · exact fun h x hx => h x (List.mem_append_left _ hx)
  · intro h x hx
    rcases List.mem_append.1 hx with hx | hx
    · exact h x hx
    · rw [List.mem_singleton.1 hx]; exact contentLength_safe body

/-- The headers of a request: those of the header part and the length of the body. -/
theorem request_headers {m : Method} {e : EntryPoint} {p q h : Option Val} {body : Bytes} {r : Request}
    (hs : serRequest m e (.struct (requestFields p q h)) body = .ok r) :
    ∃ own, r.headers = own ++ [contentLength body] ∧
      (h = none ∧ own = [] ∨ ∃ v, h = some v ∧ serHeaders [] v = .ok ([] ++ own)) := by
  rw [C23_in_order] at hs
  split at hs
  · cases hs
  rw [requestOf] at hs
  obtain ⟨path, hpath, hs⟩ := Res.bind_ok_eq hs
  obtain ⟨query, hquery, hs⟩ := Res.bind_ok_eq hs
  obtain ⟨own, hown, hs⟩ := Res.bind_ok_eq hs
  cases hs
  refine ⟨own, rfl, ?_⟩
  cases h with
  | none => cases hown; exact .inl ⟨rfl, rfl⟩
  | some v => exact .inr ⟨v, rfl, hown⟩

end

section
variable [LawfulFloatText] [UrlText] [JsonText] [MethodNames]

omit [UrlText] [JsonText] in
/-- The first line arrives, whatever the headers are. -/
theorem head_line {m : Method} {e : EntryPoint} {v : Val} {body : Bytes} {r : Request}
    (hs : serRequest m e v body = .ok r) {more rest : Bytes} {h : ReqHead}
    (hr : readHead (writeRequest r ++ more) = .done h rest) : h.method = m ∧ h.target = r.target := by
  obtain ⟨-, hm, -⟩ := C26_request_content_length m e v body r hs
  obtain ⟨line, h1, h2⟩ := C66_request_line m e v body r hs (writeHeaders r.headers ++ (r.body ++ more))
  have e1 : writeRequest r ++ more = MethodNames.name m ++ 32 :: utf8 r.target ++ 32 :: version ++ crlf ++
      (writeHeaders r.headers ++ (r.body ++ more)) := by
    rw [writeRequest, writeHead, hm]
    simp
  rw [readHead, e1, h2] at hr
  cases h3 : readLines [] (writeHeaders r.headers ++ (r.body ++ more)) with
  | none => rw [h3] at hr; cases hr
  | some x =>
    rw [h3] at hr
    simp only [Option.map_some, h1] at hr
    cases h4 : readHeaders x.1 with
    | none => rw [h4] at hr; cases hr
    | some hs => rw [h4] at hr; cases hr; exact ⟨rfl, rfl⟩

omit [JsonText] in
/-- When the server decides to give a request to a handler as it was sent, and what it reads then; for
requests that have the parts path, query and header. -/
theorem request_iff_parts (cfg : ServerCfg) (s : Service) (hreg : s.reg ∈ table cfg)
    (hpc : PlainConsts s.entry) {v : Val} {p q h : Option Val} {tp tq th : Option Ty}
    (hparts : RequestParts v s.reqTy p q h tp tq th)
    (ht : HasTyFields (requestFields p q h) (requestFields tp tq th))
    (hn : ∀ v, p = some v ∨ q = some v ∨ h = some v → ¬ HasNaN v)
    (hqd : ∀ t, tq = some t → (names t).Nodup)
    (hhd : ∀ t, th = some t → isStruct t = true ∧ ((names t).map lowerText).Nodup ∧
      "content-length".toList ∉ (names t).map lowerText ∧
      "transfer-encoding".toList ∉ (names t).map lowerText)
    (body : Bytes) (r : Request)
    (hr : serRequest s.method s.entry (.struct (requestFields p q h)) body = .ok r) (more : Bytes) :
    ((∃ hd rest, limitHead maxHeadSize maxHeaders (writeRequest r ++ more)
        (readHead (writeRequest r ++ more)) = .done hd rest ∧
        Judged cfg hd (.call s v)) ↔
      (∃ ss, PathPart s.entry p tp ss ∧ Carried (instantiate s.entry ss) ∧
        ¬ Shadowed (table cfg) s.entry ((instantiate s.entry ss).map asSegment)) ∧
      (∀ v, q = some v → QueryIntact v) ∧
      (∀ v, h = some v → HeaderIntact v) ∧
      SafeHeaders r.headers ∧
      (writeRequest r).length ≤ 8096 + body.length ∧ r.headers.length ≤ 32) ∧
    (SafeHeaders r.headers → Framed r.headers body ∧ (∃ f, readBody r.headers = some f ∧
        ∀ more, f (body ++ more) = .done body more) ∧
      readHead (writeRequest r ++ more) = .done ⟨s.method, r.target, r.headers⟩ (body ++ more)) := by
  rw [asSegment_eq]
  have hcf : ConflictFree (table cfg) := accept_conflictFree .nil
  have hhd' : ∀ t, th = some t → isStruct t = true ∧
      ((names t).map lowerText).Nodup ∧ "content-length".toList ∉ (names t).map lowerText :=
    fun t h => ⟨(hhd t h).1, (hhd t h).2.1, (hhd t h).2.2.1⟩
  obtain ⟨own, ho, hcase⟩ := request_headers hr
  obtain ⟨hb, hm, -⟩ := C26_request_content_length _ _ _ _ _ hr
  have hlen : (writeRequest r ++ more).length - (body ++ more).length ≤ 8096 ↔
      (writeRequest r).length ≤ 8096 + body.length := by
    rw [List.length_append, List.length_append]; omega
  -- the headers, if HTTP can express them
  have safe : SafeHeaders r.headers → Framed r.headers body ∧ (∃ f, readBody r.headers = some f ∧
      ∀ more, f (body ++ more) = .done body more) ∧
      readHead (writeRequest r ++ more) = .done ⟨s.method, r.target, r.headers⟩ (body ++ more) := by
    intro hsafe
    have hframed : Framed r.headers body := by
      rw [ho]
      refine framed_append body ?_
      rcases hcase with ⟨-, rfl⟩ | ⟨v, rfl, hown⟩
      · intro x hx; cases hx
      · obtain ⟨tp', tq', th', he, -, -, hh⟩ := requestFields_typed ht
        obtain ⟨rfl, rfl, rfl⟩ := requestFields_inj he
        rcases hh with ⟨hh, -⟩ | ⟨v', t, hv', rfl, hvt⟩
        · cases hh
        · cases hv'
          obtain ⟨k1, k2, k3, k4⟩ := hhd t rfl
          rw [ho, safe_append] at hsafe
          exact framed_own hvt k1 k3 k4 hown (safe_ascii hsafe)
    exact ⟨hframed, (C67_request_arrives_partial _ _ _ _ _ hr hsafe hframed).2,
      (C67_request_iff _ _ _ _ _ hr).2 hsafe more⟩
  refine ⟨⟨?_, ?_⟩, safe⟩
  · rintro ⟨hd, rest, h1, h2⟩
    obtain ⟨h1, hl1, hl2⟩ := limitHead_done.1 h1
    obtain ⟨e1, e2⟩ := head_line hr h1
    have hsafe' := readHead_safe h1
    generalize hv : Verdict.call s v = d at h2
    cases h2 with
    | @call target segs s' v' a1 a2 a3 a4 =>
      cases hv
      rw [e2] at a1
      rw [e1] at a3
      have hsafe : SafeHeaders r.headers := by
        rw [ho, safe_append]
        rcases hcase with ⟨-, rfl⟩ | ⟨v, rfl, hown⟩
        · intro x hx; cases hx
        · obtain ⟨tp', tq', th', he, hp, hq, hh⟩ := requestFields_typed ht
          obtain ⟨rfl, rfl, rfl⟩ := requestFields_inj he
          obtain ⟨segs', query⟩ := target
          cases a2
          rw [hparts.de] at a4
          have h5 := (deRequest_gives a4).2.2
          rcases hh with ⟨hh, -⟩ | ⟨v', t, hv', rfl, hvt⟩
          · cases hh
          · cases hv'
            obtain ⟨k1, k2, k3, k4⟩ := hhd t rfl
            obtain ⟨own', he, hwr⟩ := serHeaders_written hown
            rw [← List.append_cancel_left he] at hwr
            exact own_safe hwr hvt k1 k2 hsafe' (h5 v t rfl rfl)
      obtain ⟨-, -, s2⟩ := safe hsafe
      rw [s2] at h1
      cases h1
      obtain ⟨target', segs', b1, b2, b3⟩ := struct_intact cfg.oracle s.method s.entry hpc p q h tp tq th ht
        hn hqd hhd' body r hr (safe_ascii hsafe)
      rw [a1] at b1
      cases b1
      rw [a2] at b2
      cases b2
      have b3 := b3 r.headers (by rw [ho]; simp) (safe_ascii hsafe) fun _ _ => rfl
      rw [dispatch_ok_iff hcf] at a3
      obtain ⟨g, g1, g2, g3, g4, g5⟩ := a3
      have hg : g = s.reg := by
        obtain ⟨x, -, rfl⟩ := List.mem_map.1 (mem_of_mem_accepted g1)
        cases g2
        rfl
      subst hg
      rw [hparts.de] at a4
      obtain ⟨⟨ss, k1, k2⟩, k3, k4⟩ := b3.1 ⟨g4, a4⟩
      have hsegs := segs_sent k1 k2 hr a1
      rw [a2] at hsegs
      cases hsegs
      exact ⟨⟨ss, k1, k2, g5⟩, k3, k4, hsafe, hlen.1 hl1, hl2⟩
    | _ => cases hv
  · rintro ⟨⟨ss, k1, k2, k3⟩, k4, k5, hsafe, hl1, hl2⟩
    obtain ⟨-, -, s2⟩ := safe hsafe
    refine ⟨⟨s.method, r.target, r.headers⟩, body ++ more,
      limitHead_done.2 ⟨s2, hlen.2 hl1, hl2⟩, ?_⟩
    obtain ⟨target', segs', b1, b2, b3⟩ := struct_intact cfg.oracle s.method s.entry hpc p q h tp tq th ht
      hn hqd hhd' body r hr (safe_ascii hsafe)
    have b3 := (b3 r.headers (by rw [ho]; simp) (safe_ascii hsafe) fun _ _ => rfl).2
      ⟨⟨ss, k1, k2⟩, k4, k5⟩
    have hsegs := segs_sent k1 k2 hr b1
    rw [b2] at hsegs
    cases hsegs
    exact .call b1 b2 ((dispatch_ok_iff hcf).2 ⟨s.reg, hreg, rfl, rfl, b3.1, k3⟩) (hparts.de .. |>.2 b3.2)

omit [JsonText] in
/-- When the server decides to give a request to a handler as it was sent, and what it reads then. -/
theorem request_iff (cfg : ServerCfg) (s : Service) (hreg : s.reg ∈ table cfg)
    (hpc : PlainConsts s.entry) (v : Val) (ht : HasTy v s.reqTy) (hty : RequestTy s.reqTy)
    (hte : ∀ ts u, StructOf s.reqTy ts → ts.lookup "header".toList = some u →
      "transfer-encoding".toList ∉ (names u).map lowerText) (hn : ¬ HasNaN v)
    (body : Bytes) (r : Request) (hr : serRequest s.method s.entry v body = .ok r) (more : Bytes) :
    ((∃ hd rest, limitHead maxHeadSize maxHeaders (writeRequest r ++ more)
        (readHead (writeRequest r ++ more)) = .done hd rest ∧ Judged cfg hd (.call s v)) ↔
      (∃ ss, RequestIntact s.entry v s.reqTy ss ∧
        ¬ Shadowed (table cfg) s.entry ((instantiate s.entry ss).map asSegment)) ∧
      SafeHeaders r.headers ∧ (writeRequest r).length ≤ 8096 + body.length ∧ r.headers.length ≤ 32) ∧
    ((∃ ss, RequestIntact s.entry v s.reqTy ss) → SafeHeaders r.headers →
      Framed r.headers body ∧ (∃ f, readBody r.headers = some f ∧
        ∀ more, f (body ++ more) = .done body more) ∧
      readHead (writeRequest r ++ more) = .done ⟨s.method, r.target, r.headers⟩ (body ++ more)) := by
  have key : ∀ p q h tp tq th, RequestParts v s.reqTy p q h tp tq th → _ :=
    fun p q h tp tq th hp => request_iff_parts cfg s hreg hpc hp (hp.typed ht) (hp.noNaN hn)
      (hp.lookups hty).1 (fun u hu => by
        obtain ⟨k1, k2, k3, k4⟩ := (hp.lookups hty).2 u hu
        exact ⟨k2, k3, k4, hte _ u hp.structOf k1⟩) body r (by rw [← hp.ser]; exact hr) more
  refine ⟨⟨?_, ?_⟩, ?_⟩
  · rintro ⟨hd, rest, h1, h2⟩
    have h3 := h2
    generalize hv : Verdict.call s v = d at h3
    cases h3 with
    | call a1 a2 a3 a4 =>
      cases hv
      obtain ⟨p, q, h, tp, tq, th, hp⟩ := read_parts ht hty.fields hr a4
      obtain ⟨⟨ss, k1, k2, k3⟩, k4, k5, k6⟩ := (key p q h tp tq th hp).1.1 ⟨hd, rest, h1, h2⟩
      exact ⟨⟨ss, (hp.intact _ _).2 ⟨⟨k1, k2⟩, k4, k5⟩, k3⟩, k6⟩
    | _ => cases hv
  · rintro ⟨⟨ss, hi, k3⟩, k6⟩
    obtain ⟨p, q, h, tp, tq, th, hp⟩ := intact_parts hi
    obtain ⟨⟨k1, k2⟩, k4, k5⟩ := (hp.intact _ _).1 hi
    exact (key p q h tp tq th hp).1.2 ⟨⟨ss, k1, k2, k3⟩, k4, k5, k6⟩
  · rintro ⟨ss, hi⟩
    obtain ⟨p, q, h, tp, tq, th, hp⟩ := intact_parts hi
    exact (key p q h tp tq th hp).2

omit [JsonText] in
/-- **C110** for requests. Let a client send a request without NaN, of the type that the server expects, to
a service that is registered, whose constants need no escaping. Whatever comes after it on the connection:
the server calls this service with this request and body, and goes on with what comes after it, exactly if
the request is a struct, possibly inside of newtypes, whose path arrives and no other service is in the way,
whose query arrives and whose headers arrive, HTTP can express the headers, and the request has room. -/
theorem C110_request (cfg : ServerCfg) (s : Service) (hreg : s.reg ∈ table cfg)
    (hpc : PlainConsts s.entry) (v : Val) (ht : HasTy v s.reqTy) (hty : RequestTy s.reqTy)
    (hte : ∀ ts u, StructOf s.reqTy ts → ts.lookup "header".toList = some u →
      "transfer-encoding".toList ∉ (names u).map lowerText) (hn : ¬ HasNaN v)
    (body : Bytes) (r : Request) (hr : serRequest s.method s.entry v body = .ok r) (more : Bytes) :
    Delivered cfg (writeRequest r) more s v body ↔
      (∃ ss, RequestIntact s.entry v s.reqTy ss ∧
        ¬ Shadowed (table cfg) s.entry ((instantiate s.entry ss).map asSegment)) ∧
      SafeHeaders r.headers ∧ (writeRequest r).length ≤ 8096 + body.length ∧ r.headers.length ≤ 32 := by
  obtain ⟨hiff, safe⟩ := request_iff cfg s hreg hpc v ht hty hte hn body r hr more
  constructor
  · rintro ⟨hd, rest, f, h1, h2, -, -⟩
    exact hiff.1 ⟨hd, rest, h1, h2⟩
  · intro hR
    obtain ⟨-, ⟨f, s1, s1'⟩, s2⟩ := safe (hR.1.imp fun _ h => h.1) hR.2.1
    obtain ⟨hd, rest, h1, h2⟩ := hiff.2 hR
    have h3 := (limitHead_done.1 h1).1
    rw [s2] at h3
    cases h3
    exact ⟨_, _, f, h1, h2, s1, s1' more⟩

end

/-! ### Responses -/

section
variable [LawfulFloatText]

/-- If a response is read from headers that HTTP can express, the headers of its header part are such. -/
theorem response_safe {v : Val} {s : Status} {own : List Header} (h : SentResponse v s own)
    {t : Ty} (ht : HasTy v t) (hty : ResponseTy t) {code : Nat} {hs : List Header}
    (hs' : SafeHeaders hs) (inside : Bool) (hd : RespDe.de ⟨code, hs⟩ t (startPhase inside) = .ok v) :
    SafeHeaders own := by
  induction h generalizing t inside with
  | unit hs => intro x hx; cases hx
  | @variant n s h own hn hown =>
    cases ht with
    | @structVariant _ _ ts vs hm ht =>
      obtain ⟨m, hmem, -, hname⟩ := C30_variant_is_status vs code hs _ hd
      cases hname
      have hc : statusCodeToStr code = some n := (statusCodeToStr_table _ _).2 hmem
      obtain ⟨u, rfl, hu⟩ := header_field ht
      rcases hu with ⟨rfl, rfl⟩ | ⟨v, t, rfl, rfl, hvt⟩
      · cases hown; intro x hx; cases hx
      rw [RespDe.de] at hd
      simp only [hc, Res.ofOption, Res.bind_ok] at hd
      rw [deVariant_lookup _ _ _ _ (lookup_of_mem (hty.variants _ (.enum _)) hm),
        RespDe.deContent, respDe_variant] at hd
      obtain ⟨ws, hws, hw⟩ := Res.bind_ok_eq hd
      cases hw
      obtain ⟨a, ha, hws⟩ := Res.bind_ok_eq hws
      obtain ⟨h', rfl, hh'⟩ := readPart_ok ha
      rcases hh' with ⟨hx, -⟩ | ⟨_, w, hx, rfl, hw⟩
      · cases hx
      cases hx
      cases hws
      obtain ⟨k1, k2, k3⟩ := hty.header _ t (.variant hm) rfl
      obtain ⟨own', he, hwr⟩ := serHeaders_written hown
      rw [← he.trans (List.nil_append _)] at hwr
      exact own_safe hwr hvt k1 k2 hs' hw
  | @struct x s h own hx hown =>
    cases ht with
    | @struct _ ts ht =>
      cases ht with
      | @cons _ _ xt _ ts hxt ht =>
        obtain ⟨u, rfl, hu⟩ := header_field ht
        rcases hu with ⟨rfl, rfl⟩ | ⟨v, t, rfl, rfl, hvt⟩
        · cases hown; intro x hx; cases hx
        have hw : deHeaders t hs = .ok v := by
          rw [RespDe.de] at hd
          cases inside with
          | false =>
            rw [startPhase, respDe_struct] at hd
            obtain ⟨ws, hws, hw⟩ := Res.bind_ok_eq hd
            cases hw
            obtain ⟨a, ha, hws⟩ := Res.bind_ok_eq hws
            obtain ⟨b, hb, hws⟩ := Res.bind_ok_eq hws
            obtain ⟨x', rfl, hx'⟩ := readPart_ok ha
            obtain ⟨h', rfl, hh'⟩ := readPart_ok hb
            rcases hx' with ⟨hx', -⟩ | ⟨_, y, hx', rfl, -⟩
            · cases hx'
            rcases hh' with ⟨hh', -⟩ | ⟨_, w, hh', rfl, hw⟩
            · cases hh'
            cases hh'
            cases hws
            exact hw
          | true =>
            rw [startPhase, respDe_variant] at hd
            obtain ⟨ws, hws, hw⟩ := Res.bind_ok_eq hd
            cases hw
            obtain ⟨b, hb, hws⟩ := Res.bind_ok_eq hws
            obtain ⟨h', rfl, hh'⟩ := readPart_ok hb
            rcases hh' with ⟨hh', -⟩ | ⟨_, w, hh', rfl, hw⟩
            · cases hh'
            cases hh'
            have hl : ([] ++ optField "header".toList (some w)).lookup "status".toList = none := rfl
            rw [assemble, hl] at hws
            obtain ⟨y, -, hws⟩ := Res.bind_ok_eq hws
            obtain ⟨zs, hz, hws⟩ := Res.bind_ok_eq hws
            cases hz
            cases hws
            exact hw
        obtain ⟨k1, k2, k3⟩ := hty.header _ t (.struct _) rfl
        obtain ⟨own', he, hwr⟩ := serHeaders_written hown
        rw [← he.trans (List.nil_append _)] at hwr
        exact own_safe hwr hvt k1 k2 hs' hw
  | @newtypeStruct v s own _ ih =>
    cases ht with
    | newtypeStruct ht =>
      rw [RespDe.de] at hd
      obtain ⟨x, hx, hw⟩ := Res.bind_ok_eq hd
      cases hw
      exact ih ht ⟨fun _ h => hty.variants _ (.newtypeStruct h),
        fun _ h => hty.fields _ (.newtypeStruct h), fun _ _ h => hty.header _ _ (.newtypeStruct h)⟩
        inside hx
  | @newtypeVariant n v s own _ ih =>
    cases ht with
    | @newtypeVariant _ _ t vs hm ht =>
      obtain ⟨m, hmem, -, hname⟩ := C30_variant_is_status vs code hs (.newtypeVariant n v) hd
      cases hname
      have hc : statusCodeToStr code = some n := (statusCodeToStr_table _ _).2 hmem
      rw [RespDe.de] at hd
      simp only [hc, Res.ofOption, Res.bind_ok] at hd
      rw [deVariant_lookup _ _ _ _ (lookup_of_mem (hty.variants _ (.enum _)) hm),
        RespDe.deContent] at hd
      obtain ⟨x, hx, hw⟩ := Res.bind_ok_eq hd
      cases hw
      exact ih ht ⟨fun _ h => hty.variants _ (.newtypeVariant hm h),
        fun _ h => hty.fields _ (.newtypeVariant hm h),
        fun _ _ h => hty.header _ _ (.newtypeVariant hm h)⟩ true hx

/-- The headers of a response frame the body. -/
theorem response_framed {v : Val} {s : Status} {own : List Header} (h : SentResponse v s own)
    {t : Ty} (ht : HasTy v t) (hty : ResponseTy t)
    (hte : ∀ ts u, FieldsOf t ts → ts.lookup "header".toList = some u →
      "transfer-encoding".toList ∉ (names u).map lowerText) (hr : AsciiNames own) :
    ∀ x ∈ own, nameText x.1 ≠ "content-length".toList ∧ nameText x.1 ≠ "transfer-encoding".toList := by
  induction h generalizing t with
  | unit hs => intro x hx; cases hx
  | @variant n s h own hn hown =>
    cases ht with
    | @structVariant _ _ ts vs hm ht =>
      obtain ⟨u, rfl, hu⟩ := header_field ht
      rcases hu with ⟨rfl, rfl⟩ | ⟨v, t, rfl, rfl, hvt⟩
      · cases hown; intro x hx; cases hx
      obtain ⟨k1, k2, k3⟩ := hty.header _ t (.variant hm) rfl
      exact framed_own hvt k1 k3 (hte _ t (.variant hm) rfl) hown hr
  | @struct x s h own hx hown =>
    cases ht with
    | @struct _ ts ht =>
      cases ht with
      | @cons _ _ xt _ ts hxt ht =>
        obtain ⟨u, rfl, hu⟩ := header_field ht
        rcases hu with ⟨rfl, rfl⟩ | ⟨v, t, rfl, rfl, hvt⟩
        · cases hown; intro x hx; cases hx
        obtain ⟨k1, k2, k3⟩ := hty.header _ t (.struct _) rfl
        exact framed_own hvt k1 k3 (hte _ t (.struct _) rfl) hown hr
  | @newtypeStruct v s own _ ih =>
    cases ht with
    | newtypeStruct ht =>
      exact ih ht ⟨fun _ h => hty.variants _ (.newtypeStruct h),
        fun _ h => hty.fields _ (.newtypeStruct h), fun _ _ h => hty.header _ _ (.newtypeStruct h)⟩
        (fun _ _ h => hte _ _ (.newtypeStruct h)) hr
  | @newtypeVariant n v s own _ ih =>
    cases ht with
    | @newtypeVariant _ _ t vs hm ht =>
      exact ih ht ⟨fun _ h => hty.variants _ (.newtypeVariant hm h),
        fun _ h => hty.fields _ (.newtypeVariant hm h),
        fun _ _ h => hty.header _ _ (.newtypeVariant hm h)⟩
        (fun _ _ h => hte _ _ (.newtypeVariant hm h)) hr

omit [LawfulFloatText] in
/-- The status arrives, whatever the headers are. -/
theorem status_line {phrase : Bytes} (hp : ∀ b ∈ phrase, ValueByte b) {r : Response}
    {more rest : Bytes} {c : Nat} {hs : List Header}
    (hr : readResponseHead (writeResponse phrase r ++ more) = .done (c, hs) rest) :
    c = r.status.code := by
  have e : writeResponse phrase r ++ more =
      (version ++ 32 :: utf8 (showNat r.status.code) ++ 32 :: phrase) ++ crlf ++
        (writeHeaders r.headers ++ (r.body ++ more)) := by
    simp [writeResponse]
  rw [readResponseHead, e, readLines_line, if_neg (by simp)] at hr
  · cases h3 : readLines [] (writeHeaders r.headers ++ (r.body ++ more)) with
    | none => rw [h3] at hr; cases hr
    | some x =>
      rw [h3] at hr
      simp only [Option.map_some, List.nil_append, readStatusLine_write (status_digits _) hp] at hr
      cases h4 : readHeaders x.1 with
      | none => rw [h4] at hr; cases hr
      | some hs => rw [h4] at hr; cases hr; rfl
  · intro b hb
    simp only [List.mem_append, List.mem_cons] at hb
    rcases hb with (hb | rfl | hb) | rfl | hb
    · rintro rfl
      exact absurd hb (by decide)
    · decide
    · exact (isGraphic_facts (showNat_graphic b hb)).2
    · decide
    · rintro rfl
      exact absurd (hp _ hb) (by decide)

/-- When a client that has read a status and headers takes them for the response that was sent, and what
it reads then. -/
theorem response_iff (v : Val) (t : Ty) (ht : HasTy v t) (hty : ResponseTy t) (hn : ¬ HasNaN v)
    (hte : ∀ ts u, FieldsOf t ts → ts.lookup "header".toList = some u →
      "transfer-encoding".toList ∉ (names u).map lowerText)
    (body : Bytes) (r : Response) (hs : serResponse v body = .ok r)
    (phrase : Bytes) (hp : ∀ b ∈ phrase, ValueByte b) (rh : ReqHead) (more : Bytes) :
    (∀ c hs' rest, readResponseHead (writeResponse phrase (onWire rh r) ++ more) = .done (c, hs') rest →
      deResponse t c hs' = .ok v → ResponseIntact false v r.status.code ∧ SafeHeaders r.headers) ∧
    (ResponseIntact false v r.status.code → SafeHeaders r.headers →
      deResponse t r.status.code r.headers = .ok v ∧
      Reads rh.method (writeResponse phrase (onWire rh r) ++ more) r.status.code r.headers
        (if rh.method = .head then [] else body) more) := by
  obtain ⟨own, h1, h2, h3⟩ := serResponse_sent ht hty.fields hs
  have hw : (onWire rh r).status = r.status := by
    rw [onWire]; split <;> rfl
  have key : SafeHeaders r.headers →
      (deResponse t r.status.code r.headers = .ok v ↔ ResponseIntact false v r.status.code) :=
    fun h => C109_response v t ht hty hn body r hs (safe_ascii h) r.headers (by rw [h2]; simp)
      (safe_ascii h) fun _ _ _ _ => rfl
  have arrives := fun hsafe : SafeHeaders r.headers =>
    C67_response_arrives_partial v body r hs hsafe (by
      rw [h2, safe_append] at hsafe
      rw [h2]
      exact framed_append body (response_framed h1 ht hty hte (safe_ascii hsafe))) phrase hp rh
  constructor
  · intro c hs' rest hhead hde
    have hc := status_line hp hhead
    rw [hw] at hc
    subst hc
    have hsafe : SafeHeaders r.headers := by
      rw [h2, safe_append]
      exact response_safe h1 ht hty (readResponseHead_safe hhead) false hde
    have := (arrives hsafe).1 more
    rw [hhead] at this
    cases this
    exact ⟨(key hsafe).1 hde, hsafe⟩
  · intro hi hsafe
    obtain ⟨a1, f, a2, a3⟩ := arrives hsafe
    refine ⟨(key hsafe).2 hi, ?_⟩
    have a1 := a1 more
    by_cases hm : rh.method = .head
    · rw [if_pos hm] at a1 ⊢
      exact .head hm a1
    · rw [if_neg hm] at a1 ⊢
      exact .full hm a1 a2 (a3 more)

/-- **C110** for responses. Let a server answer a request with a response without NaN, of the type that the
client expects. Whatever comes after it on the connection: the client gets this response and its body (for
`HEAD`, none), and goes on with what comes after it, exactly if the response arrives and HTTP can express
its headers. -/
theorem C110_response (v : Val) (t : Ty) (ht : HasTy v t) (hty : ResponseTy t) (hn : ¬ HasNaN v)
    (hte : ∀ ts u, FieldsOf t ts → ts.lookup "header".toList = some u →
      "transfer-encoding".toList ∉ (names u).map lowerText)
    (body : Bytes) (r : Response) (hs : serResponse v body = .ok r)
    (phrase : Bytes) (hp : ∀ b ∈ phrase, ValueByte b) (rh : ReqHead) (more : Bytes) :
    Returned rh.method (writeResponse phrase (onWire rh r)) more t v
        (if rh.method = .head then [] else body) ↔
      ResponseIntact false v r.status.code ∧ SafeHeaders r.headers := by
  obtain ⟨only, gets⟩ := response_iff v t ht hty hn hte body r hs phrase hp rh more
  constructor
  · rintro ⟨c, hs', hreads, hde⟩
    have hhead : ∃ rest, readResponseHead (writeResponse phrase (onWire rh r) ++ more) =
        .done (c, hs') rest := by
      generalize (if rh.method = .head then [] else body) = b at hreads
      cases hreads with
      | head _ h => exact ⟨_, h⟩
      | full _ h => exact ⟨_, h⟩
    obtain ⟨rest, hhead⟩ := hhead
    exact only c hs' rest hhead hde
  · rintro ⟨hi, hsafe⟩
    exact ⟨_, _, (gets hi hsafe).2, (gets hi hsafe).1⟩

end

end Htrpc
