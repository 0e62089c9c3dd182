/-
What arrives of a request is what was sent (C75).
-/
import Verif.Props.Integrity
import Verif.Props.Request

namespace Htrpc
open Spec

section
variable [LawfulFloatText]

theorem serQuery_chars {v : Val} {q : Str} (h : serQuery v = .ok q) : ∀ c ∈ q, QueryChar c := by
  by_cases hw : ∃ ps, Written SentOpt id v ps
  · obtain ⟨ps, hw⟩ := hw
    obtain ⟨st, h1, h2⟩ := QuerySer.ser_written hw
    rw [serQuery, h1] at h
    cases h
    rw [h2]
    exact fun c hc => formText_queryChar hc
  · rw [(C69_query v).2 hw] at h
    cases h

theorem requestPath_pushed {e : EntryPoint} {p : Option Val} {path : Str}
    (h : requestPath e p = .ok path) : ∃ L : List Str, path = L.foldl pushSegment ['/'] := by
  cases p with
  | none =>
    rw [requestPath] at h
    split at h
    · cases h
    · cases h; exact ⟨_, rfl⟩
  | some v =>
    rw [requestPath] at h
    by_cases hx : ∃ vs ss, PathArgs v vs ∧ SentAll vs ss ∧ vs.length = varCount e
    · obtain ⟨vs, ss, hv, hss, hl⟩ := hx
      rw [(C69_path e ['/'] v).1 vs ss hv hss hl] at h
      cases h
      exact ⟨_, rfl⟩
    · rw [(C69_path e ['/'] v).2 hx] at h
      cases h

/-- All headers made from a struct have the names of its fields. -/
theorem askedFor_own {v : Val} {own : List Header} (h : Written SentHeader utf8 v own) {t : Ty}
    (ht : HasTy v t) (hst : isStruct t = true) (hn : AsciiNames own) : askedFor t own = own := by
  unfold askedFor
  induction h generalizing t with
  | single _ => rfl
  | @struct fs es h =>
    cases ht with
    | struct ht =>
      refine List.filter_eq_self.2 fun x hx => ?_
      obtain ⟨e, he, rfl⟩ := List.mem_map.1 hx
      have := FieldEntries_name h (List.mem_map.2 ⟨e, he, rfl⟩)
      unfold Declared at this
      rw [HasTyFields_names ht] at this
      have hasc : Ascii e.1 := ascii_of_utf8 (hn _ hx)
      rw [decide_eq_true_eq, nameText_ascii hasc]
      exact List.mem_map.2 ⟨e.1, this, rfl⟩
  | structVariant => cases ht; cases hst
  | map => cases ht; cases hst
  | some _ ih => cases ht with | some ht => have := ih ht hst hn; exact this
  | newtypeStruct _ ih => cases ht with | newtypeStruct ht => have := ih ht hst hn; exact this
  | newtypeVariant => cases ht; cases hst

/-- The header part of a message, which is followed by the length of the body. -/
theorem header_part {v : Val} {t : Ty} (hvt : HasTy v t) (hst : isStruct t = true)
    (hnd : ((names t).map lowerText).Nodup)
    (hcl : "content-length".toList ∉ (names t).map lowerText) (body : Bytes) {own : List Header}
    (hown : serHeaders [] v = .ok ([] ++ own)) (hr : AsciiNames own) {hs : List Header}
    (hn : AsciiNames hs) (ho : askedFor t hs =
      askedFor t (own ++ [(utf8 "Content-Length".toList, utf8 (showNat body.length))]))
    {w : Val} (hw : deHeaders t hs = .ok w) : HeaderArrives v w := by
  obtain ⟨own', he, hwr⟩ := serHeaders_written hown
  rw [← List.append_cancel_left he] at hwr
  have hself := askedFor_own hwr hvt hst hr
  have : askedFor t (own ++ [(utf8 "Content-Length".toList, utf8 (showNat body.length))]) = own := by
    have hne : nameText (utf8 "Content-Length".toList) ∉ (names t).map lowerText := hcl
    unfold askedFor at hself ⊢
    rw [List.filter_append, hself, List.filter_cons_of_neg (by simpa using hne),
      List.filter_nil, List.append_nil]
  exact C73_headers v t hvt hst hnd [] own hown hs hn (ho.trans this) w hw

omit [LawfulFloatText] in
/-- What `readPart` adds to the fields read so far. -/
theorem readPart_ok {fs : List (Str × Ty)} {key : Str} {rd : Ty → Res Val} {skip : Res Unit}
    {acc a : List (Str × Val)} (h : readPart fs key rd skip acc = .ok a) :
    ∃ v : Option Val, a = acc ++ optField key v ∧
      ((fs.lookup key = none ∧ v = none) ∨
        ∃ t w, fs.lookup key = some t ∧ v = some w ∧ rd t = .ok w) := by
  rw [readPart] at h
  cases hl : fs.lookup key with
  | none =>
    simp only [hl] at h
    obtain ⟨_, _, h⟩ := Res.bind_ok_eq h
    cases h
    exact ⟨none, by simp [optField], .inl ⟨rfl, rfl⟩⟩
  | some t =>
    simp only [hl] at h
    obtain ⟨w, hw, h⟩ := Res.bind_ok_eq h
    cases h
    exact ⟨some w, rfl, .inr ⟨t, w, rfl, rfl, hw⟩⟩

omit [LawfulFloatText] in
/-- The fields of a typed request. -/
theorem requestFields_typed {p q h : Option Val} {ts : List (Str × Ty)}
    (ht : HasTyFields (requestFields p q h) ts) :
    ∃ tp tq th, ts = requestFields tp tq th ∧
      ((p = none ∧ tp = none) ∨ ∃ v t, p = some v ∧ tp = some t ∧ HasTy v t) ∧
      ((q = none ∧ tq = none) ∨ ∃ v t, q = some v ∧ tq = some t ∧ HasTy v t) ∧
      ((h = none ∧ th = none) ∨ ∃ v t, h = some v ∧ th = some t ∧ HasTy v t) := by
  have split : ∀ (n : Str) (o : Option Val) (fs : List (Str × Val)) (ts : List (Str × Ty)),
      HasTyFields (optField n o ++ fs) ts → ∃ t ts', ts = optField n t ++ ts' ∧
        HasTyFields fs ts' ∧
        ((o = none ∧ t = none) ∨ ∃ v u, o = some v ∧ t = some u ∧ HasTy v u) := by
    intro n o fs ts h
    cases o with
    | none => exact ⟨none, ts, rfl, h, .inl ⟨rfl, rfl⟩⟩
    | some v =>
      cases h with
      | cons h1 h2 => exact ⟨some _, _, rfl, h2, .inr ⟨_, _, rfl, rfl, h1⟩⟩
  rw [requestFields, List.append_assoc] at ht
  obtain ⟨tp, ts, rfl, ht, h1⟩ := split _ _ _ _ ht
  obtain ⟨tq, ts, rfl, ht, h2⟩ := split _ _ _ _ ht
  rw [← List.append_nil (optField "header".toList h)] at ht
  obtain ⟨th, ts, rfl, ht, h3⟩ := split _ _ _ _ ht
  cases ht
  exact ⟨tp, tq, th, by simp [requestFields], h1, h2, h3⟩

/-- **C75.** Whatever struct is sent as a request, to whatever entry point: the request has the method
of the procedure and the given body, and the server can parse its target. If the path matches the entry
point and a procedure with the same type of requests accepts the request, with any other headers that
have different names in any places, then it gets the parts that were sent, each as C72, C73 and C74
say. -/
theorem C75_request (o : UrlOracle) (m : Method) (e : EntryPoint) (fs : List (Str × Val))
    (ts : List (Str × Ty)) (ht : HasTyFields fs ts) (hd : DistinctNames ts)
    (hqd : ∀ t, ts.lookup "query".toList = some t → (names t).Nodup)
    (hhd : ∀ t, ts.lookup "header".toList = some t → isStruct t = true ∧
      ((names t).map lowerText).Nodup ∧ "content-length".toList ∉ (names t).map lowerText)
    (body : Bytes) (r : Request) (hs : serRequest m e (.struct fs) body = .ok r)
    (hr : AsciiNames r.headers) :
    r.method = m ∧ r.body = body ∧
      ∃ target segs, parseTarget o r.target = some target ∧ target.segs = some segs ∧
        ∀ hs', AsciiNames hs' →
          (∀ t, ts.lookup "header".toList = some t → askedFor t hs' = askedFor t r.headers) →
          Matches e segs → ∀ w, deRequest e (.struct ts) target hs' = .ok w →
            ∃ ws, w = .struct ws ∧ FieldsArrive PartArrives fs ws := by
  have hdf : DistinctNames fs := by unfold DistinctNames; rw [HasTyFields_names ht]; exact hd
  obtain ⟨p, q, h, rfl, -, hreq⟩ := C23_only_in_order m e fs hdf body r hs
  clear hs hdf
  obtain ⟨tp, tq, th, rfl, hp, hq, hh⟩ := requestFields_typed ht
  clear ht hd
  have l1 : (requestFields tp tq th).lookup "path".toList = tp := by
    cases tp <;> cases tq <;> cases th <;> rfl
  have l2 : (requestFields tp tq th).lookup "query".toList = tq := by
    cases tp <;> cases tq <;> cases th <;> rfl
  have l3 : (requestFields tp tq th).lookup "header".toList = th := by
    cases tp <;> cases tq <;> cases th <;> rfl
  rw [l2] at hqd
  rw [l3] at hhd ⊢
  rw [requestOf] at hreq
  obtain ⟨path, hpath, hreq⟩ := Res.bind_ok_eq hreq
  obtain ⟨query, hquery, hreq⟩ := Res.bind_ok_eq hreq
  obtain ⟨own, hown, hreq⟩ := Res.bind_ok_eq hreq
  cases hreq
  have hqc : ∀ q ∈ query, ∀ c ∈ q, QueryChar c := by
    cases q with
    | none => cases hquery; intro q hq; cases hq
    | some v =>
      obtain ⟨text, htext, hquery⟩ := Res.bind_ok_eq hquery
      cases hquery
      intro q hq
      cases hq
      exact serQuery_chars htext
  obtain ⟨L, rfl⟩ := requestPath_pushed hpath
  obtain ⟨segs, -, h2, -⟩ := parseTarget_pushed o L query hqc
  refine ⟨rfl, rfl, ⟨some segs, query⟩, segs, ?_, rfl, fun hs' hn ho hm w hw => ?_⟩
  · rw [← h2]; cases query <;> rfl
  rw [deRequest, reqDe_struct] at hw
  obtain ⟨a, ha, hw⟩ := Res.bind_ok_eq hw
  obtain ⟨b, hb, hw⟩ := Res.bind_ok_eq hw
  obtain ⟨c, hc, hw⟩ := Res.bind_ok_eq hw
  obtain ⟨vs, hvs, hw⟩ := Res.bind_ok_eq hw
  cases hw
  obtain ⟨p', rfl, hp'⟩ := readPart_ok ha
  obtain ⟨q', rfl, hq'⟩ := readPart_ok hb
  obtain ⟨h', rfl, hh'⟩ := readPart_ok hc
  clear ha hb hc
  rw [l1] at hp'
  rw [l2] at hq'
  rw [l3] at hh'
  have key1 : (p = none ∧ tp = none ∧ p' = none) ∨
      ∃ v t w, p = some v ∧ tp = some t ∧ p' = some w ∧ PathArrives v w := by
    rcases hp with ⟨rfl, rfl⟩ | ⟨v, t, rfl, rfl, hvt⟩
    · rcases hp' with ⟨-, rfl⟩ | ⟨_, _, h, -⟩
      · exact .inl ⟨rfl, rfl, rfl⟩
      · cases h
    · rcases hp' with ⟨h, -⟩ | ⟨_, w, h, rfl, hw⟩
      · cases h
      · cases h
        obtain ⟨segs', h3, h4⟩ := C74_path o e v t hvt _ hpath query hqc
        rw [h2] at h3
        cases h3
        exact .inr ⟨v, t, w, rfl, rfl, rfl, h4 hm w hw⟩
  have key2 : (q = none ∧ tq = none ∧ q' = none) ∨
      ∃ v t w, q = some v ∧ tq = some t ∧ q' = some w ∧ QueryArrives v w := by
    rcases hq with ⟨rfl, rfl⟩ | ⟨v, t, rfl, rfl, hvt⟩
    · rcases hq' with ⟨-, rfl⟩ | ⟨_, _, h, -⟩
      · exact .inl ⟨rfl, rfl, rfl⟩
      · cases h
    · rcases hq' with ⟨h, -⟩ | ⟨_, w, h, rfl, hw⟩
      · cases h
      · cases h
        obtain ⟨text, htext, hquery⟩ := Res.bind_ok_eq hquery
        cases hquery
        exact .inr ⟨v, t, w, rfl, rfl, rfl, C72_query v t hvt (hqd t rfl) text htext w hw⟩
  have key3 : (h = none ∧ th = none ∧ h' = none) ∨
      ∃ v t w, h = some v ∧ th = some t ∧ h' = some w ∧ HeaderArrives v w := by
    rcases hh with ⟨rfl, rfl⟩ | ⟨v, t, rfl, rfl, hvt⟩
    · rcases hh' with ⟨-, rfl⟩ | ⟨_, _, h, -⟩
      · exact .inl ⟨rfl, rfl, rfl⟩
      · cases h
    · rcases hh' with ⟨h, -⟩ | ⟨_, w, h, rfl, hw⟩
      · cases h
      · cases h
        obtain ⟨hst, hnd, hcl⟩ := hhd t rfl
        exact .inr ⟨v, t, w, rfl, rfl, rfl, header_part hvt hst hnd hcl body hown
          (fun x hx => hr x (List.mem_append_left _ hx)) hn (ho t rfl) hw⟩
  clear hp hq hh hp' hq' hh' l1 l2 l3 hpath hquery hown hr h2 hqd hhd ho
  refine ⟨vs, rfl, ?_⟩
  rcases key1 with ⟨rfl, rfl, rfl⟩ | ⟨_, _, _, rfl, rfl, rfl, k1⟩ <;>
    rcases key2 with ⟨rfl, rfl, rfl⟩ | ⟨_, _, _, rfl, rfl, rfl, k2⟩ <;>
    rcases key3 with ⟨rfl, rfl, rfl⟩ | ⟨_, _, _, rfl, rfl, rfl, k3⟩ <;>
    cases hvs
  · exact .nil
  · exact .cons (.header k3) .nil
  · exact .cons (.query k2) .nil
  · exact .cons (.query k2) (.cons (.header k3) .nil)
  · exact .cons (.path k1) .nil
  · exact .cons (.path k1) (.cons (.header k3) .nil)
  · exact .cons (.path k1) (.cons (.query k2) .nil)
  · exact .cons (.path k1) (.cons (.query k2) (.cons (.header k3) .nil))

end

/-- The class of header types in C75 cannot be extended to fields with the name `content-length`: such
a field that is `None` arrives as the length of the body. -/
theorem C75_content_length [FloatText] (body : Bytes) (hb : IntTy.u64.fits body.length) (m : Method)
    (e : EntryPoint) (he : Seg.var ∉ e) :
    ∃ r, serRequest m e (.struct [("header".toList, .struct [("content-length".toList, .none)])]) body
        = .ok r ∧
      deHeaders (.struct [("content-length".toList, .option (.int .u64))]) r.headers =
        .ok (.struct [("content-length".toList, .some (.int .u64 body.length))]) := by
  have h1 := C23_in_order m e none none (some (.struct [("content-length".toList, .none)])) body
  rw [if_neg (by simp)] at h1
  have h2 : requestPath e none = .ok ((instantiate e []).foldl pushSegment ['/']) := by
    rw [requestPath, if_neg he]
  have h3 : requestHeaders (some (.struct [("content-length".toList, .none)])) = .ok [] := rfl
  rw [requestOf, h2, h3] at h1
  refine ⟨_, h1, ?_⟩
  have h4 : readBytes (.option (.int .u64)) (utf8 (showNat body.length)) =
      some (.some (.int .u64 body.length)) := by
    rw [readBytes, readBytes, fromUtf8_utf8, Option.bind_some,
      show showNat body.length = showInt body.length from rfl, parseInt_showInt hb]
    rfl
  show deHeaders _ [(utf8 "Content-Length".toList, utf8 (showNat body.length))] = _
  rw [deHeaders_struct (by unfold DistinctNames; decide) (by
    intro h hh
    rw [List.mem_singleton.1 hh]
    show ∀ b ∈ utf8 "Content-Length".toList, _
    decide)]
  have h5 : fieldValue readBytes [("content-length".toList, utf8 (showNat body.length))]
      "content-length".toList (.option (.int .u64)) = some (.some (.int .u64 body.length)) := h4
  have h6 : entries [(utf8 "Content-Length".toList, utf8 (showNat body.length))] =
      [("content-length".toList, utf8 (showNat body.length))] := rfl
  rw [h6, readStruct, collectFields, h5]
  rfl

/-! ### Examples -/

section Examples

/-- `C72`: a nested option that is `Some(None)` is received as `None`. -/
example : letI := toyFloat
    ∃ q, serQuery (.struct [("a".toList, .some .none), ("b".toList, .str "=&".toList)]) = .ok q ∧
      ∀ w, deQuery (.struct [("a".toList, .option (.option .bool)), ("b".toList, .str)]) (some q) =
        .ok w → QueryArrives (.struct [("a".toList, .some .none), ("b".toList, .str "=&".toList)]) w :=
  letI := toyFloat
  ⟨_, rfl, C72_query _ _ (.struct (.cons (.some (.none _)) (.cons (.str _) .nil))) (by decide) _ rfl⟩

example : letI := toyFloat
    deQuery (.struct [("a".toList, .option (.option .bool)), ("b".toList, .str)])
      (some "b=%3D%26".toList) =
        .ok (.struct [("a".toList, .none), ("b".toList, .str "=&".toList)]) := by
  let := toyFloat
  rw [deQuery_tame (by unfold DistinctNames; decide) (.of_declared (by unfold Declared; decide))]
  rfl

/-- `C73`: a field whose name is not in lower case is lost, the other one arrives. -/
example : letI := toyFloat
    ∃ own, serHeaders [] (.struct [("ETag".toList, .some (.str ['x'])), ("age".toList, .int .u8 7)]) =
        .ok ([] ++ own) ∧
      (∀ w, deHeaders (.struct [("ETag".toList, .option .str), ("age".toList, .int .u8)])
        ((utf8 "Host".toList, [97]) :: own) = .ok w → HeaderArrives
          (.struct [("ETag".toList, .some (.str ['x'])), ("age".toList, .int .u8 7)]) w) ∧
      deHeaders (.struct [("ETag".toList, .option .str), ("age".toList, .int .u8)])
        ((utf8 "Host".toList, [97]) :: own) =
          .ok (.struct [("ETag".toList, .none), ("age".toList, .int .u8 7)]) := by
  let := toyFloat
  have hn : AsciiNames [(utf8 "Host".toList, [97]), (utf8 "ETag".toList, [120]),
    (utf8 "age".toList, [55])] := by unfold AsciiNames; decide
  refine ⟨[(utf8 "ETag".toList, [120]), (utf8 "age".toList, [55])], rfl,
    C73_headers _ _ (.struct (.cons (.some (.str _)) (.cons (.int _ _ (by decide)) .nil))) rfl
      (by decide) [] _ rfl _ hn (by decide), ?_⟩
  rw [deHeaders_struct (by unfold DistinctNames; decide) hn]
  rfl

/-- `C74`: the only argument of `/_` is the text `.`, which arrives empty. -/
example (o : UrlOracle) : letI := toyFloat
    ∃ path segs, serPath [.var] ['/'] (.tuple [.str ['.']]) = .ok path ∧
      parseTarget o path = some ⟨some segs, none⟩ ∧
      dePath [.var] (.tuple [.str]) (some segs) = .ok (.tuple [.str []]) ∧
      PathArrives (.tuple [.str ['.']]) (.tuple [.str []]) := by
  let := toyFloat
  have h4 := serPath_tuple (.tuple [.str ['.']])
    (PathSer.writes_of_sent (.cons (.str ['.']) .nil)) [.var] ['/']
  have hm : Matches [.var] [[]] := .cons trivial .nil
  have hr : dePath [.var] (.tuple [.str]) (some [[]]) = .ok (.tuple [.str []]) := by
    rw [C63_path_read _ _ hm]
    rfl
  obtain ⟨segs, h1, h2⟩ := C74_path o [.var] _ _ (.tuple (.cons (.str ['.']) .nil)) _ h4 none
    (by intro q hq; cases hq)
  have h3 : parseTarget o (joinTarget (([['.']] : List Str).foldl pushSegment ['/']) none) =
      some ⟨some [[]], none⟩ := parseTarget_push o (L := [[]]) (by unfold Carried; decide) none
        (by intro q hq; cases hq)
  rw [show instantiate [.var] [['.']] = [['.']] from rfl, h3] at h1
  cases h1
  exact ⟨_, _, h4, h3, hr, h2 hm _ hr⟩

/-- `C75`: a request with all three parts. -/
example (o : UrlOracle) (body : Bytes) : letI := toyFloat
    ∃ r target, serRequest (.other 0) exReqEntry (.struct (requestFields (some exReqPath)
        (some (.struct exQuery)) (some (.struct exHeader)))) body = .ok r ∧
      parseTarget o r.target = some target ∧
      ∃ w, deRequest exReqEntry (.struct (requestFields (some (.tuple [.str]))
        (some (.struct exQueryTy)) (some (.struct exHeaderTy)))) target r.headers = .ok (.struct w) ∧
        FieldsArrive PartArrives (requestFields (some exReqPath)
          (some (.struct exQuery)) (some (.struct exHeader))) w := by
  let := toyFloat
  obtain ⟨r, target, segs, h1, -, -, h4, h5, h6, h7⟩ := C27_request_end_to_end o
    [⟨.other 0, exReqEntry, 2⟩] ⟨.other 0, exReqEntry, 2⟩
    (by simp) (by unfold ConflictFree; decide) exReq_consts _ _ _ _ _ _ _ exReq_path
    (.struct exQuery_texts exQuery_ty exQuery_names) exReq_header (by simp)
    ⟨by decide, by decide, .inr ⟨_, rfl, by decide⟩⟩ (by
      rintro ⟨pre, suf, p, h1, h2, r, hr, h3⟩
      rw [List.mem_singleton.1 hr] at h3
      simp only [exReqEntry] at h1 h3
      match pre with
      | [] => cases h1
      | [a] => cases h1; simp at h3
      | a :: b :: pre =>
        simp only [List.cons_append, List.cons.injEq] at h1
        exact absurd h1.2.2 (by simp)) body
  have h8 := h7 [] [] (by unfold AsciiNames; decide) (by unfold AsciiNames; decide)
    (by intro _ _ h hh; cases hh) (by intro _ _ h hh; cases hh)
  rw [List.nil_append, List.append_nil] at h8
  have hr : AsciiNames r.headers := by
    rw [C23_in_order, if_neg (by simp), requestOf] at h1
    obtain ⟨_, -, h1⟩ := Res.bind_ok_eq h1
    obtain ⟨_, -, h1⟩ := Res.bind_ok_eq h1
    obtain ⟨own, hown, h1⟩ := Res.bind_ok_eq h1
    cases h1
    have := (serHeaders_struct exHeader_fields.sent []).symm.trans hown
    cases this
    unfold AsciiNames
    intro h hh
    rcases List.mem_cons.1 hh with rfl | hh
    · decide
    rcases List.mem_cons.1 hh with rfl | hh
    · decide
    rcases List.mem_cons.1 hh with rfl | hh
    · decide
    rw [List.mem_singleton.1 hh]
    show ∀ b ∈ utf8 "Content-Length".toList, _
    decide
  have hm : Matches exReqEntry segs := by
    rw [C02_dispatch_iff] at h6
    obtain ⟨x, hx, -, -, h, -⟩ := h6
    rw [accepted_of_conflictFree (by unfold ConflictFree; decide)] at hx
    rwa [List.mem_singleton.1 hx] at h
  obtain ⟨-, -, target', segs', h9, h10, h11⟩ := C75_request o _ exReqEntry _ _
    (.cons (.tuple (.cons (.str _) .nil)) (.cons (.struct exQuery_ty) (.cons (.struct exHeader_ty) .nil)))
    (by unfold DistinctNames; decide) (by intro t h; cases h; decide)
    (by intro t h; cases h; exact ⟨rfl, by decide, by decide⟩) body r h1 hr
  rw [h4] at h9
  cases h9
  rw [h5] at h10
  cases h10
  obtain ⟨ws, h12, h13⟩ := h11 _ hr (fun _ _ => rfl) hm _ h8
  cases h12
  exact ⟨r, target, h1, h4, _, h8, h13⟩

end Examples
end Htrpc
