/-
C129: which header lines messages have.
-/
import Verif.Spec.Lines
import Verif.Lemmas.Integrity
import Verif.Props.Request
import Verif.Props.Problem
import Verif.Props.Http
import Verif.Props.Server
import Verif.Props.HttpExamples
import Verif.Lemmas.ToyFloat

namespace Htrpc
open Spec

section
variable [FloatText]

theorem lines_append {vs ws : List Val} {hs hs' : List Header} (h : Lines vs hs) (h' : Lines ws hs') :
    Lines (vs ++ ws) (hs ++ hs') := by
  induction h with
  | nil => exact h'
  | cons hv _ ih =>
    rw [List.append_assoc]
    exact .cons hv ih

theorem lines_one {v : Val} {hs : List Header} (h : Written SentHeader utf8 v hs) : Lines [v] hs := by
  simpa using Lines.cons h .nil

/-! ### Requests -/

namespace ReqSer

/-- The headers so far, which are none as long as there is a connection. -/
structure HasLines (st : ReqSer) (vs : List Val) : Prop where
  conn : st.conn = true → st.request = none
  lines : Lines vs ((st.request.map ReqBuilder.headers).getD [])

theorem takeRequest_lines {e : EntryPoint} {st st' : ReqSer} {r : ReqBuilder} {vs : List Val}
    (hl : HasLines st vs) (h : takeRequest e st = .ok (r, st')) :
    Lines vs r.headers ∧ st'.conn = (if st.request = none then false else st.conn) := by
  obtain ⟨h1, h2⟩ := hl
  rw [takeRequest] at h
  cases hr : st.request with
  | some r' =>
    rw [hr] at h h2
    cases h
    exact ⟨h2, rfl⟩
  | none =>
    rw [hr] at h h2
    simp only at h
    split at h
    · cases h
    · split at h
      · cases h
        exact ⟨h2, rfl⟩
      · split at h
        · cases h
          exact ⟨h2, rfl⟩
        · cases h

theorem serField_lines {e : EntryPoint} {k : Str} {v : Val} {st st' : ReqSer} {vs : List Val}
    (hl : HasLines st vs) (h : serField e k v st = .ok st') :
    HasLines st' (vs ++ if k = "header".toList then [v] else []) := by
  rw [serField] at h
  split at h
  · rename_i hk
    subst hk
    obtain ⟨_, h1, h⟩ := Res.bind_eq_ok.1 h
    obtain ⟨p, h2, h⟩ := Res.bind_eq_ok.1 h
    cases h
    rw [if_neg (by decide), List.append_nil]
    exact ⟨hl.conn, hl.lines⟩
  · split at h
    · rename_i hk
      subst hk
      obtain ⟨_, h1, h⟩ := Res.bind_eq_ok.1 h
      rw [if_neg (by decide), List.append_nil]
      have hc : st.conn = true := by
        cases hc : st.conn with
        | true => rfl
        | false => rw [hc] at h1; cases h1
      have := hl.lines
      rw [hl.conn hc] at this
      have key : ∀ st1 : ReqSer, (do
          let q ← QuerySer.ser v (QuerySer.new (st1.query.getD []))
          .ok { st1 with query := some q.out, conn := false,
                         request := some ⟨relativeUrl st1.path (some q.out), []⟩ }) = Res.ok st' →
          HasLines st' vs := by
        intro st1 h
        obtain ⟨q, h3, h⟩ := Res.bind_eq_ok.1 h
        cases h
        exact ⟨fun h => (by cases h), this⟩
      simp only at h
      split at h
      · exact key _ h
      · obtain ⟨p, h2, h⟩ := Res.bind_eq_ok.1 h
        exact key _ h
    · split at h
      · rename_i hk
        obtain ⟨⟨r, st1⟩, h1, h⟩ := Res.bind_eq_ok.1 h
        obtain ⟨hs, h2, h⟩ := Res.bind_eq_ok.1 h
        cases h
        obtain ⟨h3, h4⟩ := takeRequest_lines hl h1
        obtain ⟨own, rfl, hw⟩ := serHeaders_written h2
        rw [if_pos hk]
        refine ⟨fun hc => ?_, lines_append h3 (lines_one hw)⟩
        rw [h4] at hc
        split at hc
        · cases hc
        · rename_i hn
          exact absurd (hl.conn hc) hn
      · cases h

theorem serFields_lines {e : EntryPoint} {fs : List (Str × Val)} {st st' : ReqSer} {vs : List Val}
    (hl : HasLines st vs) (h : serFields e fs st = .ok st') :
    HasLines st' (vs ++ headerValues (.struct fs)) := by
  induction fs generalizing st vs with
  | nil =>
    cases h
    simpa [headerValues] using hl
  | cons f fs ih =>
    obtain ⟨k, v⟩ := f
    rw [serFields] at h
    obtain ⟨st1, h1, h⟩ := Res.bind_eq_ok.1 h
    have := ih (serField_lines hl h1) h
    rw [List.append_assoc] at this
    rw [headerValues, List.filter_cons]
    by_cases hk : k = "header".toList
    · rw [if_pos hk] at this
      rwa [if_pos (by simpa using hk)]
    · rw [if_neg hk] at this
      rwa [if_neg (by simpa using hk)]

theorem serVariantFields_lines {n : Str} {fs : List (Str × Val)} {st st' : ReqSer} {vs : List Val}
    (hl : HasLines st vs) (h : serVariantFields fs st = .ok st') :
    HasLines st' (vs ++ headerValues (.structVariant n fs)) := by
  induction fs generalizing st vs with
  | nil =>
    cases h
    simpa [headerValues] using hl
  | cons f fs ih =>
    obtain ⟨k, v⟩ := f
    rw [serVariantFields] at h
    obtain ⟨st1, h1, h⟩ := Res.bind_eq_ok.1 h
    rw [serVariantField] at h1
    split at h1
    · rename_i hk
      subst hk
      cases hr : st.request with
      | none => rw [hr] at h1; cases h1
      | some r =>
        rw [hr] at h1
        obtain ⟨hs, h2, h1⟩ := Res.bind_eq_ok.1 h1
        cases h1
        obtain ⟨own, rfl, hw⟩ := serHeaders_written h2
        have h3 : Lines vs r.headers := by
          have := hl.lines
          rwa [hr] at this
        have h4 : HasLines { st with request := some { r with headers := r.headers ++ own } } (vs ++ [v]) := by
          refine ⟨fun hc => ?_, lines_append h3 (lines_one hw)⟩
          have := hl.conn hc
          rw [hr] at this
          cases this
        have := ih h4 h
        simpa [headerValues] using this
    · cases h1

theorem ser_lines {e : EntryPoint} {v : Val} {st st' : ReqSer} (hl : HasLines st [])
    (h : ser e v st = .ok st') : HasLines st' (headerValues v) := by
  fun_induction ser e v st with
  | case1 v st ih => exact ih hl h
  | case2 _ v st ih => exact ih hl h
  | case3 fs st => simpa using serFields_lines hl h
  | case4 n fs st => simpa using serVariantFields_lines (n := n) hl h
  | case5 => cases h

end ReqSer

/-- **C129.** A request has the header lines that it declares, in their order, and a last one with the length
of the body; no others. -/
theorem C129_request (m : Method) (e : EntryPoint) (v : Val) (body : Bytes) (r : Request)
    (h : serRequest m e v body = .ok r) :
    ∃ own, Lines (headerValues v) own ∧
      r.headers = own ++ [(utf8 "Content-Length".toList, utf8 (showNat body.length))] := by
  rw [serRequest_eq] at h
  obtain ⟨b, h1, h⟩ := Res.bind_eq_ok.1 h
  obtain ⟨st, h2, h3⟩ := Res.bind_eq_ok.1 h1
  rw [ReqSer.finish] at h3
  obtain ⟨⟨x, st'⟩, h4, h5⟩ := Res.bind_eq_ok.1 h3
  cases h
  cases h5
  have hl := ReqSer.ser_lines (st := .new) ⟨fun _ => rfl, .nil⟩ h2
  exact ⟨x.headers, (ReqSer.takeRequest_lines hl h4).1, rfl⟩

/-! ### Responses -/

namespace RespSer

theorem addHeaders_lines {v : Val} {st st' : RespSer} {vs : List Val}
    (hl : Lines vs ((st.response.map Prod.snd).getD [])) (h : addHeaders v st = .ok st') :
    Lines (vs ++ [v]) ((st'.response.map Prod.snd).getD []) := by
  rw [addHeaders] at h
  cases hr : st.response with
  | none => rw [hr] at h; cases h
  | some x =>
    obtain ⟨s, hs⟩ := x
    rw [hr] at h hl
    obtain ⟨hs', h2, h⟩ := Res.bind_eq_ok.1 h
    cases h
    obtain ⟨own, rfl, hw⟩ := serHeaders_written h2
    exact lines_append hl (lines_one hw)

theorem serFields_lines {fs : List (Str × Val)} {st st' : RespSer} {vs : List Val}
    (hc : st.conn = true → st.response = none) (hl : Lines vs ((st.response.map Prod.snd).getD []))
    (h : serFields fs st = .ok st') :
    Lines (vs ++ headerValues (.struct fs)) ((st'.response.map Prod.snd).getD []) := by
  induction fs generalizing st vs with
  | nil =>
    cases h
    simpa [headerValues] using hl
  | cons f fs ih =>
    obtain ⟨k, v⟩ := f
    rw [serFields] at h
    obtain ⟨st1, h1, h⟩ := Res.bind_eq_ok.1 h
    rw [serField] at h1
    rw [headerValues, List.filter_cons]
    split at h1
    · rename_i hk
      obtain ⟨_, h2, h1⟩ := Res.bind_eq_ok.1 h1
      obtain ⟨c, -, h1⟩ := Res.bind_eq_ok.1 h1
      obtain ⟨s, -, h1⟩ := Res.bind_eq_ok.1 h1
      cases h1
      have hc' : st.conn = true := by
        cases hc' : st.conn with
        | true => rfl
        | false => rw [hc'] at h2; cases h2
      rw [hc hc'] at hl
      rw [if_neg (by simp [hk])]
      exact ih (fun h => by cases h) hl h
    · split at h1
      · rename_i hk
        obtain ⟨_, h2, h1⟩ := Res.bind_eq_ok.1 h1
        have hc' : st.conn = false := by
          cases hc' : st.conn with
          | false => rfl
          | true => rw [hc'] at h2; cases h2
        have h3 : st1.conn = false := by
          rw [addHeaders] at h1
          cases hr : st.response with
          | none => rw [hr] at h1; cases h1
          | some x =>
            rw [hr] at h1
            obtain ⟨_, -, h1⟩ := Res.bind_eq_ok.1 h1
            cases h1
            exact hc'
        have := ih (fun h => by rw [h3] at h; cases h) (addHeaders_lines hl h1) h
        rw [List.append_assoc] at this
        rwa [if_pos (by simpa using hk)]
      · cases h1

theorem serVariantFields_lines {n : Str} {fs : List (Str × Val)} {st st' : RespSer} {vs : List Val}
    (hl : Lines vs ((st.response.map Prod.snd).getD [])) (h : serVariantFields fs st = .ok st') :
    Lines (vs ++ headerValues (.structVariant n fs)) ((st'.response.map Prod.snd).getD []) := by
  induction fs generalizing st vs with
  | nil =>
    cases h
    simpa [headerValues] using hl
  | cons f fs ih =>
    obtain ⟨k, v⟩ := f
    rw [serVariantFields] at h
    obtain ⟨st1, h1, h⟩ := Res.bind_eq_ok.1 h
    rw [serVariantField] at h1
    rw [headerValues, List.filter_cons]
    split at h1
    · rename_i hk
      have := ih (addHeaders_lines hl h1) h
      rw [List.append_assoc] at this
      rwa [if_pos (by simpa using hk)]
    · cases h1

theorem startNamed_lines {n : Str} {st st' : RespSer} (h : startNamed n st = .ok st') :
    Lines [] ((st'.response.map Prod.snd).getD []) := by
  rw [startNamed] at h
  obtain ⟨_, -, h⟩ := Res.bind_eq_ok.1 h
  obtain ⟨s, -, h⟩ := Res.bind_eq_ok.1 h
  cases h
  exact .nil

theorem ser_lines {v : Val} {st : RespSer} (h : ser v .new = .ok st) :
    Lines (headerValues v) ((st.response.map Prod.snd).getD []) := by
  generalize hn : RespSer.new = st0 at h
  fun_induction ser v st0 with
  | case1 n st0 => exact startNamed_lines h
  | case2 v st0 ih => exact ih hn h
  | case3 _ v st0 ih => exact ih hn h
  | case4 fs st0 =>
    subst hn
    simpa using serFields_lines (fun _ => rfl) .nil h
  | case5 n fs st0 =>
    obtain ⟨st1, h1, h⟩ := Res.bind_eq_ok.1 h
    simpa using serVariantFields_lines (n := n) (startNamed_lines h1) h
  | case6 => cases h

end RespSer

/-- **C129.** So it is for responses. -/
theorem C129_response (v : Val) (body : Bytes) (r : Response) (h : serResponse v body = .ok r) :
    ∃ own, Lines (headerValues v) own ∧
      r.headers = own ++ [(utf8 "Content-Length".toList, utf8 (showNat body.length))] := by
  rw [serResponse] at h
  obtain ⟨st, h1, h⟩ := Res.bind_eq_ok.1 h
  have hl := RespSer.ser_lines h1
  rw [RespSer.finish] at h
  cases hr : st.response with
  | none => rw [hr] at h; cases h
  | some x =>
    rw [hr] at h hl
    cases h
    exact ⟨x.2, hl, rfl⟩

/-! ### Host -/

theorem sentHeader_not_omitted {v : Val} {b : Bytes} (h : SentHeader v b) : ¬ Omitted v := by
  intro ho
  induction h with
  | sent h =>
    induction h with
    | newtypeStruct _ ih => cases ho with | newtypeStruct h => exact ih h
    | newtypeVariant _ ih => cases ho with | newtypeVariant h => exact ih h
    | _ => cases ho
  | bytes => cases ho
  | unitStruct => cases ho
  | some _ ih => cases ho with | some h => exact ih h
  | newtypeStruct _ ih => cases ho with | newtypeStruct h => exact ih h
  | newtypeVariant _ ih => cases ho with | newtypeVariant h => exact ih h

omit [FloatText] in
theorem linesNamed_append (n : Str) (hs hs' : List Header) :
    linesNamed n (hs ++ hs') = linesNamed n hs ++ linesNamed n hs' := by
  simp [linesNamed]

omit [FloatText] in
theorem linesNamed_length {n : Str} (hn : n ≠ "content-length".toList) (b : Bytes) :
    linesNamed n [(utf8 "Content-Length".toList, b)] = [] := by
  have : nameText (utf8 "Content-Length".toList) = "content-length".toList := by decide
  rw [linesNamed, List.filter_cons, if_neg, List.filter_nil]
  rw [decide_eq_true_eq, this]
  exact hn.symm

theorem fields_none {n : Str} {fs : List (Str × Val)} {es : List (Str × Bytes)} (h : SentHeaders fs es) :
    linesNamed n (headersOf es) = [] ↔ ∀ f ∈ fs, nameText (utf8 f.1) = n → Omitted f.2 := by
  induction h with
  | nil => simp [headersOf, linesNamed]
  | @absent k v fs es ho _ ih =>
    rw [ih]
    simp only [List.mem_cons, forall_eq_or_imp]
    exact ⟨fun h => ⟨fun _ => ho, h⟩, fun h => h.2⟩
  | @present k v x fs es hp _ ih =>
    simp only [List.mem_cons, forall_eq_or_imp, ← ih, headersOf, List.map_cons, linesNamed, List.filter_cons]
    by_cases hk : nameText (utf8 k) = n
    · simp [hk, sentHeader_not_omitted hp]
    · simp [hk]

theorem fields_one {n : Str} {fs : List (Str × Val)} {es : List (Str × Bytes)} (h : SentHeaders fs es) :
    (linesNamed n (headersOf es)).length = 1 ↔ OneField n fs := by
  induction h with
  | nil =>
    simp only [headersOf, List.map_nil, linesNamed, List.filter_nil, List.length_nil]
    refine ⟨fun h => (by cases h), fun ⟨b, f, a, h, _⟩ => ?_⟩
    cases b <;> cases h
  | @absent k v fs es ho hr ih =>
    rw [ih]
    constructor
    · rintro ⟨b, f, a, rfl, h1, h2, h3⟩
      refine ⟨(k, v) :: b, f, a, rfl, h1, h2, fun g hg hgn => ?_⟩
      rcases List.mem_cons.1 hg with rfl | hg
      · exact ho
      · exact h3 g hg hgn
    · rintro ⟨b, f, a, he, h1, h2, h3⟩
      cases b with
      | nil => cases he; exact absurd ho h2
      | cons g b =>
        cases he
        exact ⟨b, f, a, rfl, h1, h2, fun g hg => h3 g (List.mem_cons_of_mem _ hg)⟩
  | @present k v x fs es hp hr ih =>
    by_cases hk : nameText (utf8 k) = n
    · have : linesNamed n (headersOf ((k, x) :: es)) = (utf8 k, x) :: linesNamed n (headersOf es) := by
        simp [headersOf, linesNamed, hk]
      rw [this, List.length_cons, Nat.add_eq_right, List.length_eq_zero_iff, fields_none hr]
      constructor
      · exact fun h => ⟨[], (k, v), fs, rfl, hk, sentHeader_not_omitted hp, h⟩
      · rintro ⟨b, f, a, he, h1, h2, h3⟩
        cases b with
        | nil => cases he; exact h3
        | cons g b =>
          cases he
          exact absurd (h3 _ List.mem_cons_self hk) (sentHeader_not_omitted hp)
    · have : linesNamed n (headersOf ((k, x) :: es)) = linesNamed n (headersOf es) := by
        simp [headersOf, linesNamed, hk]
      rw [this, ih]
      constructor
      · rintro ⟨b, f, a, rfl, h1, h2, h3⟩
        refine ⟨(k, v) :: b, f, a, rfl, h1, h2, fun g hg hgn => ?_⟩
        rcases List.mem_cons.1 hg with rfl | hg
        · exact absurd hgn hk
        · exact h3 g hg hgn
      · rintro ⟨b, f, a, he, h1, h2, h3⟩
        cases b with
        | nil => cases he; exact absurd h1 hk
        | cons g b =>
          cases he
          exact ⟨b, f, a, rfl, h1, h2, fun g hg => h3 g (List.mem_cons_of_mem _ hg)⟩

/-- **C129.** A request whose header is a struct has one line of any name (other than that of the length)
exactly if one field with this name has a value, in upper or lower case. -/
theorem C129_once (m : Method) (e : EntryPoint) (p q : Option Val) (fs : List (Str × Val)) (body : Bytes)
    (r : Request) (n : Str) (hn : n ≠ "content-length".toList)
    (h : serRequest m e (.struct (requestFields p q (some (.struct fs)))) body = .ok r) :
    (linesNamed n r.headers).length = 1 ↔ OneField n fs := by
  obtain ⟨own, h1, h2⟩ := C129_request m e _ body r h
  have hv : headerValues (.struct (requestFields p q (some (.struct fs)))) = [.struct fs] := by
    cases p <;> cases q <;> rfl
  rw [hv] at h1
  cases h1 with
  | cons hw ht =>
    cases ht
    rw [h2, List.append_nil, linesNamed_append, linesNamed_length hn, List.append_nil]
    cases hw with
    | single h => cases h with | sent h => cases h
    | struct h => exact fields_one h

/-- **C129.** So a server that demands a `Host` as HTTP/1.1 requires understands a call only if the request
type declares it as a field of its header. -/
theorem C129_host (m : Method) (e : EntryPoint) (p q : Option Val) (fs : List (Str × Val)) (body : Bytes)
    (r : Request) (h : serRequest m e (.struct (requestFields p q (some (.struct fs)))) body = .ok r) :
    HasHost r.headers ↔ OneField "host".toList fs :=
  C129_once m e p q fs body r _ (by decide) h

/-- **C129.** Without a header in the type there is no line but that of the length. -/
theorem C129_no_header (m : Method) (e : EntryPoint) (p q : Option Val) (body : Bytes) (r : Request)
    (h : serRequest m e (.struct (requestFields p q none)) body = .ok r) :
    r.headers = [(utf8 "Content-Length".toList, utf8 (showNat body.length))] ∧ ¬ HasHost r.headers := by
  obtain ⟨own, h1, h2⟩ := C129_request m e _ body r h
  have hv : headerValues (.struct (requestFields p q none)) = [] := by
    cases p <;> cases q <;> rfl
  rw [hv] at h1
  cases h1
  refine ⟨h2, fun hh => ?_⟩
  rw [HasHost, h2, List.nil_append, linesNamed_length (by decide)] at hh
  cases hh

end

/-! ### What a server sends -/

section
variable [FloatText] [UrlText] [JsonText] [Wire]

/-- **C129.** Every response that a server sends has, besides the length of the body, the lines that the
handler has declared, or for a request that is refused the media type of problems; no others. -/
theorem C129_server (cfg : ServerCfg) (es : List ConnEvent) (n : Nat) (h : ReqHead) (r : Response)
    (hh : (reads (connLog cfg es))[n]? = some h) (hr : (answers (connLog cfg es))[n]? = some r) :
    ∃ own body, r.headers = own ++ [(utf8 "Content-Length".toList, utf8 (showNat body.length))] ∧
      r.body = (if h.method = .head then [] else body) ∧
      ((∃ p, Judged cfg h (.refuse p) ∧ body = JsonText.render p.toJson ∧
          own = [(utf8 "content-type".toList, utf8 "application/problem+json".toList)]) ∨
       ∃ s v l resp, Judged cfg h (.call s v) ∧ (blocks (connLog cfg es))[n]? = some (h, l) ∧
         returned l = [(resp, body)] ∧ Lines (headerValues resp) own) := by
  obtain ⟨h', l, h1, h2, h3⟩ := C39_nth_response cfg es n r hr
  rw [hh] at h1
  cases h1
  have hw : ∀ r' : Response, (onWire h r').headers = r'.headers ∧
      (onWire h r').body = if h.method = .head then [] else r'.body := by
    intro r'
    rw [onWire]
    cases h.method <;> simp
  have serve : ∀ {resp body r'}, serResponse resp body = .ok r' → r = onWire h r' →
      r.body = (if h.method = .head then [] else body) ∧ ∃ own, Lines (headerValues resp) own ∧
        r.headers = own ++ [(utf8 "Content-Length".toList, utf8 (showNat body.length))] := by
    intro resp body r' hs hr
    rw [hr, (hw _).1, (hw _).2, (serResponse_length hs).1]
    exact ⟨rfl, C129_response resp body r' hs⟩
  have refuse : ∀ {p s}, r = onWire h (problemResponse s p) →
      r.headers = [(utf8 "content-type".toList, utf8 "application/problem+json".toList)] ++
        [(utf8 "Content-Length".toList, utf8 (showNat (JsonText.render p.toJson).length))] ∧
      r.body = (if h.method = .head then [] else JsonText.render p.toJson) := by
    intro p s hr
    rw [hr, (hw _).1, (hw _).2]
    exact ⟨rfl, rfl⟩
  rcases (transcript cfg es).blocks n h l h2 with hx | ⟨hx, -⟩
  · generalize hl : ConnEffect.read h :: l = l0 at hx
    cases hx with
    | refused hj hs =>
      cases hl
      simp only [answers, List.filterMap, List.cons.injEq, and_true] at h3
      obtain ⟨h5, h6⟩ := refuse h3.symm
      exact ⟨_, _, h5, h6, .inl ⟨_, hj, rfl, rfl⟩⟩
    | served hj hs =>
      cases hl
      simp only [answers, List.filterMap, List.cons.injEq, and_true] at h3
      obtain ⟨h5, own, h6, h7⟩ := serve hs h3.symm
      exact ⟨own, _, h7, h5, .inr ⟨_, _, _, _, hj, h2, rfl, h6⟩⟩
  · generalize hl : ConnEffect.read h :: l = l0 at hx
    cases hx with
    | read => cases hl; simp [answers] at h3
    | invoked => cases hl; simp [answers] at h3
    | returned => cases hl; simp [answers] at h3
    | refusing hj hs =>
      cases hl
      simp only [answers, List.filterMap, List.cons.injEq, and_true] at h3
      obtain ⟨h5, h6⟩ := refuse h3.symm
      exact ⟨_, _, h5, h6, .inl ⟨_, hj, rfl, rfl⟩⟩
    | serving hj hs =>
      cases hl
      simp only [answers, List.filterMap, List.cons.injEq, and_true] at h3
      obtain ⟨h5, own, h6, h7⟩ := serve hs h3.symm
      exact ⟨own, _, h7, h5, .inr ⟨_, _, _, _, hj, h2, rfl, h6⟩⟩

end

/-! ### Examples -/

namespace LinesExamples

/-- A request with these headers to `/a`. -/
def req (fs : List (Str × Val)) : Val := .struct [("path".toList, .tuple []), ("header".toList, .struct fs)]

/-- `C129_host`: with a field, and what is sent then. -/
example : letI := toyFloat
    ∃ r, serRequest (.other 1) [.val "a".toList] (req [("Host".toList, .str "x".toList)]) [] = .ok r ∧
      r.headers = [(utf8 "Host".toList, utf8 "x".toList), contentLength []] ∧ HasHost r.headers := by
  let := toyFloat
  refine ⟨⟨.other 1, "/a".toList, [(utf8 "Host".toList, utf8 "x".toList), contentLength []], []⟩, rfl, rfl, ?_⟩
  decide +kernel

/-- `C129_host`: a field without a value is none, and there is none in the request. -/
example : letI := toyFloat
    ∃ r, serRequest (.other 1) [.val "a".toList] (req [("accept".toList, .str "x".toList), ("host".toList, .none)])
        [] = .ok r ∧ ¬ HasHost r.headers := by
  let := toyFloat
  have h : serRequest (.other 1) [.val "a".toList]
      (req [("accept".toList, .str "x".toList), ("host".toList, .none)]) [] =
      .ok ⟨.other 1, "/a".toList, [(utf8 "accept".toList, utf8 "x".toList), contentLength []], []⟩ := rfl
  refine ⟨_, h, fun hh => ?_⟩
  obtain ⟨b, f, a, h1, h2, h3, -⟩ := (C129_host _ _ (some (.tuple [])) none
    [("accept".toList, .str "x".toList), ("host".toList, .none)] _ _ h).1 hh
  have hf : f ∈ [("accept".toList, .str "x".toList), ("host".toList, .none)] := by rw [h1]; simp
  rcases List.mem_cons.1 hf with rfl | hf
  · revert h2; decide +kernel
  · rcases List.mem_cons.1 hf with rfl | hf
    · exact h3 .none
    · cases hf

/-- `C129_no_header`. -/
example : letI := toyFloat
    ∃ r, serRequest (.other 1) [.val "a".toList] (.struct [("path".toList, .tuple [])]) [7] = .ok r ∧
      ¬ HasHost r.headers := by
  let := toyFloat
  have h : serRequest (.other 1) [.val "a".toList] (.struct [("path".toList, .tuple [])]) [7] =
      .ok ⟨.other 1, "/a".toList, [contentLength [7]], [7]⟩ := rfl
  exact ⟨_, h, (C129_no_header _ _ (some (.tuple [])) none _ _ h).2⟩

/-- `C129_response`: two headers in one response, one after another. -/
example : letI := toyFloat
    ∃ r, serResponse (.structVariant "Ok".toList [("header".toList, .struct [("a".toList, .str "1".toList)]),
        ("header".toList, .struct [("b".toList, .none), ("c".toList, .int .u8 2)])]) [] = .ok r ∧
      r.headers = [(utf8 "a".toList, utf8 "1".toList), (utf8 "c".toList, utf8 "2".toList), contentLength []] :=
  ⟨_, rfl, rfl⟩

open ToyJson ToyMethods HttpExamples Http in
/-- `C129_server`: a response to a call; there is one line. -/
example : letI := toyFloat; letI := toyUrl; letI := toyJson; letI := toyMethods; letI := httpWire
    ∃ (own : List Header) (body : Bytes), [contentLength [4, 5]] = own ++ [(utf8 "Content-Length".toList, utf8 (showNat body.length))] ∧
      body = [4, 5] ∧ ∃ resp, Lines (headerValues resp) own := by
  let := toyFloat
  let := toyUrl
  let := toyJson
  let := toyMethods
  let := httpWire
  have key : ∀ (r : Response) (body : Bytes) (h : ReqHead), r.body = [4, 5] →
      r.body = (if h.method = .head then [] else body) → body = [4, 5] := by
    intro r body h hr k2
    rw [hr] at k2
    split at k2
    · cases k2
    · exact k2.symm
  obtain ⟨h, l, h1, -, -⟩ := C39_nth_response exCfg exEvents 0 _ ex_served.2.2.2.1
  obtain ⟨own, body, k1, k2, k3⟩ := C129_server exCfg exEvents 0 h _ h1 ex_served.2.2.2.1
  refine ⟨own, body, k1, key _ body h rfl k2, ?_⟩
  rcases k3 with ⟨p, -, -, k3⟩ | ⟨s, v, l, resp, -, -, -, k3⟩
  · have := congrArg List.length k1
    rw [k3, List.length_append] at this
    cases this
  · exact ⟨resp, k3⟩

end LinesExamples
end Htrpc
