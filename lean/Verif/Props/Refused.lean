/-
C102: what a caller learns when the server refuses its request.
-/
import Verif.Props.Callee
import Verif.Props.System
import Verif.Lemmas.JsonText
import Verif.Props.ServerExamples
import Verif.Lemmas.ToyMethods

namespace Htrpc
open Spec Http

/-- What is written for a request with this method is read as it is. -/
theorem reads_good {m : Method} {a : Response} (h : Good m a) {phrase : Bytes}
    (hp : ∀ b ∈ phrase, ValueByte b) (more : Bytes) :
    Reads m (writeResponse phrase a ++ more) a.status.code a.headers a.body more := by
  have h1 := readResponseHead_write hp h.1 more
  by_cases hm : m = .head
  · have hb : a.body = [] := by
      obtain ⟨-, body, -, hb⟩ := h
      rw [hb, if_pos hm]
    rw [hb] at h1 ⊢
    exact .head hm h1
  · obtain ⟨f, h2, h3⟩ := readBody_good h hm
    exact .full hm h1 h2 (h3 more)

/-- A call ends with what its type makes of the response that it has read. -/
theorem callRun_reads [FloatText] {p : Proc} {v : Val} {body : Bytes} {r : Request}
    (hreq : serRequest p.method p.entry v body = .ok r) {bytes : Bytes} {c : Nat} {hs : List Header}
    {b rest : Bytes} (hr : Reads p.method bytes c hs b rest) {rs : List IoResult}
    (hrs : rs.filter Happened = .connected :: .written :: hear p.method bytes) :
    (callRun p (.new v body) rs).2 = match deResponse p.resTy c hs with
      | .ok w => .ready w b
      | .err k => .failed k
      | .panic => .panicked := by
  have hb : p.method = .head → b = [] := by
    intro hm
    cases hr with
    | head => rfl
    | full h => exact absurd hm h
  rw [hear_reads hr] at hrs
  rw [callRun_skip, hrs]
  by_cases hm : p.method = .head
  · rw [if_pos hm, hb hm]
    simp only [callRun, callStep, CallInner.new, hreq, callDecode, if_pos hm]
    cases deResponse p.resTy c hs <;> rfl
  · rw [if_neg hm]
    simp only [callRun, callStep, CallInner.new, hreq, hm, callDecode, if_false]
    cases deResponse p.resTy c hs <;> rfl

section
variable [UrlText] [JsonText] [LawfulFloatText]

/-- The variants of a type whose decoding from the response of htrpc itself matters here. -/
theorem deResponse_problem (s : Status) (p : Problem) (hs : s.code = p.statusCode.toNat) (n : Str)
    (hn : (n, s.code) ∈ statusTable) (vs : List (Str × VTy)) :
    (vs.lookup n = none →
      deResponse (.enum vs) s.code (problemResponse s p).headers = .err .invalid) ∧
    (vs.lookup n = some .unit →
      deResponse (.enum vs) s.code (problemResponse s p).headers = .ok (.unitVariant n)) ∧
    (vs.lookup n = some (.newtype ProblemResponse.ty) → ∀ q,
      deResponse (.enum vs) s.code (problemResponse s p).headers =
        .ok (.newtypeVariant n (ProblemResponse.toVal ⟨none, q⟩))) := by
  have key : deResponse (.enum vs) s.code (problemResponse s p).headers =
      RespDe.deVariant ⟨s.code, (problemResponse s p).headers⟩ n vs := by
    rw [deResponse, RespDe.de]
    simp only [(statusCodeToStr_table _ _).2 hn, Res.ofOption, Res.bind_ok]
  refine ⟨fun h => ?_, fun h => ?_, fun h q => ?_⟩
  · rw [key]
    clear key
    induction vs with
    | nil => rfl
    | cons x vs ih =>
      obtain ⟨m, t⟩ := x
      rw [List.lookup_cons] at h
      by_cases hm : n = m
      · subst hm; simp at h
      · have : (n == m) = false := by simpa using hm
        rw [this] at h
        rw [RespDe.deVariant, if_neg hm]
        exact ih h
  · rw [key, deVariant_lookup _ _ _ _ h, RespDe.deContent]
  · obtain ⟨r, h1, -, h3, -⟩ := C32_problem_received p n n vs (hs ▸ hn) h
    rw [serResponse, RespSer.ser] at h1
    have h2 := serResponse_problem (r := ProblemResponse.ofProblem p)
      (ProblemResponse.ofProblem p).bodyBytes rfl hs
    rw [serResponse] at h2
    have e := h1.symm.trans h2
    cases e
    have := h3 [] [] (by simp [AsciiNames]) (by simp [AsciiNames]) (by simp)
    rw [List.nil_append, List.append_nil] at this
    exact this

/-- What becomes of a call to which this problem is written. -/
theorem refused_read [MethodNames] (h : ReqHead) (p : Problem)
    (s : Status) (hs : s.code = p.statusCode.toNat) (n : Str) (hn : (n, s.code) ∈ statusTable)
    (proc : Proc) (hm : proc.method = h.method) (vs : List (Str × VTy)) (ht : proc.resTy = .enum vs)
    (v : Val) (body : Bytes) (r : Request)
    (hreq : serRequest proc.method proc.entry v body = .ok r)
    (phrase more : Bytes) (hp : ∀ b ∈ phrase, ValueByte b) (rs : List IoResult)
    (hrs : rs.filter Happened = .connected :: .written ::
      hear proc.method (writeResponse phrase (onWire h (problemResponse s p)) ++ more)) :
    (vs.lookup n = none → (callRun proc (.new v body) rs).2 = .failed .invalid) ∧
    ∃ b, (vs.lookup n = some .unit →
        (callRun proc (.new v body) rs).2 = .ready (.unitVariant n) b) ∧
      (vs.lookup n = some (.newtype ProblemResponse.ty) → ∀ q, (callRun proc (.new v body) rs).2 =
        .ready (.newtypeVariant n (ProblemResponse.toVal ⟨none, q⟩)) b) ∧
      if proc.method = .head then b = [] else ∀ q, ProblemResponse.setBody ⟨none, q⟩ b = ⟨none, p⟩ := by
  obtain ⟨e1, e2, e3⟩ := onWire_facts h (problemResponse s p)
  have hr := reads_good (problem_good h s p) hp more
  rw [← hm] at hr e3
  rw [callRun_reads hreq hr hrs, e1, e2, ht]
  obtain ⟨k1, k2, k3⟩ := deResponse_problem s p hs n hn vs
  refine ⟨fun hv => ?_, (onWire h (problemResponse s p)).body, fun hv => ?_, fun hv q => ?_, ?_⟩
  · show (match deResponse (.enum vs) s.code _ with | .ok w => _ | .err k => _ | .panic => _) = _
    rw [k1 hv]
  · show (match deResponse (.enum vs) s.code _ with | .ok w => _ | .err k => _ | .panic => _) = _
    rw [k2 hv]
  · show (match deResponse (.enum vs) s.code _ with | .ok w => _ | .err k => _ | .panic => _) = _
    rw [k3 hv q]
  · rw [e3]
    split
    · rfl
    · intro q
      rw [C36_document_replaces _ _ p]
      exact ⟨_, parse_toJson _, (C34_any_document_iff _ _).1 (C34_document_round_trip p)⟩

/-- **C102.** The caller of a procedure whose request a server refuses with the problem `p`: if the
type of the response declares no variant for the status, all it learns is `Invalid`; with a unit
variant it learns the status; with a problem response in the variant it learns the whole problem,
except if the method is `HEAD`, whose response has no body. This holds in whatever pieces the response
arrives, and whatever follows it. -/
theorem C102_refused [MethodNames] [Wire] (cfg : ServerCfg) (es : List ConnEvent) (h : ReqHead)
    (l : List ConnEffect) (hb : (h, l) ∈ blocks (connLog cfg es)) (p : Problem)
    (hj : Judged cfg h (.refuse p)) (a : Response) (ha : a ∈ answers l) (n : Str)
    (hn : (n, p.statusCode.toNat) ∈ statusTable)
    (proc : Proc) (hm : proc.method = h.method) (vs : List (Str × VTy)) (ht : proc.resTy = .enum vs)
    (v : Val) (body : Bytes) (r : Request)
    (hreq : serRequest proc.method proc.entry v body = .ok r)
    (phrase more : Bytes) (hp : ∀ b ∈ phrase, ValueByte b) (rs : List IoResult)
    (hrs : rs.filter Happened = .connected :: .written ::
      hear proc.method (writeResponse phrase a ++ more)) :
    (vs.lookup n = none → (callRun proc (.new v body) rs).2 = .failed .invalid) ∧
    ∃ b, (vs.lookup n = some .unit →
        (callRun proc (.new v body) rs).2 = .ready (.unitVariant n) b) ∧
      (vs.lookup n = some (.newtype ProblemResponse.ty) → ∀ q, (callRun proc (.new v body) rs).2 =
        .ready (.newtypeVariant n (ProblemResponse.toVal ⟨none, q⟩)) b) ∧
      if proc.method = .head then b = [] else ∀ q, ProblemResponse.setBody ⟨none, q⟩ b = ⟨none, p⟩ := by
  obtain ⟨s, hs, rfl⟩ := (C37_refused cfg es h l hb p hj).2 a ha
  exact refused_read h p s hs n (hs ▸ hn) proc hm vs ht v body r hreq phrase more hp rs hrs

omit [JsonText] in
/-- **C102.** There are three statuses: 404 if there is no entry point for the path, 405 if there is
none for the method, and 400 if there is one but the request does not decode, or if the target is no
URL. -/
theorem C102_status (cfg : ServerCfg) (h : ReqHead) (p : Problem) (hj : Judged cfg h (.refuse p)) :
    (p.statusCode.toNat = 404 ∧ ∃ t segs, parseTarget cfg.oracle h.target = some t ∧
      t.segs = some segs ∧ dispatch h.method segs (table cfg) = .error .notFound) ∨
    (p.statusCode.toNat = 405 ∧ ∃ t segs, parseTarget cfg.oracle h.target = some t ∧
      t.segs = some segs ∧ dispatch h.method segs (table cfg) = .error .methodNotAllowed) ∨
    (p.statusCode.toNat = 400 ∧ (parseTarget cfg.oracle h.target = none ∨
      ∃ t segs sv, parseTarget cfg.oracle h.target = some t ∧ t.segs = some segs ∧
        dispatch h.method segs (table cfg) = .ok sv ∧
        ∀ v, deRequest sv.entry sv.reqTy t h.headers ≠ .ok v)) := by
  cases hj with
  | noUrl h1 => exact .inr (.inr ⟨rfl, .inl h1⟩)
  | noPath h1 h2 h3 => exact .inl ⟨rfl, _, _, h1, h2, h3⟩
  | noMethod h1 h2 h3 => exact .inr (.inl ⟨rfl, _, _, h1, h2, h3⟩)
  | undecodable h1 h2 h3 h4 => exact .inr (.inr ⟨rfl, .inr ⟨_, _, _, h1, h2, h3, h4⟩⟩)

end

/-- **C102.** An empty body is no document, so that the problem response which the caller of a `HEAD`
procedure receives stays at its default, a problem with the status 500, whatever its variant says. -/
theorem C102_head [UrlText] [FloatText] (phrase : Status → Str) :
    letI := JsonCodec.jsonText
    ProblemResponse.setBody ⟨none, .default phrase⟩ [] =
      ⟨none, .aboutBlank { title := phrase .internalServerError, status := 500 }⟩ := by
  have h1 : fromUtf8 [] = some [] := fromUtf8_utf8 []
  have h2 : JsonCodec.parse [] = none := by
    rw [JsonCodec.parse]
    simp [JsonCodec.skipWs, JsonCodec.value]
  let := JsonCodec.jsonText
  rw [ProblemResponse.setBody]
  have h3 : JsonText.parse [] = none := by
    show (fromUtf8 []).bind JsonCodec.parse = none
    rw [h1]
    exact h2
  rw [h3]
  rfl

/-! ### Examples -/

namespace RefusedExamples
open ToyJson ToyMethods
open ServerExamples (exCfg exNope)

attribute [local instance] toyFloat toyUrl toyJson toyMethods

/-- A procedure that the server does not know, -/
def exRefused : ReqHead := ⟨.other 0, "/a/7".toList, []⟩

theorem ex_judged : Judged exCfg exRefused (.refuse exNope) :=
  .noPath (t := ⟨some ["a".toList, "7".toList], none⟩) (segs := ["a".toList, "7".toList]) (by decide)
    rfl (by rfl)

/-- with a problem response for `NotFound`, or with nothing for it. -/
def exKnows : Proc :=
  { exProc with resTy := .enum [("Ok".toList, .unit), ("NotFound".toList, .newtype ProblemResponse.ty)] }

def exIgnores : Proc := { exProc with resTy := .enum [("Ok".toList, .unit)] }

def exAnswer : Bytes :=
  writeResponse (utf8 "Not Found".toList) (onWire exRefused (problemResponse .notFound exNope))

theorem ex_happened {m : Method} {bytes : Bytes} {c : Nat} {hs : List Header} {b rest : Bytes}
    (h : Reads m bytes c hs b rest) : ([IoResult.connected, .written] ++ hear m bytes).filter Happened =
      .connected :: .written :: hear m bytes := by
  rw [hear_reads h]
  by_cases hm : m = .head
  · rw [if_pos hm]; rfl
  · rw [if_neg hm]; rfl

theorem ex_reads : ∃ c hs b, Reads exRefused.method (exAnswer ++ [0]) c hs b [0] :=
  ⟨_, _, _, reads_good (problem_good exRefused .notFound exNope) (by decide) [0]⟩

/-- `refused_read`. -/
example : ∃ b, (∀ q, (callRun exKnows (.new exCallArgs [])
      ([.connected, .written] ++ hear exRefused.method (exAnswer ++ [0]))).2 =
        .ready (.newtypeVariant "NotFound".toList (ProblemResponse.toVal ⟨none, q⟩)) b) ∧
      ∀ q, ProblemResponse.setBody ⟨none, q⟩ b = ⟨none, exNope⟩ := by
  obtain ⟨r, hr⟩ := exCall_sent []
  obtain ⟨c, hs, b, hd⟩ := ex_reads
  obtain ⟨-, b, -, h1, h2⟩ := refused_read exRefused exNope .notFound rfl
    "NotFound".toList (by decide) exKnows rfl _ rfl exCallArgs [] r hr (utf8 "Not Found".toList) [0]
    (by decide) _ (ex_happened hd)
  exact ⟨b, h1 rfl, by rw [if_neg (by decide)] at h2; exact h2⟩

example : (callRun exIgnores (.new exCallArgs [])
      ([.connected, .written] ++ hear exRefused.method (exAnswer ++ [0]))).2 = .failed .invalid := by
  obtain ⟨r, hr⟩ := exCall_sent []
  obtain ⟨c, hs, b, hd⟩ := ex_reads
  exact (refused_read exRefused exNope .notFound rfl
    "NotFound".toList (by decide) exIgnores rfl _ rfl exCallArgs [] r hr (utf8 "Not Found".toList)
    [0] (by decide) _ (ex_happened hd)).1 rfl

/-- `C102_refused`: a `HEAD` procedure, whose request a server has refused. -/
example : letI := ToyWire.toyWire
    ∃ a l, (ServerExamples.exHead .head "/nope".toList 0, l) ∈ blocks (connLog exCfg ServerExamples.exEvents) ∧
      a ∈ answers l ∧ ∀ phrase, (∀ b ∈ phrase, ValueByte b) → ∀ q,
      (callRun { exKnows with method := .head } (.new exCallArgs [])
        ([.connected, .written] ++ hear .head (writeResponse phrase a ++ []))).2 =
        .ready (.newtypeVariant "NotFound".toList (ProblemResponse.toVal ⟨none, q⟩)) [] := by
  let := ToyWire.toyWire
  obtain ⟨r, hr⟩ : ∃ r, serRequest .head exProc.entry exCallArgs [] = .ok r := by
    obtain ⟨r, hr⟩ := exCall_sent []
    rw [serRequest] at hr
    obtain ⟨st, h1, hr⟩ := Res.bind_eq_ok.1 hr
    obtain ⟨x, h2, -⟩ := Res.bind_eq_ok.1 hr
    rw [serRequest, show ReqSer.ser exProc.entry exCallArgs ReqSer.new = _ from h1, Res.bind_ok, h2,
      Res.bind_ok]
    exact ⟨_, rfl⟩
  have hb : (ServerExamples.exHead .head "/nope".toList 0, [.drained [],
      .answer { problemResponse .notFound exNope with body := [] }, .written]) ∈
      blocks (connLog exCfg ServerExamples.exEvents) := by
    rw [ServerExamples.ex_log]
    simp [blocks, isRead, isFinal]
  have ha : onWire (ServerExamples.exHead .head "/nope".toList 0) (problemResponse .notFound exNope) ∈
      answers [.drained [], .answer { problemResponse .notFound exNope with body := [] }, .written] :=
    List.mem_cons_self
  refine ⟨_, _, hb, ha, fun phrase hp q => ?_⟩
  have hd := reads_good (problem_good (ServerExamples.exHead .head "/nope".toList 0) .notFound exNope)
    hp []
  obtain ⟨-, b, -, h1, h2⟩ := C102_refused exCfg ServerExamples.exEvents _ _ hb exNope
    ServerExamples.ex_refuse _ ha "NotFound".toList (by decide)
    { exKnows with method := .head } rfl _ rfl exCallArgs [] r hr phrase [] hp _ (ex_happened hd)
  rw [if_pos rfl] at h2
  subst h2
  exact h1 rfl q

/-- `C102_status`: here the first case. -/
example : exNope.statusCode.toNat = 404 := by
  rcases C102_status exCfg exRefused exNope ex_judged with h | h | h
  · exact h.1
  · exact absurd h.1 (by decide)
  · exact absurd h.1 (by decide)

end RefusedExamples

end Htrpc
