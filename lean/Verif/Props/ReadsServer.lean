/-
What servers and clients make of any message (C82, C83).
-/
import Verif.Props.Reads
import Verif.Props.Client
import Verif.Props.IntegrityHttp

namespace Htrpc
open Spec

section
variable [FloatText]

/-- **C83.** So a call completes with a value that is read in this way from a status and headers it has
received; and if it fails with `Invalid` after the request was sent, there is no such value. -/
theorem C83_completed (p : Proc) (hp : WellNamed p.resTy) (v : Val) (body : Bytes)
    (rs : List IoResult) (hn : ∀ code hs, .head code hs ∈ rs → AsciiNames hs) :
    (∀ w b, (callRun p (.new v body) rs).2 = .ready w b →
      ∃ code hs, .head code hs ∈ rs ∧ ReadsResponse code hs true p.resTy w) ∧
    (∀ r, serRequest p.method p.entry v body = .ok r →
      (callRun p (.new v body) rs).2 = .failed .invalid →
      ∃ code hs, .head code hs ∈ rs ∧ ∀ w, ¬ ReadsResponse code hs true p.resTy w) := by
  constructor
  · intro w b h
    obtain ⟨r, code, hs, -, hm, hd, -⟩ := C55_ready p v body rs w b h
    exact ⟨code, hs, hm, (C83_response_read _ hp code hs (hn _ _ hm)).ok_iff hd⟩
  · intro r hr h
    rcases C55_failed p v body rs _ h with ⟨-, hk⟩ | he | ⟨-, code, hs, hm, hd⟩
    · cases hk
    · rw [hr] at he; cases he
    · refine ⟨code, hs, hm, ?_⟩
      rcases C83_response_read _ hp code hs (hn _ _ hm) with ⟨w, hw, -⟩ | ⟨-, hno⟩
      · rw [hd] at hw; cases hw
      · exact hno

end

/-! ### What the server does with it -/

section
variable [LawfulFloatText] [UrlText] [JsonText]

omit [JsonText] in
/-- **C82.** So for a request with a handler it is decided by these rules whether the handler is called,
and with which value, or the request is refused as a bad request. -/
theorem C82_verdict (cfg : ServerCfg) (h : ReqHead) (t : Target) (segs : List Str) (s : Service)
    (ht : parseTarget cfg.oracle h.target = some t) (hsegs : t.segs = some segs)
    (hd : dispatch h.method segs (table cfg) = .ok s) (hw : WellNamed s.reqTy)
    (hn : AsciiNames h.headers) :
    (∃ v, ReadsRequest s.entry segs (formParse (t.query.getD [])) h.headers s.reqTy v ∧
      Judged cfg h (.call s v)) ∨
    ((∀ v, ¬ ReadsRequest s.entry segs (formParse (t.query.getD [])) h.headers s.reqTy v) ∧
      Judged cfg h (.refuse (badRequest cfg h))) := by
  have hm : Matches s.entry segs := by
    have h3 := hd
    rw [table, ← C02_exact_dispatch] at h3
    obtain ⟨r, hr, rfl, -, e3⟩ := C01_routing_sound _ _ _ _ h3
    obtain ⟨s, -, rfl⟩ := List.mem_map.1 hr
    exact e3
  rcases C82_request_read s.entry s.reqTy hw t segs hsegs hm h.headers hn with
    ⟨v, hv, hr⟩ | ⟨he, hno⟩
  · exact .inl ⟨v, hr, .call ht hsegs hd hv⟩
  · exact .inr ⟨hno, .undecodable ht hsegs hd fun v hv => by rw [he] at hv; cases hv⟩

/-- **C82.** Whatever arrives on a connection: every value that a handler is called with is read in this
way from the target and the headers of the request. -/
theorem C82_called [Wire] (cfg : ServerCfg) (es : List ConnEvent) (n : Nat) (h : ReqHead)
    (l : List ConnEffect) (hb : (blocks (connLog cfg es))[n]? = some (h, l)) (s : Service) (v w : Val)
    (hc : (s, v, w) ∈ calls l) (hw : WellNamed s.reqTy) (hn : AsciiNames h.headers) :
    ∃ t segs, parseTarget cfg.oracle h.target = some t ∧ t.segs = some segs ∧ s ∈ cfg.services ∧
      s.method = h.method ∧ Matches s.entry segs ∧
      ReadsRequest s.entry segs (formParse (t.query.getD [])) h.headers s.reqTy v := by
  obtain ⟨t, segs, h1, h2, h3, h4, h5, h6⟩ := called (block_called hb hc).1
  exact ⟨t, segs, h1, h2, h3, h4, h5,
    (C82_request_read s.entry s.reqTy hw t segs h2 h5 h.headers hn).ok_iff h6⟩

end

/-! ### Examples -/

/-- `C83_completed`: the call of `C55` completes with the variant named after status 404; that it reads
nothing else from this response is decided by the rules alone. -/
example (w : Val) (b : Bytes) : letI := toyFloat
    (callRun exProc (.new exCallArgs [1])
      [.notReady, .connected, .written, .head 404 [], .notReady, .body [2, 3]]).2 = .ready w b →
    ReadsResponse 404 [] true exProc.resTy w := by
  let := toyFloat
  intro h
  obtain ⟨code, hs, hm, hr⟩ := (C83_completed exProc
    (by simp [exProc, WellNamed, WellNamedVariants, WellNamedVariant]) _ _ _
    (by simp [AsciiNames])).1 w b h
  simp at hm
  rw [← hm.1, ← hm.2]
  exact hr

end Htrpc
