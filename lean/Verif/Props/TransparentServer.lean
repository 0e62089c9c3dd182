/-
C110: what a connection does with a request of a client.
-/
import Verif.Props.Server
import Verif.Props.Transparent

namespace Htrpc
open Spec Http

section
variable [LawfulFloatText] [UrlText] [JsonText] [MethodNames]

/-- What a connection makes of the bytes that it reads. -/
theorem delivered_iff (cfg : ServerCfg) (c : ConnState) (hc : c.phase = .readHead) (bytes more : Bytes)
    (hi : c.input = bytes ++ more) (s : Service) (v : Val) (body : Bytes) :
    letI := serverWire
    (∃ h rest f, c.step cfg .input = (⟨.readBody h s v, h.method, rest, c.closed⟩, [.read h]) ∧
      readBody h.headers = some f ∧ f rest = .done body more) ↔ Delivered cfg bytes more s v body := by
  let := serverWire
  have hhead : ∀ bs, Wire.head bs = limitHead maxHeadSize maxHeaders bs (readHead bs) := fun _ => rfl
  constructor
  · rintro ⟨h, rest, f, h1, h2, h3⟩
    simp only [ConnState.step, hc, ConnState.pollHead, hhead, hi] at h1
    cases hh : limitHead maxHeadSize maxHeaders (bytes ++ more) (readHead (bytes ++ more)) with
    | bad => simp [hh, ConnState.fail] at h1
    | more =>
      cases hcl : c.closed with
      | none =>
        simp only [hh, hcl] at h1
        have := congrArg (fun x => x.1.phase) h1
        simp [hc] at this
      | some k => cases k <;> simp [hh, hcl, ConnState.fail] at h1
    | done h' rest' =>
      simp only [hh] at h1
      have hcur := accept_current cfg { c with input := rest' } h'
      obtain ⟨h4, h5⟩ := Prod.mk.inj h1
      cases (List.cons.inj h5).1
      rw [hc, h4] at hcur
      have hj : Judged cfg h (.call s v) := hcur.2.1
      rw [accept_call hj h2] at h4
      cases congrArg ConnState.input h4
      exact ⟨h, rest, f, hh, hj, h2, h3⟩
  · rintro ⟨h, rest, f, h1, h2, h3, h4⟩
    refine ⟨h, rest, f, ?_, h3, h4⟩
    simp only [ConnState.step, hc, ConnState.pollHead, hhead, hi, h1, accept_call h2 h3]

/-- **C110** for requests, on a connection. A connection that waits for a request, and on which a request
that a client has sent has arrived, whatever comes after it, calls this service with this request, and
leaves it the bytes of its body, with what comes after it behind them, exactly in these cases. -/
theorem C110_server (cfg : ServerCfg) (s : Service) (hreg : s.reg ∈ table cfg)
    (hpc : PlainConsts s.entry) (v : Val) (ht : HasTy v s.reqTy) (hty : RequestTy s.reqTy)
    (hte : ∀ ts u, StructOf s.reqTy ts → ts.lookup "header".toList = some u →
      "transfer-encoding".toList ∉ (names u).map lowerText) (hn : ¬ HasNaN v)
    (body : Bytes) (r : Request) (hr : serRequest s.method s.entry v body = .ok r) (more : Bytes)
    (c : ConnState) (hc : c.phase = .readHead) (hi : c.input = writeRequest r ++ more) :
    letI := serverWire
    (∃ h rest f, c.step cfg .input = (⟨.readBody h s v, h.method, rest, c.closed⟩, [.read h]) ∧
      readBody h.headers = some f ∧ f rest = .done body more) ↔
      (∃ ss, RequestIntact s.entry v s.reqTy ss ∧
        ¬ Shadowed (table cfg) s.entry ((instantiate s.entry ss).map asSegment)) ∧
      SafeHeaders r.headers ∧ (writeRequest r).length ≤ 8096 + body.length ∧ r.headers.length ≤ 32 :=
  (delivered_iff cfg c hc _ _ hi s v body).trans
    (C110_request cfg s hreg hpc v ht hty hte hn body r hr more)

end

end Htrpc
