/-
The connection handler of src/server.rs keeps to the transcript.
-/
import Verif.Spec.Server
import Verif.Props.Routing
import Verif.Props.Problem
import Verif.Props.Decode

namespace Htrpc
open Spec

section
variable [FloatText] [UrlText] [JsonText]

/-- Finished exchanges one after another. -/
inductive Past (cfg : ServerCfg) : List ConnEffect → Prop where
  | nil : Past cfg []
  | snoc {log h l} : Past cfg log → Exchange cfg h l → Past cfg (log ++ l)

theorem Past.append {cfg : ServerCfg} {a b : List ConnEffect} (ha : Past cfg a) (hb : Past cfg b) :
    Past cfg (a ++ b) := by
  induction hb with
  | nil => rwa [List.append_nil]
  | snoc _ hx ih => rw [← List.append_assoc]; exact .snoc ih hx

theorem Past.transcript {cfg : ServerCfg} {a b : List ConnEffect} (ha : Past cfg a)
    (hb : Transcript cfg b) : Transcript cfg (a ++ b) := by
  induction ha generalizing b with
  | nil => exact hb
  | snoc _ hx ih => rw [List.append_assoc]; exact ih (.exchange hx hb)

/-- What has happened since the last finished exchange, depending on the phase. -/
def Current (cfg : ServerCfg) (c : ConnState) (cur : List ConnEffect) : Prop :=
  match c.phase with
  | .connecting | .readHead => cur = []
  | .refusing h p => cur = [.read h] ∧ Judged cfg h (.refuse p) ∧ c.method = h.method ∧
      ∃ s : Status, s.code = p.statusCode.toNat
  | .readBody h s v => cur = [.read h] ∧ Judged cfg h (.call s v) ∧ c.method = h.method
  | .handling => ∃ h s v w, cur = [.read h, .invoked s v w] ∧
      Judged cfg h (.call s v) ∧ c.method = h.method
  | .writing => ∃ h, Started cfg h cur ∧ Exchange cfg h (cur ++ [.written])
  | .finished => cur = [.finished]
  | .failed => cur = [.warned] ∨ ∃ h l, Started cfg h l ∧ cur = l ++ [.warned]
  | .panicked => ∃ h, Pathless cfg h ∧ cur = [.read h, .panicked]

/-- The log fits the state. -/
def AtConn (cfg : ServerCfg) (c : ConnState) (log : List ConnEffect) : Prop :=
  ∃ past cur, log = past ++ cur ∧ Past cfg past ∧ Current cfg c cur

theorem AtConn.transcript {cfg : ServerCfg} {c : ConnState} {log : List ConnEffect}
    (h : AtConn cfg c log) : Transcript cfg log := by
  obtain ⟨past, cur, rfl, hp, hc⟩ := h
  refine hp.transcript ?_
  rw [Current] at hc
  split at hc
  · subst hc; exact .idle
  · subst hc; exact .idle
  · obtain ⟨rfl, -⟩ := hc; exact .started .read
  · obtain ⟨rfl, -⟩ := hc; exact .started .read
  · obtain ⟨h, s, v, w, rfl, hj, -⟩ := hc; exact .started (.invoked hj)
  · obtain ⟨h, hs, -⟩ := hc; exact .started hs
  · subst hc; exact .finished
  · rcases hc with rfl | ⟨h, l, hs, rfl⟩
    · exact .failed
    · exact .broken hs
  · obtain ⟨h, hp, rfl⟩ := hc; exact .panicked hp

omit [FloatText] [JsonText] in
theorem onWire_eq (c : ConnState) (h : ReqHead) (hm : c.method = h.method) (r : Response) :
    (if c.method = .head then { r with body := [] } else r) = onWire h r := by
  rw [onWire, hm]
  cases h.method <;> simp

omit [JsonText] in
theorem respond_eq {c : ConnState} {h : ReqHead} (hm : c.method = h.method) (v : Val)
    (body : Bytes) :
    (∃ r, serResponse v body = .ok r ∧
      c.respond v body = ({ c with phase := .writing }, [.answer (onWire h r)])) ∨
    c.respond v body = c.fail := by
  rw [ConnState.respond]
  rcases C31_response_sent_or_invalid v body with ⟨r, hr, -⟩ | hr
  · rw [hr]
    exact .inl ⟨r, rfl, by simp only [onWire_eq c h hm]⟩
  · rw [hr]; exact .inr rfl

omit [FloatText] [JsonText] in
theorem badRequest_eq (cfg : ServerCfg) (h : ReqHead) :
    ConnState.badRequest cfg h = Spec.badRequest cfg h := rfl

theorem fail_current {cfg : ServerCfg} {c : ConnState} {cur : List ConnEffect}
    (h : cur = [] ∨ ∃ h, Started cfg h cur) :
    Current cfg c.fail.1 (cur ++ c.fail.2) := by
  show _ ∨ _
  rcases h with rfl | ⟨h, hs⟩
  · exact .inl rfl
  · exact .inr ⟨h, cur, hs, rfl⟩

theorem AtConn.mk' {cfg : ServerCfg} {c : ConnState} {past cur effs : List ConnEffect}
    (hp : Past cfg past) (hc : Current cfg c (cur ++ effs)) :
    AtConn cfg c (past ++ cur ++ effs) :=
  ⟨past, cur ++ effs, by rw [List.append_assoc], hp, hc⟩

theorem AtConn.new (cfg : ServerCfg) : AtConn cfg .new [] := ⟨[], [], rfl, .nil, rfl⟩

variable [Wire]

/-- What follows reading a head. -/
theorem accept_current (cfg : ServerCfg) (c : ConnState) (h : ReqHead) :
    Current cfg (c.accept cfg h).1 (.read h :: (c.accept cfg h).2) := by
  have hfail : ∀ c : ConnState, Current cfg c.fail.1 (.read h :: c.fail.2) :=
    fun c => fail_current (cur := [.read h]) (.inr ⟨h, .read⟩)
  have hrefuse : ∀ (c : ConnState) p, c.method = h.method → Judged cfg h (.refuse p) →
      (∃ s : Status, s.code = p.statusCode.toNat) →
      Current cfg (c.withBody h (.refusing h p)).1 (.read h :: (c.withBody h (.refusing h p)).2) := by
    intro c p hm hj hs
    rw [ConnState.withBody]
    split
    · exact hfail c
    · exact ⟨rfl, hj, hm, hs⟩
  have hbad : ∃ s : Status, s.code = (Spec.badRequest cfg h).statusCode.toNat := ⟨.badRequest, rfl⟩
  rw [ConnState.accept]
  simp only [parseRelativeUrl]
  cases hp : parseTarget cfg.oracle h.target with
  | none => exact hrefuse _ _ rfl (.noUrl hp) hbad
  | some t =>
    simp only [Res.ofOption_some, routeUrl]
    cases hs : t.segs with
    | none => exact ⟨h, ⟨t, hp, hs⟩, rfl⟩
    | some segs =>
      simp only
      have hd := C02_exact_dispatch (cfg.services.map Service.reg) h.method segs
      rw [ServerCfg.router, hd]
      cases hr : dispatch h.method segs (accepted (cfg.services.map Service.reg)) with
      | error e =>
        cases e with
        | notFound => exact hrefuse _ _ rfl (.noPath hp hs hr) ⟨.notFound, rfl⟩
        | methodNotAllowed =>
          exact hrefuse _ _ rfl (.noMethod hp hs hr) ⟨.methodNotAllowed, rfl⟩
      | ok s =>
        simp only [ConnState.handle]
        rcases C58_request s.entry s.reqTy t h.headers with ⟨v, hv⟩ | hv
        · rw [hv]
          simp only [ConnState.withBody]
          split
          · exact hfail _
          · exact ⟨rfl, .call hp hs hr hv, rfl⟩
        · rw [hv]
          exact hrefuse _ _ rfl (.undecodable hp hs hr (by rw [hv]; intro v; simp)) hbad

/-- One event. -/
theorem AtConn.step {cfg : ServerCfg} {c : ConnState} {log : List ConnEffect}
    (h : AtConn cfg c log) (e : ConnEvent) :
    AtConn cfg (c.step cfg e).1 (log ++ (c.step cfg e).2) := by
  have hsame : AtConn cfg c (log ++ []) := by rwa [List.append_nil]
  have hinput : ∀ input closed, AtConn cfg { c with input, closed } (log ++ []) := by
    intro input closed
    obtain ⟨past, cur, rfl, hp, hc⟩ := h
    exact ⟨past, cur, by simp, hp, hc⟩
  obtain ⟨past, cur, rfl, hp, hc⟩ := h
  cases e with
  | recv bs =>
    rw [ConnState.step]; split
    · exact hinput _ _
    · exact hsame
  | close k =>
    rw [ConnState.step]; split
    · exact hinput _ _
    · exact hsame
  | notReady => exact hsame
  | connected ok =>
    rw [ConnState.step]; split
    · rename_i hph
      rw [Current, hph] at hc
      split
      · exact AtConn.mk' hp (by subst hc; rfl)
      · exact AtConn.mk' hp (fail_current (.inl hc))
    · exact hsame
  | input =>
    rw [ConnState.step]
    split
    · rename_i hph
      rw [Current, hph] at hc
      simp only at hc
      subst hc
      rw [ConnState.pollHead]
      split
      · exact AtConn.mk' hp (accept_current cfg _ _)
      · exact AtConn.mk' hp (fail_current (.inl rfl))
      · split
        · exact hsame
        · exact AtConn.mk' hp rfl
        · exact AtConn.mk' hp rfl
        · exact AtConn.mk' hp (fail_current (.inl rfl))
    · rename_i h p hph
      rw [Current, hph] at hc
      obtain ⟨rfl, hj, hm, s, hs⟩ := hc
      have hfail : ∀ c : ConnState, AtConn cfg c.fail.1 (past ++ [.read h] ++ c.fail.2) :=
        fun c => AtConn.mk' hp (fail_current (.inr ⟨h, .read⟩))
      rw [ConnState.pollRefusing]
      split
      · exact hfail _
      · split
        · rename_i f _ b rest _
          have hr : serResponse (ProblemResponse.ofProblem p).toVal
              (ProblemResponse.ofProblem p).bodyBytes = .ok (problemResponse s p) :=
            serResponse_problem _ rfl hs
          simp only [ConnState.respond, hr]
          rw [show (if c.method = .head then { problemResponse s p with body := [] }
            else problemResponse s p) = onWire h (problemResponse s p) from onWire_eq c h hm _]
          exact AtConn.mk' hp ⟨h, .refusing hj hs, .refused hj hs⟩
        · exact hfail _
        · split
          · exact hsame
          · exact hfail _
    · exact hsame
  | bodyRead w rest =>
    rw [ConnState.step]
    split
    · rename_i h s v hph
      rw [Current, hph] at hc
      obtain ⟨rfl, hj, hm⟩ := hc
      split
      · exact hsame
      · split
        · exact AtConn.mk' hp ⟨h, s, v, w, rfl, hj, hm⟩
        · exact hsame
    · exact hsame
  | bodyFailed =>
    rw [ConnState.step]
    split
    · rename_i h s v hph
      rw [Current, hph] at hc
      obtain ⟨rfl, hj, hm⟩ := hc
      exact AtConn.mk' hp (fail_current (.inr ⟨h, .read⟩))
    · exact hsame
  | handled v body =>
    rw [ConnState.step]
    split
    · rename_i hph
      rw [Current, hph] at hc
      obtain ⟨h, s, v0, w, rfl, hj, hm⟩ := hc
      rcases respond_eq hm v body with ⟨r, hr, he⟩ | he
      · rw [he]
        exact AtConn.mk' hp ⟨h, .serving hj hr, .served hj hr⟩
      · rw [he]
        exact AtConn.mk' hp (.inr ⟨h, _, .returned (resp := v) (body := body) hj, rfl⟩)
    · exact hsame
  | written ok =>
    rw [ConnState.step]
    split
    · rename_i hph
      rw [Current, hph] at hc
      obtain ⟨h, hs, hx⟩ := hc
      split
      · refine ⟨past ++ (cur ++ [.written]), [], by simp, .snoc hp hx, rfl⟩
      · exact AtConn.mk' hp (fail_current (.inr ⟨h, hs⟩))
    · exact hsame

theorem AtConn.run {cfg : ServerCfg} {c : ConnState} {log : List ConnEffect}
    (h : AtConn cfg c log) (es : List ConnEvent) :
    AtConn cfg (c.run cfg es).1 (log ++ (c.run cfg es).2) := by
  induction es generalizing c log with
  | nil => rw [ConnState.run, List.append_nil]; exact h
  | cons e es ih =>
    have := ih (h.step e)
    rw [List.append_assoc] at this
    exact this

theorem atConn (cfg : ServerCfg) (es : List ConnEvent) :
    AtConn cfg (ConnState.run cfg .new es).1 (ConnState.run cfg .new es).2 :=
  (AtConn.new cfg).run es

theorem conn_run_append (cfg : ServerCfg) (c : ConnState) (es es' : List ConnEvent) :
    c.run cfg (es ++ es') = (((c.run cfg es).1.run cfg es').1,
      (c.run cfg es).2 ++ ((c.run cfg es).1.run cfg es').2) := by
  induction es generalizing c with
  | nil => rfl
  | cons e es ih =>
    simp only [List.cons_append, ConnState.run]
    rw [ih]
    simp

end

end Htrpc
