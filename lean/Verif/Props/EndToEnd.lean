/-
Remote procedure calls as a whole (C65).
-/
import Verif.Spec.EndToEnd
import Verif.Props.Client
import Verif.Props.Request
import Verif.Props.Response
import Verif.Props.Server

set_option linter.unusedSectionVars false

namespace Htrpc
open Spec

section
variable [LawfulFloatText] [UrlText] [JsonText] [Wire]

/-! ### Lemmas -/

/-- What became of the body, from what happened after reading the head. -/
def bodyUse : List ConnEffect → BodyUse
  | .drained b :: _ => .dropped b
  | .invoked s v w :: _ => .handed s v w
  | _ => .pending

theorem received_blocks (log : List ConnEffect) :
    received log = (blocks log).map fun b => (b.1, bodyUse b.2) := by
  fun_induction received log with
  | case1 => rfl
  | case2 h b l ih => simp [blocks, isRead, isFinal, bodyUse, ih]
  | case3 h s v w l ih => simp [blocks, isRead, isFinal, bodyUse, ih]
  | case4 h l h1 h2 ih =>
    rw [blocks, List.map_cons, ← ih]
    congr 2
    cases l with
    | nil => rfl
    | cons e l =>
      cases e with
      | drained b => exact absurd rfl (h1 b l)
      | invoked s v w => exact absurd rfl (h2 s v w l)
      | _ => simp [isRead, isFinal, bodyUse]
  | case5 e l h1 h2 h3 ih =>
    cases e with
    | read h => exact absurd rfl (h3 h)
    | _ => simpa [blocks] using ih

/-- The verdict on a request that carries a wish. -/
theorem Spec.Carries.judged {cfg : ServerCfg} {m : Wish} {hd : ReqHead} {b : Bytes}
    (hc : Carries cfg m (hd, b)) : Judged cfg hd (.call m.service m.value) ∧ b = m.body ∧
      hd.method = m.service.method := by
  generalize hx : (hd, b) = x at hc
  obtain ⟨hs, hr, htr⟩ := hc
  cases hx
  obtain ⟨svc, val, body⟩ := m
  cases hs with
  | @intro p q h pt qt ht ss h1 h2 h3 h4 h5 h6 h7 h8 h9 =>
    have hcf : ConflictFree (table cfg) := accept_conflictFree .nil
    obtain ⟨req, target, segs, e1, e2, e3, e4, e5, e6, e7⟩ := C27_request_end_to_end cfg.oracle
      (table cfg) svc.reg h1 hcf h2 p q h pt qt _ ss h4 h5 h6 h7 h8 h9 body
    have hre := hr.symm.trans e1
    cases hre
    rw [C02_exact_dispatch, accepted_of_conflictFree hcf] at e6
    refine ⟨?_, e3, e2⟩
    cases htr with
    | @intro pre post a1 a2 a3 a4 =>
      have hde := e7 pre post a1 a2 a3 a4
      refine .call e4 e5 e6 ?_
      rw [h3]
      exact hde

/-! ### C65 -/

/-- **C65.** If the messages that reach the server on a connection carry what clients want, then
whatever happens on the connection, the `n`-th request read is the `n`-th message, its handler is
called with the value and the body that the client has sent, and what it returns is written. -/
theorem C65_served (cfg : ServerCfg) (es : List ConnEvent) (wishes : List Wish)
    (ms : List (ReqHead × Bytes)) (bytes : Bytes) (hw : List.Forall₂ (Carries cfg) wishes ms)
    (hms : Messages ms bytes) (harr : arriving es <+: bytes) (g : ReadBody)
    (hg : ReadsWhole cfg g .new es) (n : Nat) (h : ReqHead) (l : List ConnEffect)
    (hn : (blocks (connLog cfg es))[n]? = some (h, l)) :
    ∃ m b, wishes[n]? = some m ∧ ms[n]? = some (h, b) ∧ Serving g h m l := by
  obtain ⟨seen, left, rfl, hsame, -⟩ := C43_in_step cfg es ms bytes hms harr g hg
  rw [received_blocks] at hsame
  have hlen := hsame.length_eq
  have hnl : n < (blocks (connLog cfg es)).length := (List.getElem?_eq_some_iff.1 hn).1
  rw [List.length_map] at hlen
  have hns : n < seen.length := by omega
  have hs := (List.forall₂_iff_get.1 hsame).2 n (by simpa using hnl) hns
  obtain ⟨_, hbn⟩ := List.getElem?_eq_some_iff.1 hn
  simp only [List.get_eq_getElem, List.getElem_map, hbn] at hs
  have hwl := hw.length_eq
  have hnw : n < wishes.length := by rw [hwl, List.length_append]; omega
  have hc := (List.forall₂_iff_get.1 hw).2 n hnw (by rw [List.length_append]; omega)
  simp only [List.get_eq_getElem, List.getElem_append_left hns] at hc
  generalize hm : seen[n] = msg at hs hc
  obtain ⟨hd, b⟩ := msg
  obtain ⟨rfl, hs⟩ := hs
  obtain ⟨hj, rfl, -⟩ := hc.judged
  refine ⟨wishes[n], wishes[n].body, List.getElem?_eq_getElem hnw, ?_, ?_⟩
  · rw [List.getElem?_append_left hns, List.getElem?_eq_getElem hns, hm]
  simp only at hs hj
  have hone : ∀ {d}, Judged cfg h d → d = .call wishes[n].service wishes[n].value := by
    intro d hd
    have h1 := wanted_of_judged hd
    have h2 := wanted_of_judged hj
    rw [h1] at h2
    cases d with
    | refuse p => simp at h2
    | call s v => simp only [Option.some.injEq, Prod.mk.injEq] at h2; rw [h2.1, h2.2]
  rcases (transcript cfg es).blocks n h l hn with hx | ⟨hx, -⟩
  · generalize hl : ConnEffect.read h :: l = l0 at hx
    cases hx with
    | refused hj' => cases hone hj'
    | served hj' hr =>
      cases hone hj'
      cases hl
      exact .answered hs hr
  · generalize hl : ConnEffect.read h :: l = l0 at hx
    cases hx with
    | read => cases hl; exact .read
    | refusing hj' => cases hone hj'
    | invoked hj' => cases hone hj'; cases hl; exact .invoked hs
    | returned hj' => cases hone hj'; cases hl; exact .returned hs
    | serving hj' hr => cases hone hj'; cases hl; exact .answering hs hr

/-- **C65.** If moreover the response which the handler returns is in the supported class for the
client's response type, the client which sees what the server has written for its request completes
with the value that the handler has returned, and its body, which is empty for `HEAD`. -/
theorem C65_round_trip (cfg : ServerCfg) (es : List ConnEvent) (wishes : List Wish)
    (ms : List (ReqHead × Bytes)) (bytes : Bytes) (hw : List.Forall₂ (Carries cfg) wishes ms)
    (hms : Messages ms bytes) (harr : arriving es <+: bytes) (g : ReadBody)
    (hg : ReadsWhole cfg g .new es) (n : Nat) (r : Response)
    (hr : (answers (connLog cfg es))[n]? = some r) :
    ∃ m h l w resp body, wishes[n]? = some m ∧ (blocks (connLog cfg es))[n]? = some (h, l) ∧
      calls l = [(m.service, m.value, w)] ∧ g m.service m.value m.body w ∧
      returned l = [(resp, body)] ∧
      ∀ resTy ht c hs rs, PlainResponse resp resTy ht c → Transported ht r.headers hs →
        Sees ⟨m.service.method, m.service.entry, resTy⟩ r.status.code hs r.body rs →
        (callRun ⟨m.service.method, m.service.entry, resTy⟩ (.new m.value m.body) rs).2 =
          .ready resp (if m.service.method = .head then [] else body) := by
  obtain ⟨h, l, h1, h2, h3⟩ := C39_nth_response cfg es n r hr
  obtain ⟨m, b, hm, hmn, hserv⟩ := C65_served cfg es wishes ms bytes hw hms harr g hg n h l h2
  have hc : Carries cfg m (h, b) := by
    obtain ⟨hnw, rfl⟩ := List.getElem?_eq_some_iff.1 hm
    obtain ⟨hnm, he⟩ := List.getElem?_eq_some_iff.1 hmn
    have := (List.forall₂_iff_get.1 hw).2 n hnw hnm
    simp only [List.get_eq_getElem, he] at this
    exact this
  have hsent : ∃ req, serRequest m.service.method m.service.entry m.value m.body = .ok req := by
    generalize (h, b) = x at hc
    obtain ⟨-, hx, -⟩ := hc
    exact ⟨_, hx⟩
  obtain ⟨req, hreq⟩ := hsent
  obtain ⟨-, -, hmeth⟩ := hc.judged
  have main : ∀ {w resp body r'}, g m.service m.value m.body w → serResponse resp body = .ok r' →
      r = onWire h r' → calls l = [(m.service, m.value, w)] → returned l = [(resp, body)] →
      ∃ m' h l w resp body, wishes[n]? = some m' ∧ (blocks (connLog cfg es))[n]? = some (h, l) ∧
      calls l = [(m'.service, m'.value, w)] ∧ g m'.service m'.value m'.body w ∧
      returned l = [(resp, body)] ∧
      ∀ resTy ht c hs rs, PlainResponse resp resTy ht c → Transported ht r.headers hs →
        Sees ⟨m'.service.method, m'.service.entry, resTy⟩ r.status.code hs r.body rs →
        (callRun ⟨m'.service.method, m'.service.entry, resTy⟩ (.new m'.value m'.body) rs).2 =
          .ready resp (if m'.service.method = .head then [] else body) := by
    intro w resp body r' hg' hs hrr hcl hrl
    refine ⟨m, h, l, w, resp, body, hm, h2, hcl, hg', hrl, ?_⟩
    intro resTy ht c hs' rs hp htr hsees
    obtain ⟨r'', e1, e2, e3, e4⟩ := C29_response_round_trip resp resTy ht c hp body
    have := hs.symm.trans e1
    cases this
    have hw : r.headers = r'.headers ∧ r.status = r'.status ∧
        r.body = if m.service.method = .head then [] else body := by
      rw [hrr, onWire, ← hmeth]
      cases h.method with
      | head => exact ⟨rfl, rfl, rfl⟩
      | other k => exact ⟨rfl, rfl, by simpa using e3⟩
    have hde : deResponse resTy r.status.code hs' = .ok resp := by
      cases htr with
      | intro a1 a2 a3 a4 =>
        rw [hw.1, hw.2.1]
        exact e4 _ _ a1 a2 a3 a4
    rw [C55_completes ⟨m.service.method, m.service.entry, resTy⟩ m.value m.body rs req
      r.status.code hs' resp r.body hreq hde hsees, hw.2.2]
    by_cases hh : m.service.method = .head
    · simp [hh]
    · simp [hh]
  cases hserv with
  | read => simp [answers] at h3
  | invoked => simp [answers] at h3
  | returned => simp [answers] at h3
  | answering hg' hs =>
    simp only [answers, List.filterMap, List.cons.injEq, and_true] at h3
    exact main hg' hs h3.symm rfl rfl
  | answered hg' hs =>
    simp only [answers, List.filterMap, List.cons.injEq, and_true] at h3
    exact main hg' hs h3.symm rfl rfl

end

end Htrpc
