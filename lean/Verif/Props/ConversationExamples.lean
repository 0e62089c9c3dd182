/-
Cases that meet the hypotheses of the theorems in Verif/Props/Conversation.lean.
-/
import Verif.Props.Conversation
import Verif.Props.InteropExamples
import Verif.Props.TransparentExamples

namespace Htrpc
open Spec Http

namespace ConversationExamples
open ToyJson ToyMethods
open ServerExamples (readsWhole_append readsWhole_other readsWhole_left smooth_of)
open HttpExamples (exCfg exService exVal exRequest ex_ser)
open TransparentExamples (noNaN_val ex_ty exTy_ok exTy_te)

attribute [local instance] toyFloat toyUrl toyJson toyMethods

/-- `C111_called_only`: with a blank at the beginning of the tag the handler is never called, whatever is
sent before and after it. -/
example (g : ReadBody) (ms : List (ReqHead × Bytes)) (bytes more body : Bytes) (hms : FittingTexts ms bytes)
    (es : List ConnEvent) : letI := serverWire
    arriving es <+: bytes ++ (writeRequest (exRequest " a".toList body) ++ more) →
    ReadsWhole exCfg g .new es → ∀ hd l w, (blocks (connLog exCfg es))[ms.length]? = some (hd, l) →
      (exService, exVal " a".toList, w) ∉ calls l := by
  let := serverWire
  intro harr hw hd l w hb hc
  have := C111_called_only exCfg g ms bytes hms exService
    (by rw [show table exCfg = [exService.reg] from rfl]; simp) exReq_consts _
    (ex_ty " a".toList) exTy_ok exTy_te (noNaN_val _) body _ (ex_ser _ body) more es harr hw hd l w hb hc
  have h := (this.1.2.1 _ (List.mem_cons_self ..)).2
  exact absurd rfl (h.2 32 (.inl rfl)).1

/-! A request that is served. -/

def exText : Bytes := writeRequest (exRequest "hello world".toList [7])

def exHead : ReqHead :=
  ⟨.other 1, "/users/a%20b%3F%23%2F".toList, (exRequest "hello world".toList [7]).headers⟩

theorem ex_delivered : Delivered exCfg exText [] exService (exVal "hello world".toList) [7] := by
  refine (TransparentExamples.ex_iff _ _ _).2 ⟨?_, by decide +kernel⟩
  exact ((C67_safe_request _ _ _ _ _ HttpExamples.ex_safe [7] _ (ex_ser _ _)).1 _
    (List.mem_cons_self ..)).2

theorem ex_message : letI := serverWire
    ∃ h rest f, Wire.head exText = .done h rest ∧ Wire.body h.headers = some f ∧
      f rest = .done [7] [] ∧ Judged exCfg h (.call exService (exVal "hello world".toList)) := by
  obtain ⟨h, rest, f, h1, h2, h3, h4⟩ := ex_delivered
  rw [List.append_nil] at h1
  exact ⟨h, rest, f, h1, h3, h4, h2⟩

/-- The request arrives and is answered; then nothing arrives any more. -/
def exEvents : List ConnEvent :=
  [.connected true, .recv exText] ++
  [.input, .bodyRead (exVal "hello world".toList) [], .handled (.unitVariant "Ok".toList) [4, 5], .written true]

def exSchedule (n : Nat) : ConnEvent := exEvents.getD n .input

theorem ex_upTo (n : Nat) : (∃ b, exEvents = upTo exSchedule n ++ b ∧ n < 6) ∨
    ∃ k, upTo exSchedule n = exEvents ++ List.replicate k .input := by
  by_cases h : n < 6
  · obtain ⟨b, hb⟩ := upTo_le exSchedule (Nat.le_of_lt h)
    exact .inl ⟨b, by rw [← hb]; rfl, h⟩
  · right
    obtain ⟨k, rfl⟩ := Nat.exists_eq_add_of_le (Nat.le_of_not_lt h)
    refine ⟨k, ?_⟩
    clear h
    induction k with
    | zero => rfl
    | succ k ih =>
      rw [← Nat.add_assoc, upTo_succ, ih, List.replicate_succ', List.append_assoc]
      congr 2
      rw [exSchedule, List.getD_eq_getElem?_getD, List.getElem?_eq_none]
      · rfl
      · show 6 ≤ 6 + k
        omega

theorem ex_start : letI := serverWire
    ConnState.run exCfg .new [.connected true, .recv exText] =
    (⟨.readHead, .other 0, exText, none⟩, []) := by
  generalize exText = c
  rfl

theorem ex_run : letI := serverWire
    ∃ h, (ConnState.run exCfg .new exEvents) = (⟨.readHead, h.method, [], none⟩,
      [.read h, .invoked exService (exVal "hello world".toList) (exVal "hello world".toList),
       .returned (.unitVariant "Ok".toList) [4, 5],
       .answer (onWire h ⟨.ok, [contentLength [4, 5]], [4, 5]⟩), .written]) := by
  let := serverWire
  obtain ⟨h, rest, f, h1, h2, h3, h4⟩ := ex_message
  have hrun := C37_call_is_answered exCfg ⟨.readHead, .other 0, exText, none⟩ _ _ _
    (exVal "hello world".toList) f _ _ _ (.unitVariant "Ok".toList) [4, 5]
    ⟨.ok, [contentLength [4, 5]], [4, 5]⟩ rfl h1 h2 h3 h4 rfl
  refine ⟨h, ?_⟩
  rw [exEvents, conn_run_append, ex_start]
  simp only [hrun]
  rfl

theorem ex_whole : letI := serverWire
    ReadsWhole exCfg (fun _ v b w => v = w ∧ b = [7]) .new exEvents := by
  let := serverWire
  obtain ⟨h, rest, f, h1, h2, h3, hj⟩ := ex_message
  refine readsWhole_append (readsWhole_other (by simp)) ?_
  rw [ex_start]
  have h4 : (ConnState.run exCfg ⟨.readHead, .other 0, exText, none⟩ [.input]).1 =
      (ConnState.accept exCfg ⟨.readHead, .other 0, rest, none⟩ h).1 := by
    simp only [ConnState.run, ConnState.step, ConnState.pollHead, h1]
  refine readsWhole_append (es := [.input]) (readsWhole_other (by simp)) ?_
  rw [h4, accept_call hj h2 ⟨.readHead, .other 0, rest, none⟩]
  refine ⟨?_, readsWhole_other (by simp)⟩
  intro w rest he h s v hp f' hfe
  cases he
  cases hp
  cases h2.symm.trans hfe
  exact ⟨[7], h3, rfl, rfl⟩

theorem ex_after (n : Nat) : exSchedule (n + 6) = .input := by
  rw [exSchedule, List.getD_eq_getElem?_getD, List.getElem?_eq_none]
  · rfl
  · rw [show exEvents.length = 6 from rfl]
    exact Nat.le_add_left _ _

theorem ex_idle (k : Nat) : letI := serverWire
    (ConnState.run exCfg .new (exEvents ++ List.replicate k .input)).1.phase = .readHead := by
  let := serverWire
  obtain ⟨h, hrun⟩ := ex_run
  rw [conn_run_append, hrun]
  show (ConnState.run exCfg ⟨.readHead, h.method, [], none⟩ (List.replicate k .input)).1.phase = _
  have hmore : serverWire.head [] = .more := by
    show limitHead maxHeadSize maxHeaders [] (readHead []) = .more
    rw [show readHead [] = .more from rfl, limitHead, if_neg (by decide)]
  have hstep : ∀ m, ConnState.step exCfg ⟨.readHead, m, [], none⟩ .input =
      (⟨.readHead, m, [], none⟩, []) := by
    intro m
    simp only [ConnState.step, ConnState.pollHead]
    rw [hmore]
  clear hrun
  induction k with
  | zero => rfl
  | succ k ih =>
    rw [List.replicate_succ, ConnState.run, hstep]
    exact ih

theorem ex_fair : letI := serverWire
    Fair exCfg exSchedule := by
  let := serverWire
  intro n _
  refine ⟨n + 6, Nat.le_add_right _ _, .inl ?_⟩
  rw [ex_after]
  rcases ex_upTo (n + 6) with ⟨_, _, h⟩ | ⟨k, hk⟩
  · exact absurd h (Nat.not_lt.2 (Nat.le_add_left _ _))
  · rw [hk]
    exact .head (ex_idle k)

/-- `C111_called`: the handler is called. -/
example : letI := serverWire
    ∃ n hd l w, (blocks (connLog exCfg (upTo exSchedule n)))[0]? = some (hd, l) ∧
      (exService, exVal "hello world".toList, w) ∈ calls l := by
  let := serverWire
  have harr : arriving exEvents = exText ++ [] := by
    unfold exEvents
    generalize exText = x
    rfl
  have hreg : exService.reg ∈ table exCfg := by
    rw [show table exCfg = [exService.reg] from rfl]; simp
  have hdel := ex_delivered
  have hfull : exText <+: arriving (upTo exSchedule 6) := by
    rw [show upTo exSchedule 6 = exEvents from rfl, harr, List.append_nil]
    exact List.prefix_refl _
  have hser := ex_ser "hello world".toList [7]
  unfold exText at hdel hfull
  generalize exRequest "hello world".toList [7] = r at hdel hfull hser
  have hty := ex_ty "hello world".toList
  have hn := noNaN_val "hello world".toList
  generalize exVal "hello world".toList = v at hty hn hser hdel ⊢
  have hR := (C110_request exCfg exService hreg exReq_consts v hty exTy_ok exTy_te hn [7] r hser []).1 hdel
  refine (C111_called exCfg (fun _ v b w => v = w ∧ b = [7]) exSchedule [] [] .nil (by simp) exService
    hreg exReq_consts v hty exTy_ok exTy_te hn
    [7] r hser ⟨6, hfull⟩ (fun n => ?_) (fun n => smooth_of fun e he => ?_) ex_fair).2 hR
  · rcases ex_upTo n with ⟨b, hb, -⟩ | ⟨k, hk⟩
    · have := ex_whole
      rw [hb] at this
      exact readsWhole_left this
    · rw [hk]
      refine readsWhole_append ex_whole (readsWhole_other fun e he w rest h => ?_)
      rw [List.eq_of_mem_replicate he] at h
      cases h
  · rw [upTo] at he
    obtain ⟨i, -, rfl⟩ := List.mem_map.1 he
    have h : exSchedule i ∈ exEvents ∨ exSchedule i = .input := by
      rw [exSchedule, List.getD_eq_getElem?_getD]
      cases hi : exEvents[i]? with
      | none => exact .inr rfl
      | some e => exact .inl (List.mem_of_getElem? hi)
    rcases h with h | h
    · rw [exEvents] at h
      simp only [List.cons_append, List.nil_append, List.mem_cons, List.not_mem_nil, or_false] at h
      rcases h with h | h | h | h | h | h <;> rw [h] <;>
        refine ⟨nofun, nofun, nofun, nofun, fun v body hv => ?_⟩ <;> cases hv
      exact ⟨_, rfl⟩
    · rw [h]
      exact ⟨nofun, nofun, nofun, nofun, nofun⟩
def exOk : Ty := .enum [("Ok".toList, .unit)]

theorem ex_noFields {ts : List (Str × Ty)} (h : FieldsOf exOk ts) : False := by
  generalize hv : exOk = v at h
  cases h with
  | variant hm => cases hv; simp at hm
  | newtypeVariant hm h => cases hv; simp at hm
  | _ => cases hv

theorem exOk_ok : ResponseTy exOk := by
  refine ⟨fun vs h => ?_, fun ts h => (ex_noFields h).elim, fun ts u h => (ex_noFields h).elim⟩
  generalize hv : exOk = v at h
  cases h with
  | enum => cases hv; simp [DistinctNames]
  | newtypeVariant hm h => cases hv; simp at hm
  | _ => cases hv

/-- `C111_returned`: the client of `InteropExamples` gets what the handler has returned. -/
example (more v : Bytes) (args : Val) (r : Request) (p : Proc) (hm : p.method = .other 1)
    (hty : p.resTy = exOk) (hr : serRequest p.method p.entry args v = .ok r)
    (rs : List IoResult) (hrs : rs.filter Happened = .connected :: .written ::
      hear p.method (writeResponse [] ⟨.ok, [contentLength [4, 5]], [4, 5]⟩ ++ more)) :
    (callRun p (.new args v) rs).2 = .ready (.unitVariant "Ok".toList) [4, 5] := by
  let := httpWire
  have hl : connLog exCfg InteropExamples.exEvents = _ := congrArg Prod.snd InteropExamples.ex_run
  have hb : (InteropExamples.exHead, [.invoked exService InteropExamples.exVal InteropExamples.exVal,
      .returned (.unitVariant "Ok".toList) [4, 5], .answer ⟨.ok, [contentLength [4, 5]], [4, 5]⟩,
      .written]) ∈ blocks (connLog exCfg InteropExamples.exEvents) := by
    rw [hl]
    simp [blocks, isRead, isFinal]
  refine (C111_returned exCfg InteropExamples.exEvents InteropExamples.exHead _ hb (.unitVariant "Ok".toList) [4, 5] (by simp [returned])
    ⟨.ok, [contentLength [4, 5]], [4, 5]⟩ (by simp [answers]) p hm (by rw [hty]; exact .unitVariant (by simp))
    ?_ ?_ ?_ [] (by simp) more args v r hr rs hrs [4, 5]).2 ⟨.unit ?_, ?_, by rw [hm]; rfl⟩
  · rw [hty]; exact exOk_ok
  · intro h
    cases h with | here h => cases h
  · rw [hty]; exact fun ts u h => (ex_noFields h).elim
  · exact (statusCodeToStr_table 200 "Ok".toList).1 rfl
  · intro x hx
    rw [List.mem_singleton.1 hx]
    exact contentLength_safe [4, 5]

end ConversationExamples

end Htrpc
