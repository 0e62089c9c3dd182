/-
Cases that meet the hypotheses of the theorems in Verif/Props/Interop.lean.
-/
import Verif.Props.Interop
import Verif.Props.HttpExamples
import Verif.Props.LiveExamples

namespace Htrpc
open Spec Http

namespace InteropExamples
open ToyJson ToyMethods
open ServerExamples (readsWhole_append readsWhole_other readsWhole_left smooth_of)
open HttpExamples (exCfg exService)

attribute [local instance] toyFloat toyUrl toyJson toyMethods httpWire

/-- A request as other clients write it. -/
def exText : Bytes := utf8 "X1 /users/7 HTTP/1.1\r\nX-Tag:  hi\t\r\nAccept: */*\r\n\r\n".toList

def exHead : ReqHead :=
  ⟨.other 1, "/users/7".toList, [(utf8 "X-Tag".toList, utf8 "hi".toList),
    (utf8 "Accept".toList, utf8 "*/*".toList)]⟩

theorem ex_value {a b : UInt8} {v : Bytes} (h1 : v.head? = some a) (h2 : v.getLast? = some b)
    (h3 : a ≠ 32 ∧ a ≠ 9) (h4 : b ≠ 32 ∧ b ≠ 9) (h : ∀ b ∈ v, ValueByte b) : SafeValue v := by
  refine ⟨h, fun x hx => ?_⟩
  rcases hx with hx | hx
  · rw [h1] at hx; cases hx; exact h3
  · rw [h2] at hx; cases hx; exact h4

theorem ex_request : RequestText exHead [] exText := by
  refine .intro (m := .other 1) (body := []) (hb := utf8 "X-Tag:  hi\t\r\nAccept: */*\r\n".toList)
    ⟨by decide, by decide⟩ ?_ (.absent (by decide) (by decide))
  have h2 : HeaderText [(utf8 "Accept".toList, utf8 "*/*".toList)] (utf8 "Accept: */*\r\n".toList) :=
    .cons (a := [32]) (b := []) ⟨by decide, by decide⟩
      (ex_value rfl rfl (by decide) (by decide) (by decide)) (by unfold Blanks; decide)
      (by unfold Blanks; decide) .nil
  exact .cons (a := [32, 32]) (b := [9]) ⟨by decide, by decide⟩
    (ex_value rfl rfl (by decide) (by decide) (by decide)) (by unfold Blanks; decide)
    (by unfold Blanks; decide) h2

/-- `C88_read`, `C88_only`. -/
example : ∃ text, exText = text ++ [] ∧ RequestText exHead [] text := by
  obtain ⟨hd, b, e, h1, f, h2, h3⟩ := C88_read _ _ _ ex_request
  have h4 := h1 b
  rw [← e] at h4
  have h5 := h3 []
  rw [List.append_nil] at h5
  exact C88_only _ _ _ _ _ f h4 h2 h5

/-- A request with a body, with a name in other letters and zeros in front of the length. -/
example : RequestText ⟨.other 1, "/".toList, [(utf8 "content-LENGTH".toList, utf8 "003".toList)]⟩
    [1, 2, 3] (utf8 "X1 / HTTP/1.1\r\ncontent-LENGTH:003\r\n\r\n".toList ++ [1, 2, 3]) := by
  refine .intro (m := .other 1) (body := [1, 2, 3]) (hb := utf8 "content-LENGTH:003\r\n".toList)
    ⟨by decide, by decide⟩ ?_ (.given (a := []) (ds := "003".toList) (by decide) rfl (by decide)
      (by decide) ⟨by decide, by decide⟩)
  exact .cons (a := []) (b := []) ⟨by decide, by decide⟩
    (ex_value rfl rfl (by decide) (by decide) (by decide)) (by unfold Blanks; decide)
    (by unfold Blanks; decide) .nil

def exVal : Val :=
  .struct (requestFields (some (.tuple [.str "7".toList])) none
    (some (.struct [("x-tag".toList, .str "hi".toList)])))

theorem ex_call : Judged exCfg exHead (.call exService exVal) :=
  .call (t := ⟨some ["users".toList, "7".toList], none⟩)
    (segs := ["users".toList, "7".toList]) (by decide) rfl (by rfl) (by rfl)

/-- The request arrives and is answered; then nothing arrives any more. -/
def exEvents : List ConnEvent :=
  [.connected true, .recv exText] ++
  [.input, .bodyRead exVal [], .handled (.unitVariant "Ok".toList) [4, 5], .written true]

def exSchedule (n : Nat) : ConnEvent := exEvents.getD n .input

theorem ex_upTo (n : Nat) : (∃ b, exEvents = upTo exSchedule n ++ b ∧ n < 6) ∨
    ∃ k, upTo exSchedule n = exEvents ++ List.replicate k .input := by
  by_cases h : n < 6
  · obtain ⟨b, hb⟩ := upTo_le exSchedule (Nat.le_of_lt h)
    exact .inl ⟨b, by rw [← hb]; rfl, h⟩
  · right
    obtain ⟨k, rfl⟩ := Nat.exists_eq_add_of_le (Nat.le_of_not_lt h)
    refine ⟨k, ?_⟩
    clear h
    induction k with
    | zero => rfl
    | succ k ih =>
      rw [← Nat.add_assoc, upTo_succ, ih, List.replicate_succ', List.append_assoc]
      congr 2
      rw [exSchedule, List.getD_eq_getElem?_getD, List.getElem?_eq_none]
      · rfl
      · show 6 ≤ 6 + k
        omega

theorem ex_start : ConnState.run exCfg .new [.connected true, .recv exText] =
    (⟨.readHead, .other 0, exText, none⟩, []) := by
  generalize exText = c
  rfl

theorem ex_message : ∃ f, Wire.head exText = .done exHead [] ∧ Wire.body exHead.headers = some f ∧
    f [] = .done [] [] := by
  obtain ⟨hd, b, e, h1, f, h2, h3⟩ := C88_read _ _ _ ex_request
  have h4 := h1 b
  rw [← e] at h4
  have h5 := h3 []
  rw [List.append_nil] at h5
  have hb : b = [] := by
    have h6 : readBody exHead.headers = some f := h2
    cases h6
    exact congrArg (fun p : Parsed Bytes => match p with | .done _ r => r | _ => []) h5
  subst hb
  exact ⟨f, h4, h2, h5⟩

theorem ex_run : ConnState.run exCfg .new exEvents = (⟨.readHead, .other 1, [], none⟩,
      [.read exHead, .invoked exService exVal exVal, .returned (.unitVariant "Ok".toList) [4, 5],
       .answer ⟨.ok, [contentLength [4, 5]], [4, 5]⟩, .written]) := by
  obtain ⟨f, h1, h2, h3⟩ := ex_message
  have hrun := C37_call_is_answered exCfg ⟨.readHead, .other 0, exText, none⟩ _ _ _
    exVal f _ _ _ (.unitVariant "Ok".toList) [4, 5]
    ⟨.ok, [contentLength [4, 5]], [4, 5]⟩ rfl h1 h2 h3 ex_call rfl
  rw [exEvents, conn_run_append, ex_start]
  simp only [hrun]
  rfl

theorem ex_whole : ReadsWhole exCfg (fun _ v b w => v = w ∧ b = []) .new exEvents := by
  obtain ⟨f, h1, h2, h3⟩ := ex_message
  refine readsWhole_append (readsWhole_other (by simp)) ?_
  rw [ex_start]
  have h4 : (ConnState.run exCfg ⟨.readHead, .other 0, exText, none⟩ [.input]).1 =
      (ConnState.accept exCfg ⟨.readHead, .other 0, [], none⟩ exHead).1 := by
    simp only [ConnState.run, ConnState.step, ConnState.pollHead, h1]
  refine readsWhole_append (es := [.input]) (readsWhole_other (by simp)) ?_
  rw [h4, accept_call ex_call h2 ⟨.readHead, .other 0, [], none⟩]
  refine ⟨?_, readsWhole_other (by simp)⟩
  intro w rest he h s v hp f' hfe
  cases he
  cases hp
  cases h2.symm.trans hfe
  exact ⟨[], h3, rfl, rfl⟩

/-- `C88_answered`. -/
example : ∃ n, List.Forall₂ (fun (m : ReqHead × Bytes) (x : ReqHead × List ConnEffect) => x.1 = m.1 ∧
      ∃ segs ps d, TargetOf m.1.target segs ps ∧ Decided exCfg m.1 segs ps d ∧
        Settled (fun _ v b w => v = w ∧ b = []) m.1 m.2 d x.2)
      [(exHead, [])] (blocks (connLog exCfg (upTo exSchedule n))) := by
  have hms : RequestTexts [(exHead, [])] (exText ++ []) := .cons ex_request .nil
  have harr : arriving exEvents = exText ++ [] := by
    unfold exEvents
    generalize exText = x
    rfl
  refine C88_answered exCfg (fun s hs => ?_) _ exSchedule _ _ hms (fun m hm => ?_)
    ⟨6, harr ▸ List.prefix_refl _⟩ (fun n => ?_) (fun n => smooth_of fun e he => ?_) (fun n _ => ?_)
  · rw [exCfg, List.mem_singleton] at hs
    subst hs
    simp [exService, requestFields, optField, WellNamed, WellNamedFields, WellNamedAll,
      DistinctNames]
  · rw [List.mem_singleton] at hm
    subst hm
    exact ⟨"users/7".toList, rfl, fun c s h => by cases h; decide⟩
  · rcases ex_upTo n with ⟨b, hb, -⟩ | ⟨k, hk⟩
    · have := ex_whole
      rw [hb] at this
      exact readsWhole_left this
    · rw [hk]
      refine readsWhole_append ex_whole (readsWhole_other fun e he w rest h => ?_)
      rw [List.eq_of_mem_replicate he] at h
      cases h
  · rw [upTo] at he
    obtain ⟨i, -, rfl⟩ := List.mem_map.1 he
    have h : exSchedule i ∈ exEvents ∨ exSchedule i = .input := by
      rw [exSchedule, List.getD_eq_getElem?_getD]
      cases hi : exEvents[i]? with
      | none => exact .inr rfl
      | some e => exact .inl (List.mem_of_getElem? hi)
    rcases h with h | h
    · rw [exEvents] at h
      simp only [List.cons_append, List.nil_append, List.mem_cons, List.not_mem_nil, or_false] at h
      rcases h with h | h | h | h | h | h <;> rw [h] <;>
        refine ⟨nofun, nofun, nofun, nofun, fun v body hv => ?_⟩ <;> cases hv
      exact ⟨_, rfl⟩
    · rw [h]
      exact ⟨nofun, nofun, nofun, nofun, nofun⟩
  · have hs : ∀ k, (ConnState.run exCfg .new (exEvents ++ List.replicate k .input)).1.phase =
        .readHead := by
      intro k
      rw [conn_run_append, ex_run]
      show (ConnState.run exCfg ⟨.readHead, .other 1, [], none⟩ (List.replicate k .input)).1.phase = _
      induction k with
      | zero => rfl
      | succ k ih => exact ih
    refine ⟨n + 6, by omega, .inl ?_⟩
    have he : exSchedule (n + 6) = .input := by
      rw [exSchedule, List.getD_eq_getElem?_getD, List.getElem?_eq_none]
      · rfl
      · show 6 ≤ n + 6
        omega
    rw [he]
    rcases ex_upTo (n + 6) with ⟨-, -, h⟩ | ⟨k, hk⟩
    · omega
    · rw [hk]
      exact .head (hs k)

/-- `C88_responses`. -/
example : ReadsAll [.other 1] (written (fun _ => []) [⟨.ok, [contentLength [4, 5]], [4, 5]⟩])
    [(200, [contentLength [4, 5]], [4, 5])] [] := by
  have hl : connLog exCfg exEvents = _ := congrArg Prod.snd ex_run
  have := C88_responses exCfg exEvents (fun _ => []) (by simp)
  rw [hl] at this
  refine this fun resp body hm r hr => ?_
  simp only [returned, List.filterMap, List.mem_singleton, Prod.mk.injEq] at hm
  obtain ⟨rfl, rfl⟩ := hm
  cases hr
  have hp : PlainResponse (.unitVariant "Ok".toList) (.enum [("Ok".toList, .unit)]) none 200 :=
    .unit (by decide) rfl
  exact C67_safe_response _ _ _ _ hp .absent [4, 5] _ rfl

end InteropExamples

end Htrpc
