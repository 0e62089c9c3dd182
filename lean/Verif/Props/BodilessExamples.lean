/-
Cases that meet the hypotheses of the theorems in Verif/Props/Bodiless.lean.
-/
import Verif.Props.Bodiless
import Verif.Props.CalleeExamples

namespace Htrpc
open Spec Http

namespace BodilessExamples
open ToyJson ToyMethods
open InteropExamples (ex_value exText ex_message ex_call exVal exHead ex_start)
open HttpExamples (exCfg exService)

attribute [local instance] toyFloat toyUrl toyJson toyMethods

/-- Nothing has changed: the length is that of the response with status 200. -/
def exUnchanged : Bytes := utf8 "HTTP/1.1 304 Not Modified\r\ncontent-length:02\r\n\r\n".toList

def exHeaders : List Header := [(utf8 "content-length".toList, utf8 "02".toList)]

theorem ex_header : HeaderText exHeaders (utf8 "content-length:02\r\n".toList) :=
  .cons (a := []) (b := []) ⟨by decide, by decide⟩
    (ex_value rfl rfl (by decide) (by decide) (by decide)) (by unfold Blanks; decide)
    (by unfold Blanks; decide) .nil

theorem ex_length : BodyLength exHeaders 2 :=
  .given (a := []) (ds := "02".toList) (by decide) rfl (by decide) (by decide) ⟨by decide, by decide⟩

theorem ex_unchanged : RfcText (.other 0) 304 exHeaders [] exUnchanged :=
  .bare (l := utf8 "HTTP/1.1 304 Not Modified".toList) (.inr (.inr (.inr rfl)))
    (.phrase (ds := "304".toList) (p := utf8 "Not Modified".toList) ⟨by decide, by decide⟩ (by decide)
      (by decide)) ex_header

/-- A response with a body. -/
def exOther : Bytes := utf8 "HTTP/1.1 200 OK\r\ncontent-length:02\r\n\r\nhi".toList

theorem ex_other : RfcText (.other 0) 200 exHeaders (utf8 "hi".toList) exOther :=
  .full (l := utf8 "HTTP/1.1 200 OK".toList) (by decide) (by unfold Bodiless; decide)
    (.phrase (ds := "200".toList) (p := utf8 "OK".toList) ⟨by decide, by decide⟩ (by decide)
      (by decide)) ex_header ex_length

/-- `C131_one`, `C131_where`: both in a row. -/
example (l : List (Nat × List Header × Bytes)) (t x : Bytes) (h : RfcTexts [.other 0, .other 0] l t)
    (e : exUnchanged ++ (exOther ++ []) ++ [] = t ++ x) :
    [(304, exHeaders, []), (200, exHeaders, utf8 "hi".toList)] = l :=
  (C131_where (.cons ex_unchanged (.cons ex_other .nil)) h e).1

/-- `C131_same`. -/
example : ResponseText (.other 0) 200 exHeaders (utf8 "hi".toList) exOther :=
  C131_same ex_other (.inr (.inl (by unfold Bodiless; decide)))

theorem ex_hears (more : Bytes) (h : more.length < 2) :
    hear (.other 0) (exUnchanged ++ more) = [.head 304 exHeaders] := by
  have ht := (rfc_swallows (by decide) (.inr (.inr rfl)) ex_unchanged ex_length
    (more := more ++ List.replicate (2 - more.length) 0) (by simp; omega)).2
  rw [← List.append_assoc] at ht
  rcases hear_prefix ht (by intro h0; have := congrArg List.length h0; simp at this; omega) with h' | h'
  · exfalso
    have h2 : readResponseHead (exUnchanged ++ more) = .done (304, exHeaders) more :=
      readResponseHead_text (l := utf8 "HTTP/1.1 304 Not Modified".toList)
        (.phrase (ds := "304".toList) (p := utf8 "Not Modified".toList) ⟨by decide, by decide⟩ (by decide)
          (by decide)) ex_header more
    rw [hear, h2] at h'
    simp at h'
  · exact h'.2

/-- `C131_waits`: the call does not complete. -/
example : ∃ st, (callRun exProc (.new exCallArgs []) [.connected, .written,
    .head 304 exHeaders]).2 = .pending st := by
  obtain ⟨r, hr⟩ := exCall_sent []
  exact C131_waits exProc exCallArgs [] r hr (by decide) 304 (.inr (.inr rfl)) exHeaders [] exUnchanged
    ex_unchanged 2 ex_length [] (by decide) _ (by
      rw [show exProc.method = .other 0 from rfl, ex_hears [] (by decide)]; rfl)

/-- `C131_swallows`: the next response becomes the body. -/
example : Reads (.other 0) (exUnchanged ++ exOther) 304 exHeaders (utf8 "HT".toList) (exOther.drop 2) := by
  obtain ⟨r, hr⟩ := exCall_sent []
  have := (C131_swallows exProc (by simp [exProc, WellNamed, WellNamedVariants, WellNamedVariant])
    exCallArgs [] r hr (by decide) 304 (.inr (.inr rfl)) exHeaders [] exUnchanged
    ex_unchanged 2 ex_length exOther (by decide) (.connected :: .written :: hear exProc.method
      (exUnchanged ++ exOther)) (by
        have h := (rfc_swallows (by decide) (.inr (.inr rfl)) ex_unchanged ex_length
          (more := exOther.take 2) (by decide)).2
        have e : exUnchanged ++ exOther = exUnchanged ++ exOther.take 2 ++ exOther.drop 2 := by
          rw [List.append_assoc, List.take_append_drop]
        rw [e, show exProc.method = .other 0 from rfl, hear_reads (C93_read _ _ _ _ _ _ h)]
        rfl)).2
  exact this

attribute [local instance] httpWire

/-- A handler that returns a body together with 204. -/
def exEvents (body : Bytes) : List ConnEvent :=
  [.connected true, .recv exText] ++
  [.input, .bodyRead exVal [], .handled (.unitVariant "NoContent".toList) body, .written true]

theorem ex_run (body : Bytes) : connLog exCfg (exEvents body) =
      [.read exHead, .invoked exService exVal exVal, .returned (.unitVariant "NoContent".toList) body,
       .answer ⟨.noContent, [contentLength body], body⟩, .written] := by
  obtain ⟨f, h1, h2, h3⟩ := ex_message
  have hrun := C37_call_is_answered exCfg ⟨.readHead, .other 0, exText, none⟩ _ _ _
    exVal f _ _ _ (.unitVariant "NoContent".toList) body
    ⟨.noContent, [contentLength body], body⟩ rfl h1 h2 h3 ex_call rfl
  rw [connLog, exEvents, conn_run_append, ex_start]
  simp only [hrun]
  rfl

theorem ex_safe (body : Bytes) : SafelyReturned (connLog exCfg (exEvents body)) := by
  rw [ex_run]
  intro resp b hm r hr
  simp only [returned, List.filterMap, List.mem_singleton, Prod.mk.injEq] at hm
  obtain ⟨rfl, rfl⟩ := hm
  have hp : PlainResponse (.unitVariant "NoContent".toList) (.enum [("NoContent".toList, .unit)]) none 204 :=
    .unit (by decide) rfl
  exact C67_safe_response _ _ _ _ hp .absent b _ hr

/-- `C131_served`: without body. -/
example : RfcTexts [.other 1] [(204, [contentLength []], [])]
    (written (fun _ => []) [⟨.noContent, [contentLength []], []⟩]) := by
  have h := C131_served exCfg (exEvents []) (fun _ => []) (by simp) (ex_safe [])
  rw [ex_run] at h
  exact h (by intro a ha _; simp [answers] at ha; rw [ha])

/-- `C131_left`, `C131_injected`: the next request is answered by the body. -/
example : ∃ text, text <+: written (fun _ => []) [⟨.noContent, [contentLength exOther], exOther⟩] ∧
    RfcTexts [.other 1, .other 0] [(204, [contentLength exOther], []), (200, exHeaders, utf8 "hi".toList)]
      text := by
  have h := C131_injected exCfg (exEvents exOther) (fun _ => []) (by simp) [] []
    ⟨.noContent, [contentLength exOther], exOther⟩ (.other 0) 200 exHeaders (utf8 "hi".toList) ex_other
    (ex_safe exOther)
  rw [ex_run] at h
  exact h rfl (by simp) (.inr (.inl rfl))

end BodilessExamples

end Htrpc
