/-
Cases that meet the hypotheses of the theorems in Verif/Props/Callee.lean.
-/
import Verif.Props.Callee
import Verif.Props.InteropExamples

namespace Htrpc
open Spec Http

namespace CalleeExamples
open ToyMethods
open InteropExamples (ex_value)

attribute [local instance] toyFloat toyMethods

/-- A response as other servers write it. -/
def exText : Bytes :=
  utf8 "HTTP/1.1 404 Not here!\r\nServer: x \r\ncontent-length:02\r\n\r\nhi".toList

def exHeaders : List Header :=
  [(utf8 "Server".toList, utf8 "x".toList), (utf8 "content-length".toList, utf8 "02".toList)]

theorem ex_response : ResponseText (.other 0) 404 exHeaders (utf8 "hi".toList) exText := by
  have hl : StatusLine 404 (utf8 "HTTP/1.1 404 Not here!".toList) :=
    .phrase (ds := "404".toList) (p := utf8 "Not here!".toList) ⟨by decide, by decide⟩ (by decide)
      (by decide)
  refine .full (l := utf8 "HTTP/1.1 404 Not here!".toList) (by decide) hl
    (hb := utf8 "Server: x \r\ncontent-length:02\r\n".toList) ?_
    (.given (a := [(utf8 "Server".toList, utf8 "x".toList)]) (ds := "02".toList) (by decide) rfl
      (by decide) (by decide) ⟨by decide, by decide⟩)
  refine .cons (a := [32]) (b := [32]) ⟨by decide, by decide⟩
    (ex_value rfl rfl (by decide) (by decide) (by decide)) (by unfold Blanks; decide)
    (by unfold Blanks; decide) ?_
  exact .cons (a := []) (b := []) ⟨by decide, by decide⟩
    (ex_value rfl rfl (by decide) (by decide) (by decide)) (by unfold Blanks; decide)
    (by unfold Blanks; decide) .nil

theorem ex_hears : hear (.other 0) exText = [.head 404 exHeaders, .body (utf8 "hi".toList)] := by
  have := hear_reads (C93_read _ _ _ _ _ [] ex_response)
  rw [List.append_nil] at this
  exact this

/-- `C93_completes`. -/
example : ∃ w, (callRun exProc (.new exCallArgs [1]) [.connected, .notReady, .written,
      .head 404 exHeaders, .notReady, .body (utf8 "hi".toList)]).2 = .ready w (utf8 "hi".toList) ∧
    ReadsResponse 404 exHeaders true exProc.resTy w := by
  obtain ⟨r, hr⟩ := exCall_sent [1]
  have hx := ex_hears
  rcases C93_completes exProc (by
      simp [exProc, WellNamed, WellNamedVariants, WellNamedVariant]) exCallArgs [1] r hr
    404 exHeaders (utf8 "hi".toList) exText [] ex_response [.connected, .notReady, .written,
      .head 404 exHeaders, .notReady, .body (utf8 "hi".toList)] (by
        rw [List.append_nil]
        exact (congrArg (fun l => IoResult.connected :: .written :: l) hx).symm) with
    ⟨w, h1, h2⟩ | ⟨-, h⟩
  · exact ⟨w, h1, h2⟩
  · exact absurd (.unit (by decide) rfl) (h (.unitVariant "NotFound".toList))

/-- `C93_waits`: one byte is missing. -/
example : ∃ st, (callRun exProc (.new exCallArgs []) [.connected, .written,
    .head 404 exHeaders]).2 = .pending st := by
  obtain ⟨r, hr⟩ := exCall_sent []
  have he : exText = exText.dropLast ++ utf8 "i".toList := by decide +kernel
  have ht := ex_response
  rw [he] at ht
  have hb : hear exProc.method exText.dropLast = [.head 404 exHeaders] := by
    rcases hear_prefix ht (by decide) with h | h
    · exact absurd h (by decide +kernel)
    · exact h.2
  exact C93_waits exProc exCallArgs [] r hr 404 exHeaders _ _ _ ht (by decide) _ (by rw [hb]; rfl)

/-- No blank behind the code, and nothing else. -/
example : ResponseText .head 200 [] [] (utf8 "HTTP/1.1 200\r\n\r\n".toList) :=
  .head rfl (.bare (ds := "200".toList) ⟨by decide, by decide⟩ (by decide)) .nil

end CalleeExamples

end Htrpc
