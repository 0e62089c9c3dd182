/-
A case that meets the hypotheses of the theorems in Verif/Props/Once.lean.
-/
import Verif.Props.Once
import Verif.Props.SystemExamples

namespace Htrpc
open Spec Http

namespace OnceExamples
open ToyJson ToyMethods HttpExamples SystemExamples

/-- `C90`: two calls of the client have sent requests, the handler has been called once, for the first of
them. -/
example : letI := toyFloat; letI := toyUrl; letI := toyJson; letI := toyMethods; letI := httpWire
    (calls (connLog exCfg (exServer 0))).length = 1 ∧ ∃ i : Nat, ∃ (fs : List (Str × Val)) (b : Bytes) (j : Nat),
      (asked exCalls)[i]? = some (exCallee, exA, Val.struct fs, b) ∧ b = [1, 2] ∧
      .opened j exA 0 ∈ (Sys.run exCalls (.new 3)).1 := by
  let := toyFloat
  let := toyUrl
  let := toyJson
  let := toyMethods
  let := httpWire
  obtain ⟨causes, h1, -, -⟩ := C90_at_most_once 3 exCalls (fun _ => exCfg) exServer exPhrase
    (fun _ => (exInvocation []).types) (fun _ _ v b w => v = w ∧ b = [1, 2]) ex_asked
    (fun c => (ex_linked c).1) (fun c => (ex_linked c).2.1)
  have hl : (calls (connLog exCfg (exServer 0))).length = 1 := by
    rw [show exServer 0 = HttpExamples.exEvents from rfl, ex_log]
    rfl
  refine ⟨hl, ?_⟩
  have h1 := h1 0
  generalize calls (connLog exCfg (exServer 0)) = cs at h1 hl
  generalize causes 0 = is at h1
  cases h1 with
  | nil => cases hl
  | @cons i x is cs h1 _ =>
    obtain ⟨p, a, fs, b, j, h1, h2, -, -, ⟨-, h3⟩, -⟩ := h1
    have hasked : asked exCalls = [(exCallee, exA, exVal "hello world".toList, [1, 2]),
      (exCallee, exA, exVal "hello world".toList, [])] := rfl
    refine ⟨i, fs, b, j, ?_, h3, ?_⟩ <;> rw [hasked] at h1 <;> match i with
      | 0 => cases h1; first | assumption | rfl
      | 1 => cases h1; first | assumption | cases h3
      | i + 2 => simp at h1

/-- `C90_addressed`: the second request goes to the address of its call. -/
example : letI := toyFloat; ∃ j, .opened j exA 0 ∈ (Sys.run exCalls (.new 3)).1 := by
  let := toyFloat
  obtain ⟨p, a, v, b, h1, h2⟩ := C90_addressed 3 exCalls 0 1 (exRequest "hello world".toList []) (by
    rw [ex_wire.1]
    simp [onConn, requestsOn])
  cases h1
  exact h2

end OnceExamples
end Htrpc
