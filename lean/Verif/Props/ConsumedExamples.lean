/-
Cases for the theorems in Verif/Props/Consumed.lean.
-/
import Verif.Props.Consumed
import Verif.Props.HttpExamples

namespace Htrpc
open Spec Http

namespace ConsumedExamples
open ToyJson ToyMethods HttpExamples

/-- `C96_read_once`: one request was read, and a handler was called. -/
example : letI := toyFloat; letI := toyUrl; letI := toyJson; letI := toyMethods; letI := httpWire
    Consumed [((exRequest "hello world".toList [1, 2]).asRead.1,
      .handed exService (exVal "hello world".toList) (exVal "hello world".toList))] exBytes := by
  let := toyFloat
  let := toyUrl
  let := toyJson
  let := toyMethods
  let := httpWire
  have := cutWire
  have h := C96_read_once exCfg exEvents
  have h1 : arriving exEvents = exBytes := by
    have : exBytes.take 20 ++ (exBytes.drop 20 ++ []) = exBytes := by simp
    exact this
  rw [ex_log, h1] at h
  exact h

/-- `C96_unread`: the body of a request is another request.  A client has sent one, but the server
reads two if the handler does not want the body. -/
example : letI := toyFloat; letI := toyUrl; letI := toyJson; letI := toyMethods; letI := httpWire
    ∃ es, arriving es = writeRequest (exRequest "hello world".toList
        (writeRequest (exRequest "hello world".toList [3]))) ∧
      (received (connLog exCfg es)).map (·.1) =
        [(exRequest "hello world".toList (writeRequest (exRequest "hello world".toList [3]))).asRead.1,
         (exRequest "hello world".toList [3]).asRead.1] := by
  let := toyFloat
  let := toyUrl
  let := toyJson
  let := toyMethods
  let := httpWire
  have hh : ∀ body, HeadBytes (exRequest "hello world".toList body).asRead.1
      (writeHead (.other 1) (exRequest "hello world".toList body).target
        (exRequest "hello world".toList body).headers) := fun body =>
    readHead_write _ (C66_target_safe _ _ _ _ _ (ex_ser "hello world".toList body))
      (C67_safe_request _ _ _ _ _ ex_safe _ _ (ex_ser "hello world".toList body)).1
  have h4 := hh [3]
  have h5 : writeRequest (exRequest "hello world".toList [3]) =
    writeHead (.other 1) (exRequest "hello world".toList [3]).target
      (exRequest "hello world".toList [3]).headers ++ [3] := rfl
  generalize writeRequest (exRequest "hello world".toList [3]) = b at h5 ⊢
  obtain ⟨-, f, h2, h3⟩ :=
    C67_request_arrives_partial _ _ _ _ _ (ex_ser "hello world".toList b)
      (C67_safe_request _ _ _ _ _ ex_safe _ _ (ex_ser "hello world".toList b)).1
      (C67_safe_request _ _ _ _ _ ex_safe _ _ (ex_ser "hello world".toList b)).2
  have hw := (C38_wanted_iff _ _ _ _).2 (ex_sends b).carries.judged.1
  obtain ⟨es, -, h6, h7⟩ := C96_unread exCfg _ _ _ _ (exVal "hello world".toList)
    (.unitVariant "Ok".toList) ⟨.ok, [contentLength []], []⟩ _ b _ b [3] f hw (hh b) h2 h3 h4 h5 rfl
  exact ⟨es, h6, by rw [h7]; rfl⟩

/-- `C96_early`: one byte of a body of two has arrived, and `read_body` wants none. -/
example : letI := toyFloat; letI := toyUrl; letI := toyJson; letI := toyMethods; letI := httpWire
    received (connLog exCfg [.connected true, .recv (writeHead (.other 1)
        (exRequest "hello world".toList [1, 2]).target (exRequest "hello world".toList [1, 2]).headers ++
          ([] ++ [1])), .input, .bodyRead .unit [1]]) =
      [((exRequest "hello world".toList [1, 2]).asRead.1,
        .handed exService (exVal "hello world".toList) .unit)] := by
  let := toyFloat
  let := toyUrl
  let := toyJson
  let := toyMethods
  let := httpWire
  have hs := C67_safe_request _ _ _ _ _ ex_safe _ _ (ex_ser "hello world".toList [1, 2])
  have hh : HeadBytes (exRequest "hello world".toList [1, 2]).asRead.1 _ :=
    readHead_write _ (C66_target_safe _ _ _ _ _ (ex_ser "hello world".toList [1, 2])) hs.1
  obtain ⟨hte, hcl⟩ := framed_headers hs.2 fun x hx b hb => by
    have := isToken_facts ((hs.1 x hx).1.2 b hb)
    omega
  have hw := (C38_wanted_iff _ _ _ _).2 (ex_sends [1, 2]).carries.judged.1
  refine C96_early exCfg _ _ _ .unit _ [] [1]
    (fun bs => if 2 ≤ bs.length then .done (bs.take 2) (bs.drop 2) else .more) hw hh ?_ rfl
  show readBody (exRequest "hello world".toList [1, 2]).headers = _
  simp only [readBody, hte, hcl, contentLength, fromUtf8_utf8, Option.bind_some, parseDigits_showNat]
  rfl

end ConsumedExamples
end Htrpc
