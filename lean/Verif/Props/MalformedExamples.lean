/-
Cases that meet the hypotheses of the theorems in Verif/Props/Malformed.lean and Verif/Props/Limits.lean.
-/
import Verif.Props.Limits
import Verif.Props.HttpExamples
import Verif.Props.LiveExamples

namespace Htrpc
open Spec Http

namespace MalformedExamples
open ToyJson ToyMethods
open HttpExamples

/-- Bytes arrive at once, and then the connection is polled for ever. -/
def exJunk (junk : Bytes) : Nat → ConnEvent
  | 0 => .connected true
  | 1 => .recv junk
  | _ => .input

theorem junk_upTo (junk : Bytes) (n : Nat) :
    upTo (exJunk junk) (n + 2) = [.connected true, .recv junk] ++ List.replicate n .input := by
  induction n with
  | zero => rfl
  | succ n ih =>
    rw [show n + 1 + 2 = (n + 2) + 1 by omega, upTo_succ, ih, List.replicate_succ', List.append_assoc]
    rfl

theorem junk_event (junk : Bytes) (n : Nat) : ∀ e ∈ upTo (exJunk junk) n,
    e = .connected true ∨ e = .recv junk ∨ e = .input := by
  intro e he
  rw [upTo] at he
  obtain ⟨i, -, rfl⟩ := List.mem_map.1 he
  match i with
  | 0 => exact .inl rfl
  | 1 => exact .inr (.inl rfl)
  | i + 2 => exact .inr (.inr rfl)

theorem arriving_inputs (n : Nat) : arriving (List.replicate n ConnEvent.input) = [] := by
  induction n with
  | zero => rfl
  | succ n ih => exact ih

section
variable [FloatText] [UrlText] [JsonText] [Wire]

theorem failed_stays (cfg : ServerCfg) (c : ConnState) (hc : c.phase = .failed) (k : Nat) :
    (ConnState.run cfg c (List.replicate k .input)).1.phase = .failed := by
  induction k generalizing c with
  | zero => exact hc
  | succ k ih =>
    rw [List.replicate_succ]
    simp only [ConnState.run]
    exact ih _ (by simp only [ConnState.step, hc])

/-- `C104_unread`, `C104_ends` without requests before: all the other hypotheses are met. -/
theorem junk_ends (cfg : ServerCfg) (junk : Bytes) (hbad : Wire.head junk = .bad) :
    ∃ n l, connLog cfg (upTo (exJunk junk) n) = l ++ [.warned] ∧ AllAnswered [] l := by
  have hrun : ∀ k, (ConnState.run cfg .new (upTo (exJunk junk) (k + 3))).1.phase = .failed := by
    intro k
    rw [show k + 3 = (k + 1) + 2 by omega, junk_upTo, conn_run_append]
    show (ConnState.run cfg ⟨.readHead, .other 0, junk, none⟩ (List.replicate (k + 1) .input)).1.phase = _
    rw [List.replicate_succ]
    simp only [ConnState.run, ConnState.step, ConnState.pollHead, hbad, ConnState.fail]
    exact failed_stays cfg _ rfl k
  refine C104_ends (g := fun _ _ _ _ => True) cfg (exJunk junk) [] [] junk .nil hbad
    ⟨2, ?_⟩ (fun n => ServerExamples.readsWhole_other fun e he => ?_) (fun n => ServerExamples.smooth_of fun e he => ?_)
    (by simp) fun n _ => ⟨n + 3, by omega, .inr ?_⟩
  · exact ⟨[], by simp [upTo, exJunk, arriving, List.range_succ]⟩
  · intro w rest h
    rcases junk_event junk n e he with rfl | rfl | rfl <;> cases h
  · rcases junk_event junk n e he with rfl | rfl | rfl <;> exact ⟨nofun, nofun, nofun, nofun, nofun⟩
  · rintro ⟨e, he⟩
    have := hrun n
    cases he <;> simp_all

end

section
variable [MethodNames]

theorem noRequest_of_bad {junk : Bytes} (h : readHead junk = .bad) : NoRequest junk := by
  rintro h' t ht ⟨x, rfl⟩
  rw [headText_read ht x] at h
  cases h

end

/-- `C104_http`, `C104_http_unread`, `C104_http_ends`: a first line with two words only. -/
theorem ex_hello : letI := toyMethods
    NoRequest (utf8 "GET /hello\r\n\r\n".toList) ∧ EmptyLine (utf8 "GET /hello\r\n\r\n".toList) := by
  let := toyMethods
  exact ⟨noRequest_of_bad (by rfl), ⟨utf8 "GET /hello".toList, [], by rfl⟩⟩

example (cfg : ServerCfg) : letI := toyFloat; letI := toyUrl; letI := toyJson; letI := toyMethods
    letI := httpWire
    ∃ n l, connLog cfg (upTo (exJunk (utf8 "GET /hello\r\n\r\n".toList)) n) = l ++ [.warned] ∧
      AllAnswered [] l := by
  let := toyFloat
  let := toyUrl
  let := toyJson
  let := toyMethods
  let := httpWire
  exact junk_ends cfg _ ((C104_http _ ex_hello.1).2 ex_hello.2)

/-- Bytes without an end of line fill the buffer: `C105_unfit`, `C105_unread`, `C105_ends`. -/
theorem ex_flood [MethodNames] (n : Nat) : Unfit (List.replicate n 65) := by
  intro h t ht hp _
  obtain ⟨x, hx⟩ := hp
  obtain ⟨a, b, rfl⟩ := headText_emptyLine ht
  have : (13 : UInt8) ∈ List.replicate n 65 := by
    rw [← hx]
    simp
  rw [List.mem_replicate] at this
  exact absurd this.2 (by decide)

example (cfg : ServerCfg) (n : Nat) (hn : 8096 ≤ n) :
    letI := toyFloat; letI := toyUrl; letI := toyJson; letI := toyMethods; letI := serverWire
    ∃ k l, connLog cfg (upTo (exJunk (List.replicate n 65)) k) = l ++ [.warned] ∧ AllAnswered [] l := by
  let := toyFloat
  let := toyUrl
  let := toyJson
  let := toyMethods
  let := serverWire
  have h := C105_unfit _ (ex_flood n)
  exact junk_ends cfg _ (h.2 (.inr (by rw [List.length_replicate]; exact hn)))

theorem utf8_a (n : Nat) : utf8 (List.replicate n 'a') = List.replicate n 97 := by
  induction n with
  | zero => rfl
  | succ n ih =>
    rw [List.replicate_succ, List.replicate_succ, ← ih]
    rfl

theorem ex_long_safe (n : Nat) : letI := toyFloat
    SafePart (some (HttpExamples.exHeader (List.replicate n 'a'))) := by
  let := toyFloat
  refine .struct (ex_header_fields _) fun x hx => ?_
  rw [List.mem_singleton.1 hx]
  have hm : ∀ b ∈ utf8 (List.replicate n 'a'), b = 97 := by
    rw [utf8_a]
    exact fun b hb => List.eq_of_mem_replicate hb
  refine ⟨⟨by dsimp only; decide, by dsimp only; decide⟩, ⟨?_, ?_⟩, by dsimp only; decide,
    by dsimp only; decide⟩
  · intro b hb
    rw [hm b hb]
    decide
  · intro b hb
    have : b = 97 := by
      rcases hb with hb | hb
      · exact hm b (List.mem_of_mem_head? hb)
      · exact hm b (List.mem_of_mem_getLast? hb)
    subst this
    decide

/-- `C105_client`: a request with a long header is sent, but the server has no room for it. -/
example (body more : Bytes) (n : Nat) (hn : 8096 ≤ n) : letI := toyFloat; letI := toyMethods
    ∃ r, serRequest (.other 1) exEntry (exVal (List.replicate n 'a')) body = .ok r ∧
      Unfit (writeRequest r ++ more) := by
  let := toyFloat
  let := toyMethods
  obtain ⟨h1, h2⟩ := C67_safe_request _ _ _ _ _ (ex_long_safe n) body _
    (ex_ser (List.replicate n 'a') body)
  refine ⟨_, ex_ser _ body, ((C105_client _ _ _ _ _ (ex_ser _ body) h1 h2).2 ?_ more).1⟩
  rintro ⟨h, -⟩
  rw [writeRequest, writeHead, exRequest, writeHeaders] at h
  simp only [List.length_append, List.flatMap_cons, List.length_cons, writeHeader, utf8_a, List.length_replicate] at h
  omega

/-- `C105_client`: a short one is for the server what it is for the client. -/
example : letI := toyFloat; letI := toyMethods
    FittingTexts [(⟨.other 1, (exRequest "hello world".toList [1, 2]).target,
      (exRequest "hello world".toList [1, 2]).headers⟩, [1, 2])]
      (writeRequest (exRequest "hello world".toList [1, 2])) := by
  let := toyFloat
  let := toyMethods
  obtain ⟨h1, h2⟩ := C67_safe_request _ _ _ _ _ ex_safe [1, 2] _ (ex_ser "hello world".toList [1, 2])
  exact (C105_client _ _ _ _ _ (ex_ser "hello world".toList [1, 2]) h1 h2).1
    ⟨by decide +kernel, by decide⟩

end MalformedExamples

end Htrpc
