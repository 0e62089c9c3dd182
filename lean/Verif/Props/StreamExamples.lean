/-
Cases that meet the hypotheses of the theorems in Verif/Props/Stream.lean.
-/
import Verif.Props.Stream
import Verif.Props.MalformedExamples
import Verif.Props.InteropExamples

namespace Htrpc
open Spec Http

namespace StreamExamples
open ToyJson ToyMethods
open HttpExamples MalformedExamples

def exText (v : String) : Bytes :=
  utf8 ("X1 /a HTTP/1.1\r\nContent-Length: ".toList ++ v.toList ++ "\r\n\r\n".toList)

def exHead (v : String) : ReqHead :=
  ⟨.other 1, "/a".toList, [(utf8 "Content-Length".toList, utf8 v.toList)]⟩

theorem ex_head : letI := toyMethods
    HeadText (exHead "abc") (exText "abc") := by
  let := toyMethods
  refine .intro (m := .other 1) (hb := utf8 "Content-Length: abc\r\n".toList) ⟨by decide, by decide⟩ ?_
  exact .cons (a := [32]) (b := []) ⟨by decide, by decide⟩
    (InteropExamples.ex_value rfl rfl (by decide) (by decide) (by decide)) (by unfold Blanks; decide)
    (by unfold Blanks; decide) .nil

theorem ex_head3 : letI := toyMethods
    HeadText (exHead "3") (exText "3") := by
  let := toyMethods
  refine .intro (m := .other 1) (hb := utf8 "Content-Length: 3\r\n".toList) ⟨by decide, by decide⟩ ?_
  exact .cons (a := [32]) (b := []) ⟨by decide, by decide⟩
    (InteropExamples.ex_value rfl rfl (by decide) (by decide) (by decide)) (by unfold Blanks; decide)
    (by unfold Blanks; decide) .nil

theorem ex_length3 : BodyLength (exHead "3").headers 3 :=
  .given (a := []) (ds := "3".toList) (by decide) rfl (by decide) (by decide) ⟨by decide, by decide⟩

theorem ex_ascii {v : String} : AsciiNames (exHead v).headers := by
  intro h hh b hb
  rw [List.mem_singleton.1 hh] at hb
  dsimp only at hb
  revert b
  decide

theorem ex_undelimited (n : Nat) : ¬ BodyLength (exHead "abc").headers n := by
  intro hn
  obtain ⟨f, hf, -⟩ := (readBody_iff ex_ascii).1 n hn
  have : readBody (exHead "abc").headers = none := by rfl
  rw [this] at hf
  cases hf

/-- `C106_splits`: a complete request, and then a head that does not say where its body ends. -/
example : letI := toyMethods
    Splits (exText "3" ++ [1, 2, 3] ++ (exText "abc" ++ [4, 5])) [(exHead "3", [1, 2, 3])]
      (.undelimited (exHead "abc")) := by
  let := toyMethods
  refine ⟨exText "3" ++ [1, 2, 3], _, rfl, ?_, .undelimited ex_head ⟨by decide, by decide⟩ ex_undelimited⟩
  have := FittingTexts.cons ex_head3 (b := [1, 2, 3]) ⟨by decide, by decide⟩ ex_length3 .nil
  rwa [List.append_nil] at this

/-- `C106_splits`: a request with a body that is cut off. -/
theorem ex_part : letI := toyMethods
    Splits (exText "3" ++ [1, 2]) [] (.part (exHead "3")) := by
  let := toyMethods
  exact ⟨[], _, rfl, .nil, .part ex_head3 ⟨by decide, by decide⟩ ex_length3 (by decide)⟩

theorem junk_arriving (junk : Bytes) (n : Nat) : arriving (upTo (exJunk junk) n) <+: junk := by
  match n with
  | 0 => exact ⟨junk, rfl⟩
  | 1 => exact ⟨junk, rfl⟩
  | n + 2 =>
    rw [junk_upTo]
    show junk ++ arriving (List.replicate n .input) <+: junk
    rw [arriving_inputs, List.append_nil]
    exact List.prefix_refl _

/-- `C106_whatever_arrives`: nothing is answered, and no more than the head is read. -/
example (cfg : ServerCfg) (n : Nat) : letI := toyFloat; letI := toyUrl; letI := toyJson; letI := toyMethods
    letI := serverWire
    answers (connLog cfg (upTo (exJunk (exText "3" ++ [1, 2])) n)) = [] ∧
      (received (connLog cfg (upTo (exJunk (exText "3" ++ [1, 2])) n)) = [] ∨
        received (connLog cfg (upTo (exJunk (exText "3" ++ [1, 2])) n)) =
          [(exHead "3", .pending)]) := by
  let := toyFloat
  let := toyUrl
  let := toyJson
  let := toyMethods
  let := serverWire
  obtain ⟨seen, r, h1, h2, h3, h4⟩ := C106_whatever_arrives cfg (fun _ _ _ _ => True) _ _ _ _ ex_part
    (junk_arriving _ n) (ServerExamples.readsWhole_other fun e he w rest h => by
      rcases junk_event _ n e he with rfl | rfl | rfl <;> cases h)
  have h5 := List.prefix_nil.1 h1
  subst h5
  cases h2
  refine ⟨List.length_eq_zero_iff.1 (Nat.le_zero.1 h3), ?_⟩
  rcases h4 with h4 | ⟨-, h, h4, h5⟩
  · exact .inl h4
  · rcases h4 with h4 | h4 <;> cases h4
    exact .inr h5

theorem panicked_stays [FloatText] [UrlText] [JsonText] [Wire] (cfg : ServerCfg) (c : ConnState)
    (hc : c.phase = .panicked) (k : Nat) :
    (ConnState.run cfg c (List.replicate k .input)).1.phase = .panicked := by
  induction k generalizing c with
  | zero => exact hc
  | succ k ih =>
    rw [List.replicate_succ]
    simp only [ConnState.run]
    exact ih _ (by simp only [ConnState.step, hc])

/-- `C106_ends`: the connection ends after the head. -/
example (cfg : ServerCfg) : letI := toyFloat; letI := toyUrl; letI := toyJson; letI := toyMethods
    letI := serverWire
    ¬ Pathless cfg (exHead "abc") → ∃ n l, connLog cfg (upTo (exJunk (exText "abc")) n) =
      l ++ [.read (exHead "abc"), .warned] ∧ AllAnswered [] l := by
  let := toyFloat
  let := toyUrl
  let := toyJson
  let := toyMethods
  let := serverWire
  intro hp
  obtain ⟨h1, h2⟩ := undelimited_read ex_head ⟨by decide, by decide⟩ ex_undelimited []
  rw [List.append_nil] at h1
  have hend : ∀ k, (ConnState.run cfg .new (upTo (exJunk (exText "abc")) (k + 3))).1.phase = .failed ∨
      (ConnState.run cfg .new (upTo (exJunk (exText "abc")) (k + 3))).1.phase = .panicked := by
    intro k
    rw [show k + 3 = (k + 1) + 2 by omega, junk_upTo, conn_run_append]
    show (ConnState.run cfg ⟨.readHead, .other 0, exText "abc", none⟩ (List.replicate (k + 1) .input)).1.phase = _ ∨
      (ConnState.run cfg ⟨.readHead, .other 0, exText "abc", none⟩ (List.replicate (k + 1) .input)).1.phase = _
    rw [List.replicate_succ]
    simp only [ConnState.run, ConnState.step, ConnState.pollHead, h1]
    rcases accept_undelimited cfg _ h2 with h3 | h3
    · exact .inl (failed_stays cfg _ h3.1 k)
    · exact .inr (panicked_stays cfg _ h3.1 k)
  refine (C106_ends cfg (fun _ _ _ _ => True) (exJunk (exText "abc")) (exText "abc") [] (.undelimited (exHead "abc"))
    ⟨[], exText "abc", rfl, .nil, ?_⟩ (by simp) ⟨2, ?_⟩ (fun n => ServerExamples.readsWhole_other fun e he => ?_)
    (fun n => ServerExamples.smooth_of fun e he => ?_) fun n _ => ⟨n + 3, by omega, .inr ?_⟩).2.2 _ rfl hp
  · have := Remains.undelimited (bs := []) ex_head ⟨by decide, by decide⟩ ex_undelimited
    rwa [List.append_nil] at this
  · exact ⟨[], by simp [upTo, exJunk, arriving, List.range_succ]⟩
  · intro w rest h
    rcases junk_event _ n e he with rfl | rfl | rfl <;> cases h
  · rcases junk_event _ n e he with rfl | rfl | rfl <;> exact ⟨nofun, nofun, nofun, nofun, nofun⟩
  · rintro ⟨e, he⟩
    rcases hend n with h | h
    · cases he <;> simp_all
    · cases he <;> simp_all

end StreamExamples

end Htrpc
