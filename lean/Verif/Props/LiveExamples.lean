/-
Cases that meet the hypotheses of the theorems in Verif/Props/Live.lean.
-/
import Verif.Props.Live
import Verif.Props.ServerExamples

namespace Htrpc
open Spec

namespace ServerExamples
open ToyJson ToyWire

/-- What each event has to satisfy does not depend on the state here. -/
theorem smooth_of [FloatText] [UrlText] [JsonText] [Wire] {cfg : ServerCfg} {c : ConnState}
    {es : List ConnEvent} (h : ∀ e ∈ es, e ≠ .connected false ∧ e ≠ .close .failure ∧
      e ≠ .bodyFailed ∧ e ≠ .written false ∧
      ∀ v body, e = .handled v body → ∃ r, serResponse v body = .ok r) : Smooth cfg c es := by
  induction es generalizing c with
  | nil => trivial
  | cons e es ih =>
    obtain ⟨h1, h2, h3, h4, h5⟩ := h e List.mem_cons_self
    exact ⟨⟨h1, h2, h3, h4, fun v body he _ => h5 v body he⟩,
      ih fun e he => h e (List.mem_cons_of_mem _ he)⟩

theorem readsWhole_left [FloatText] [UrlText] [JsonText] [Wire] {cfg : ServerCfg} {c : ConnState}
    {es es' : List ConnEvent} {g : ReadBody} (h : ReadsWhole cfg g c (es ++ es')) :
    ReadsWhole cfg g c es := by
  induction es generalizing c with
  | nil => trivial
  | cons e es ih => exact ⟨h.1, ih h.2⟩

/-- The events of the example, and then nothing happens any more. -/
def exSchedule (n : Nat) : ConnEvent := exEvents.getD n .notReady

theorem ex_upTo (n : Nat) :
    (∃ b, exEvents = upTo exSchedule n ++ b ∧ n < 13) ∨
    ∃ k, upTo exSchedule n = exEvents ++ List.replicate k .notReady := by
  by_cases h : n < 13
  · obtain ⟨b, hb⟩ := upTo_le exSchedule (Nat.le_of_lt h)
    exact .inl ⟨b, by rw [← hb]; rfl, h⟩
  · right
    obtain ⟨k, rfl⟩ := Nat.exists_eq_add_of_le (Nat.le_of_not_lt h)
    refine ⟨k, ?_⟩
    clear h
    induction k with
    | zero => rfl
    | succ k ih =>
      rw [← Nat.add_assoc, upTo_succ, ih, List.replicate_succ', List.append_assoc]
      congr 2
      rw [exSchedule, List.getD_eq_getElem?_getD, List.getElem?_eq_none]
      · rfl
      · show 13 ≤ 13 + k
        omega

/-- The state before and after the last event. -/
theorem ex_run : letI := toyFloat; letI := toyUrl; letI := toyJson; letI := toyWire
    (ConnState.run exCfg .new (upTo exSchedule 12)).1 = ⟨.readHead, .head, [], some .eof⟩ ∧
    (ConnState.run exCfg .new exEvents).1 = ⟨.finished, .head, [], some .eof⟩ := by
  let := toyFloat
  let := toyUrl
  let := toyJson
  let := toyWire
  let rest := exBytes 0 "/nope".toList []
  have h1 := C37_call_is_answered exCfg
    ⟨.readHead, .other 0, exBytes 1 "/users/7".toList [9] ++ rest, none⟩
    (exHead (.other 1) "/users/7".toList 1) exService exVal exVal _ (9 :: rest) [9] rest
    (.unitVariant "Ok".toList) [4, 5] ⟨.ok, [contentLength [4, 5]], [4, 5]⟩ rfl rfl rfl rfl ex_call
    rfl
  obtain ⟨s, hs, h2⟩ := C37_refusal_is_answered exCfg ⟨.readHead, .other 1, rest, none⟩
    (exHead .head "/nope".toList 0) exNope _ [] [] [] rfl rfl rfl rfl ex_refuse
  have h0 : ConnState.run exCfg .new [.connected true, .input,
        .recv (exBytes 1 "/users/7".toList [9] ++ rest), .notReady] =
      (⟨.readHead, .other 0, exBytes 1 "/users/7".toList [9] ++ rest, none⟩, []) := rfl
  have e : upTo exSchedule 12 = [.connected true, .input,
        .recv (exBytes 1 "/users/7".toList [9] ++ rest), .notReady] ++
      ([.input, .bodyRead exVal rest, .handled (.unitVariant "Ok".toList) [4, 5], .written true] ++
        ([.input, .input, .written true] ++ [.close .eof])) := rfl
  have e' : exEvents = upTo exSchedule 12 ++ [.input] := rfl
  have h3 : ConnState.run exCfg ⟨.readHead, .head, [], none⟩ [.close .eof] =
      (⟨.readHead, .head, [], some .eof⟩, []) := rfl
  have h4 : (ConnState.run exCfg .new (upTo exSchedule 12)).1 =
      ⟨.readHead, .head, [], some .eof⟩ := by
    rw [e, conn_run_append, h0, conn_run_append]
    simp only [h1, conn_run_append]
    rw [show (exHead (.other 1) "/users/7".toList 1).method = .other 1 from rfl, h2,
      show (exHead .head "/nope".toList 0).method = .head from rfl]
    simp only [h3]
  refine ⟨h4, ?_⟩
  rw [e', conn_run_append, h4]
  rfl

/-- `C84_all_answered`: the example meets the hypotheses, and so do all its beginnings those of
`C84_never_stuck` that contain all the bytes. -/
example : letI := toyFloat; letI := toyUrl; letI := toyJson; letI := toyWire
    ∃ n, AllAnswered
      [(exHead (.other 1) "/users/7".toList 1, [9]), (exHead .head "/nope".toList 0, [])]
      (connLog exCfg (upTo exSchedule n)) := by
  let := toyFloat
  let := toyUrl
  let := toyJson
  let := toyWire
  refine C84_all_answered (g := fun _ v b w => v = w ∧ b = [9]) exCfg exSchedule _ _ ex_messages
    ⟨13, ?_⟩ (fun n => ?_) (fun n => smooth_of fun e he => ?_) (fun m hm => ?_)
    (fun n ⟨e, he⟩ => ?_)
  · exact ex_whole.1
  · rcases ex_upTo n with ⟨b, hb, -⟩ | ⟨k, hk⟩
    · have := ex_whole.2
      rw [hb] at this
      exact readsWhole_left this
    · rw [hk]
      refine readsWhole_append ex_whole.2 (readsWhole_other fun e he w rest h => ?_)
      rw [List.eq_of_mem_replicate he] at h
      cases h
  · rw [upTo] at he
    obtain ⟨i, -, rfl⟩ := List.mem_map.1 he
    have h : exSchedule i ∈ exEvents ∨ exSchedule i = .notReady := by
      rw [exSchedule, List.getD_eq_getElem?_getD]
      cases hi : exEvents[i]? with
      | none => exact .inr rfl
      | some e => exact .inl (List.mem_of_getElem? hi)
    rcases h with h | h
    · rw [exEvents] at h
      simp only [List.mem_cons, List.not_mem_nil, or_false] at h
      rcases h with h | h | h | h | h | h | h | h | h | h | h | h | h <;> rw [h] <;>
        refine ⟨nofun, nofun, nofun, nofun, fun v body hv => ?_⟩ <;> cases hv
      exact ⟨_, rfl⟩
    · rw [h]
      exact ⟨nofun, nofun, nofun, nofun, nofun⟩
  · simp only [List.mem_cons, List.not_mem_nil, or_false] at hm
    rintro ⟨t, ht, hs⟩
    rcases hm with rfl | rfl <;> cases ht <;> cases hs
  · rcases ex_upTo n with ⟨b, hb, hn⟩ | ⟨k, hk⟩
    · refine ⟨12, by omega, ?_⟩
      exact .inl (.head (by rw [ex_run.1]))
    · exfalso
      rw [hk, conn_run_append] at he
      have hf : ∀ k, (ConnState.run exCfg (ConnState.run exCfg .new exEvents).1
          (List.replicate k .notReady)).1.phase = .finished := by
        intro k
        rw [ex_run.2]
        induction k with
        | zero => rfl
        | succ k ih => exact ih
      have := hf k
      cases he with
      | connected h => rw [this] at h; cases h
      | head h => rw [this] at h; cases h
      | drain h => rw [this] at h; cases h
      | body h => rw [this] at h; cases h
      | handled h => rw [this] at h; cases h
      | written h => rw [this] at h; cases h

end ServerExamples

end Htrpc
