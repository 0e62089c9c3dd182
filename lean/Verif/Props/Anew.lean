/-
C145: after a response a connection is as good as new.
-/
import Verif.Spec.Anew
import Verif.Props.Consumed
import Verif.Props.ServerExamples

set_option linter.unusedSectionVars false

namespace Htrpc
open Spec

section
variable [FloatText] [UrlText] [JsonText] [Wire]

/-- The last thing observed was that a response was written. -/
def Rested (c : ConnState) (log : List ConnEffect) : Prop := log.getLast? = some .written → c.phase = .readHead

theorem rested_of_last {c : ConnState} {log effs : List ConnEffect} {e : ConnEffect} (h : effs.getLast? = some e)
    (hn : e ≠ .written) : Rested c (log ++ effs) := by
  intro hl
  rw [List.getLast?_append, h] at hl
  exact absurd (Option.some.inj hl) hn

theorem respond_last (c : ConnState) (v : Val) (b : Bytes) : ∃ e, (c.respond v b).2.getLast? = some e ∧ e ≠ .written := by
  rw [ConnState.respond]
  split
  · exact ⟨_, rfl, by simp⟩
  · exact ⟨_, rfl, by simp⟩
  · exact ⟨_, rfl, by simp⟩

theorem withBody_last (c : ConnState) (h : ReqHead) (p : ConnPhase) (hd : ReqHead) :
    ∃ e, (ConnEffect.read hd :: (c.withBody h p).2).getLast? = some e ∧ e ≠ .written := by
  rw [ConnState.withBody]
  split
  · exact ⟨.warned, rfl, by simp⟩
  · exact ⟨.read hd, rfl, by simp⟩

theorem accept_last (cfg : ServerCfg) (c : ConnState) (h : ReqHead) :
    ∃ e, (ConnEffect.read h :: (c.accept cfg h).2).getLast? = some e ∧ e ≠ .written := by
  rw [ConnState.accept]
  split
  · exact withBody_last ..
  · exact ⟨.panicked, rfl, by simp⟩
  · split
    · exact withBody_last ..
    · rw [ConnState.handle]
      split
      · exact withBody_last ..
      · exact withBody_last ..
      · exact ⟨.panicked, rfl, by simp⟩
    · exact ⟨.warned, rfl, by simp⟩
    · exact ⟨.panicked, rfl, by simp⟩

theorem last_cons {α : Type} {a e : α} {l : List α} (h : l.getLast? = some e) : (a :: l).getLast? = some e := by
  rw [List.getLast?_cons, h]
  rfl

theorem rested_step (cfg : ServerCfg) {c : ConnState} {log : List ConnEffect} (h : Rested c log) (e : ConnEvent) :
    Rested (c.step cfg e).1 (log ++ (c.step cfg e).2) := by
  have same : ∀ c' : ConnState, c'.phase = c.phase → Rested c' (log ++ []) := by
    intro c' hc hl
    rw [List.append_nil] at hl
    rw [hc]
    exact h hl
  cases e with
  | recv bs => rw [ConnState.step]; split <;> exact same _ rfl
  | close k => rw [ConnState.step]; split <;> exact same _ rfl
  | notReady => exact same _ rfl
  | connected ok =>
    rw [ConnState.step]
    split
    · split
      · intro _; rfl
      · exact rested_of_last rfl (by simp)
    · exact same _ rfl
  | input =>
    rw [ConnState.step]
    split
    · rw [ConnState.pollHead]
      split
      · obtain ⟨x, h1, h2⟩ := accept_last cfg { c with input := ‹_› } ‹_›
        exact rested_of_last h1 h2
      · exact rested_of_last rfl (by simp)
      · split
        · exact same _ rfl
        · exact rested_of_last rfl (by simp)
        · exact rested_of_last rfl (by simp)
        · exact rested_of_last rfl (by simp)
    · rw [ConnState.pollRefusing]
      split
      · exact rested_of_last rfl (by simp)
      · split
        · obtain ⟨x, h1, h2⟩ := respond_last { c with input := ‹_› } _ _
          exact rested_of_last (last_cons h1) h2
        · exact rested_of_last rfl (by simp)
        · split
          · exact same _ rfl
          · exact rested_of_last rfl (by simp)
    · exact same _ rfl
  | bodyRead w rest =>
    rw [ConnState.step]
    split
    · split
      · exact same _ rfl
      · split
        · exact rested_of_last rfl (by simp)
        · exact same _ rfl
    · exact same _ rfl
  | bodyFailed =>
    rw [ConnState.step]
    split
    · exact rested_of_last rfl (by simp)
    · exact same _ rfl
  | handled v b =>
    rw [ConnState.step]
    split
    · obtain ⟨x, h1, h2⟩ := respond_last c v b
      exact rested_of_last (last_cons h1) h2
    · exact same _ rfl
  | written ok =>
    rw [ConnState.step]
    split
    · split
      · intro _; rfl
      · exact rested_of_last rfl (by simp)
    · exact same _ rfl

theorem rested_run (cfg : ServerCfg) (es : List ConnEvent) {c : ConnState} {log : List ConnEffect} (h : Rested c log) :
    Rested (c.run cfg es).1 (log ++ (c.run cfg es).2) := by
  induction es generalizing c log with
  | nil => simpa [ConnState.run] using h
  | cons e es ih =>
    have := ih (rested_step cfg h e)
    rw [List.append_assoc] at this
    exact this

theorem closed_run (cfg : ServerCfg) (es : List ConnEvent) (c : ConnState) :
    (c.run cfg es).1.closed = c.closed.or ((ending es).head?.bind fun | .close k => some k | _ => none) := by
  induction es generalizing c with
  | nil => simp [ConnState.run, ending]
  | cons e es ih =>
    show ((c.step cfg e).1.run cfg es).1.closed = _
    rw [ih]
    cases e with
    | close k =>
      rw [ConnState.step]
      cases hc : c.closed <;> simp [ending, hc]
    | _ =>
      rw [step_closed cfg c _ (by simp)]
      rfl

/-- Between two requests it does not matter what the last request was. -/
theorem run_method (cfg : ServerCfg) (m : Method) (es : List ConnEvent) {c : ConnState} (hc : c.phase = .readHead) :
    (ConnState.run cfg { c with method := m } es).2 = (c.run cfg es).2 := by
  induction es generalizing c with
  | nil => rfl
  | cons e es ih =>
    cases e with
    | recv bs =>
      cases hcl : c.closed with
      | none =>
        have := ih (c := { c with input := c.input ++ bs }) hc
        simp only [ConnState.run, ConnState.step, hcl] at this ⊢
        exact this
      | some k =>
        have := ih hc
        simp only [ConnState.run, ConnState.step, hcl] at this ⊢
        exact this
    | close k =>
      cases hcl : c.closed with
      | none =>
        have := ih (c := { c with closed := some k }) hc
        simp only [ConnState.run, ConnState.step, hcl] at this ⊢
        exact this
      | some k' =>
        have := ih hc
        simp only [ConnState.run, ConnState.step, hcl] at this ⊢
        exact this
    | input =>
      cases hw : Wire.head c.input with
      | done h rest =>
        simp only [ConnState.run, ConnState.step, hc, ConnState.pollHead, hw]
        rfl
      | bad =>
        simp only [ConnState.run, ConnState.step, hc, ConnState.pollHead, hw, ConnState.fail]
        rw [run_ended cfg (.inr (.inl rfl)), run_ended cfg (.inr (.inl rfl))]
      | more =>
        cases hcl : c.closed with
        | none =>
          have := ih hc
          simp only [ConnState.run, ConnState.step, hc, ConnState.pollHead, hw, hcl] at this ⊢
          exact this
        | some k =>
          cases k with
          | failure =>
            simp only [ConnState.run, ConnState.step, hc, ConnState.pollHead, hw, hcl, ConnState.fail]
            rw [run_ended cfg (.inr (.inl rfl)), run_ended cfg (.inr (.inl rfl))]
          | _ =>
            simp only [ConnState.run, ConnState.step, hc, ConnState.pollHead, hw, hcl]
            rw [run_ended cfg (.inl rfl), run_ended cfg (.inl rfl)]
    | _ =>
      have := ih hc
      simp only [ConnState.run, ConnState.step, hc] at this ⊢
      exact this

theorem closed_new (cfg : ServerCfg) (rest : Bytes) (es : List ConnEvent) :
    ConnState.run cfg .new (.connected true :: .recv rest :: ending es) =
      (⟨.readHead, .other 0, rest, (ending es).head?.bind fun | .close k => some k | _ => none⟩, []) := by
  induction es with
  | nil => rfl
  | cons e es ih =>
    cases e with
    | close k => rfl
    | _ => exact ih

/-- **C145.** When a response has been written, the connection is as good as new: everything that happens on it from
then on happens in the same way on a new connection on which those bytes have arrived that have arrived here and have
not been read, and which has been closed if this one has. -/
theorem C145_anew [CutWire] (cfg : ServerCfg) (es : List ConnEvent) (hw : (connLog cfg es).getLast? = some .written) :
    ∃ used rest, arriving es = used ++ rest ∧
      (∀ later l, Consumed l (rest ++ later) → Consumed (received (connLog cfg es) ++ l) (used ++ (rest ++ later))) ∧
      ∀ es', connLog cfg (es ++ es') =
        connLog cfg es ++ connLog cfg (.connected true :: .recv rest :: (ending es ++ es')) := by
  have hph : (ConnState.run cfg .new es).1.phase = .readHead := by
    have : Rested (.new : ConnState) [] := fun h => by cases h
    exact rested_run cfg es this hw
  have h0 : ReadSoFar (.new : ConnState) [] [] :=
    ⟨[], rfl, fun later l' hl => by simpa [received, ConnState.new] using hl⟩
  have h1 := readSoFar_run (cfg := cfg) es h0
  have hcl := closed_run cfg es .new
  rw [connLog] at *
  generalize hx : ConnState.run cfg .new es = x at *
  obtain ⟨c, l⟩ := x
  have h2 : ∃ used, [] ++ toCome .new es [] = used ++ c.input ∧ EndsAt (received ([] ++ l)) used c.input := by
    refine (readSoFar_between ?_).1 h1
    exact .inr (.inl hph)
  obtain ⟨used, h3, h4⟩ := h2
  refine ⟨used, c.input, by simpa [toCome, ConnState.new] using h3, h4, ?_⟩
  intro es'
  rw [connLog, connLog, conn_run_append, hx, ← List.cons_append, ← List.cons_append, conn_run_append, closed_new]
  simp only [List.nil_append]
  congr 1
  have e : (⟨.readHead, .other 0, c.input, (ending es).head?.bind fun | .close k => some k | _ => none⟩ : ConnState) =
      { c with method := .other 0 } := by
    rw [← hph]
    simp only [ConnState.new, Option.none_or] at hcl
    rw [← hcl]
  rw [e]
  exact (run_method cfg _ es' hph).symm

end

namespace AnewExamples
open ServerExamples ToyJson ToyWire Http

/-- A request is answered; a second one, for `HEAD /nope`, has arrived with it. -/
def first : List ConnEvent := exEvents.take 8

/-- This meets the hypothesis of `C145_anew`. -/
theorem ex_written : letI := toyFloat; letI := toyUrl; letI := toyJson; letI := toyWire
    (connLog exCfg first).length = 5 ∧ ((connLog exCfg first).getLast?.map fun | .written => true | _ => false) = some true := by
  decide +kernel

/-- What follows is what a new connection makes of the second request. -/
example : letI := toyFloat; letI := toyUrl; letI := toyJson; letI := toyWire
    (connLog exCfg (first ++ [.input, .input])).length =
      5 + (connLog exCfg [.connected true, .recv (exBytes 0 "/nope".toList []), .input, .input]).length ∧
    (connLog exCfg [.connected true, .recv (exBytes 0 "/nope".toList []), .input, .input]).length = 3 := by
  decide +kernel

/-- For HTTP. -/
example [FloatText] [UrlText] [JsonText] [MethodNames] (cfg : ServerCfg) (es : List ConnEvent) : letI := httpWire
    (connLog cfg es).getLast? = some .written → ∃ rest, rest <:+ arriving es ∧ ∀ es', connLog cfg (es ++ es') =
      connLog cfg es ++ connLog cfg (.connected true :: .recv rest :: (ending es ++ es')) := by
  let := httpWire
  have := cutWire
  intro hw
  obtain ⟨used, rest, h1, -, h2⟩ := C145_anew cfg es hw
  exact ⟨rest, ⟨used, h1.symm⟩, h2⟩

end AnewExamples

end Htrpc
