/-
Cases that meet the hypotheses of the theorems in Verif/Props/Interim.lean.
-/
import Verif.Props.Interim
import Verif.Props.CalleeExamples
import Verif.Props.PeerExamples

namespace Htrpc
open Spec Http

namespace InterimExamples
open ToyMethods
open CalleeExamples (exText exHeaders ex_response)

attribute [local instance] toyFloat toyMethods

/-- An interim response. -/
def exContinue : Bytes := utf8 "HTTP/1.1 100 Continue\r\n\r\n".toList

theorem ex_continue : ResponseText (.other 0) 100 [] [] exContinue :=
  .full (l := utf8 "HTTP/1.1 100 Continue".toList) (hb := []) (body := []) (by decide)
    (.phrase (ds := "100".toList) (p := utf8 "Continue".toList) ⟨by decide, by decide⟩ (by decide) (by decide))
    .nil (.absent (by simp) (by simp))

theorem ex_answer : AnswerText (.other 0) [100, 404] (exContinue ++ exText) :=
  .interim ⟨by decide, by decide⟩ ex_continue (.final (fun h => absurd h.2 (by decide)) ex_response)

theorem ex_hears : hear (.other 0) (exContinue ++ exText) = [.head 100 [], .body []] :=
  hear_reads (C93_read _ _ _ _ _ _ ex_continue)

theorem ex_names {vs : List (Str × VTy)} (h : ∀ e ∈ statusTable, e.2 < 200 → vs.lookup e.1 = none) :
    FinalOnly (.enum vs) := fun _ _ hm hc => h _ hm hc.2

theorem ex_final : FinalOnly exProc.resTy := ex_names (by
  simp only [statusTable, List.forall_mem_cons]
  refine ⟨fun _ => rfl, fun _ => rfl, fun _ => rfl, ?_⟩
  simp)

/-- `C130_fails`: the answer is 404, for which there is a variant, but the call does not get it. -/
example : (callRun exProc (.new exCallArgs []) [.connected, .written, .head 100 [], .body []]).2 =
    .failed .invalid := by
  obtain ⟨r, hr⟩ := exCall_sent []
  exact C130_fails exProc (by simp [exProc, WellNamed, WellNamedVariants, WellNamedVariant]) ex_final
    exCallArgs [] r hr 100 [404] _ (by simp) ex_answer _ (by
      show _ = .connected :: .written :: hear (.other 0) (exContinue ++ exText)
      rw [ex_hears]; rfl)

/-- `C130_final`: without the interim response. -/
example (w : Val) (h : (callRun exProc (.new exCallArgs [1]) [.connected, .written, .head 404 exHeaders,
    .body (utf8 "hi".toList)]).2 = .ready w (utf8 "hi".toList)) :
    ∃ c hs text rest, exText = text ++ rest ∧
      ResponseText exProc.method c hs (utf8 "hi".toList) text ∧ ¬ Interim c ∧
      ReadsResponse c hs true exProc.resTy w :=
  C130_final exProc (by simp [exProc, WellNamed, WellNamedVariants, WellNamedVariant]) ex_final
    exCallArgs [1] exText _ (by
      show _ = .connected :: .written :: hear (.other 0) exText
      rw [CalleeExamples.ex_hears]; rfl) w _ h

/-- A procedure that can express the interim response. -/
def exTaker : Proc where
  method := .other 0
  entry := exProc.entry
  resTy := .enum [("Continue".toList, .unit), ("NotFound".toList, .unit)]

/-- `C130_taken`: the call completes with it. -/
example : ∃ w, (callRun exTaker (.new exCallArgs []) [.connected, .written, .head 100 [], .body []]).2 =
    .ready w [] := by
  obtain ⟨r, hr⟩ := exCall_sent []
  obtain ⟨⟨w, h, -⟩, -⟩ := C130_taken exTaker (by
      simp [exTaker, WellNamed, WellNamedVariants, WellNamedVariant])
    exCallArgs [] r hr 100 [] [] exContinue exText ex_continue
    ⟨.unitVariant "Continue".toList, .unit (by decide) rfl⟩
    [.connected, .written, .head 100 [], .body []] (by
      show _ = .connected :: .written :: hear (.other 0) (exContinue ++ exText)
      rw [ex_hears]; rfl)
  exact ⟨w, h⟩

open PeerExamples SystemExamples HttpExamples

/-- `C130_reused`: the first call over connection 0 has completed. -/
example : ∃ y v b, (Sys.run (exFirst ++ exSecond) (.new 3)).2.calls[0]? = some y ∧ y.st = .done v b := by
  refine C130_reused 3 (exFirst ++ exSecond) 0 0 1 0 1 (exRequest "hello world".toList [1, 2])
    (exRequest "hello world".toList []) ?_ ?_ (by decide) <;> rw [ex_both.1] <;> rfl

/-- `C130_own_answer`: both calls get their answers. -/
example : ∃ (c : Conn) (n : Nat) (r : Request) (code : Nat) (hs : List Header) (text : Bytes),
    (requestsOn (onConn c (wireLog (exFirst ++ exSecond) (.new 3))))[n]? = some (1, r) ∧
    ((fun | 0 => [exRead 4, exRead 9] | _ => [] : Conn → List Bytes) c)[n]? = some text ∧ ¬ Interim code ∧
    ResponseText exCallee.method code hs [9] text ∧ ReadsResponse code hs true exCallee.resTy exOk := by
  refine C130_own_answer 3 (exFirst ++ exSecond) exWrites (fun _ => []) ex_reads_off ?_
    (fun | 0 => [exRead 4, exRead 9] | _ => []) ?_ ?_ 1 ⟨exCallee, exA, .done exOk [9]⟩ exOk [9] ex_both.2 rfl
  · intro i y hy
    have hp : y.proc = exCallee := by
      obtain ⟨v, b, h⟩ := asked_call 3 (exFirst ++ exSecond) i y hy
      have h := List.mem_of_getElem? h
      simp [asked, exFirst, exSecond] at h
      rcases h with ⟨h, -⟩ | ⟨h, -⟩ <;> exact h
    rw [hp]
    refine ⟨⟨trivial, trivial⟩, ?_⟩
    refine ex_names ?_
    simp only [statusTable, List.forall_mem_cons]
    refine ⟨fun _ => rfl, fun _ => rfl, fun _ => rfl, ?_⟩
    simp
  · intro c
    rw [ex_both.1]
    match c with
    | 0 =>
      exact .cons ⟨[200], .final (fun h => absurd h.2 (by decide)) (ex_read 4)⟩
        (.cons ⟨[200], .final (fun h => absurd h.2 (by decide)) (ex_read 9)⟩ .nil)
    | c + 1 => exact .nil
  · intro c
    match c with
    | 0 => simp [exWrites]
    | c + 1 => simp [exWrites]

end InterimExamples

end Htrpc
