/-
Cases that meet the hypotheses of the theorems in Verif/Props/ProblemCall.lean.
-/
import Verif.Props.InteropExamples
import Verif.Props.ProblemCall

namespace Htrpc
open Spec Http

namespace ProblemCallExamples
open ToyJson ToyMethods
open HttpExamples (exCfg exService)
open InteropExamples (exText exHead ex_message ex_call ex_start)

attribute [local instance] toyFloat toyUrl toyJson toyMethods httpWire

/-- A problem in a variant whose name does not fit. -/
def exReturned (x : Problem) : Val := .newtypeVariant "Ok".toList (ProblemResponse.ofProblem x).toVal

def exBody (x : Problem) : Bytes := (ProblemResponse.ofProblem x).bodyBytes

/-- The request of `InteropExamples` arrives and is answered with the problem. -/
def exEvents (x : Problem) : List ConnEvent :=
  [.connected true, .recv exText] ++
  [.input, .bodyRead InteropExamples.exVal [], .handled (exReturned x) (exBody x), .written true]

def exAnswer (x : Problem) : Response := ⟨.notFound,
  [(utf8 "content-type".toList, utf8 "application/problem+json".toList), contentLength (exBody x)], exBody x⟩

theorem ex_sent (x : Problem) (hx : x.statusCode = 404) :
    serResponse (exReturned x) (exBody x) = .ok (exAnswer x) := by
  rw [serResponse, exReturned, RespSer.ser]
  exact serResponse_problem _ rfl (by show (404 : Nat) = x.statusCode.toNat; rw [hx]; rfl)

theorem ex_run (x : Problem) (hx : x.statusCode = 404) :
    (ConnState.run exCfg .new (exEvents x)).2 =
      [.read exHead, .invoked exService InteropExamples.exVal InteropExamples.exVal,
       .returned (exReturned x) (exBody x), .answer (exAnswer x), .written] := by
  obtain ⟨f, h1, h2, h3⟩ := ex_message
  have hrun := C37_call_is_answered exCfg ⟨.readHead, .other 0, exText, none⟩ _ _ _
    InteropExamples.exVal f _ _ _ (exReturned x) (exBody x) (exAnswer x) rfl h1 h2 h3 ex_call (ex_sent x hx)
  rw [exEvents, conn_run_append, ex_start]
  simp only [hrun]
  rfl

theorem ex_block (x : Problem) (hx : x.statusCode = 404) :
    (exHead, [.invoked exService InteropExamples.exVal InteropExamples.exVal,
       .returned (exReturned x) (exBody x), .answer (exAnswer x), .written]) ∈
      blocks (connLog exCfg (exEvents x)) := by
  have hl : connLog exCfg (exEvents x) = _ := ex_run x hx
  rw [hl]
  simp [blocks, isRead, isFinal]

/-- `C120_returned`: a problem with status 404 arrives in the variant `NotFound`, although the handler has
returned it as `Ok`; without such a variant the call fails. -/
example (x : Problem) (hx : x.statusCode = 404) (more v : Bytes) (args : Val) (r : Request) (p : Proc)
    (hm : p.method = .other 1) (hr : serRequest p.method p.entry args v = .ok r) (rs : List IoResult)
    (hrs : rs.filter Happened = .connected :: .written ::
      hear p.method (writeResponse [] (exAnswer x) ++ more)) :
    (p.resTy = .enum [("NotFound".toList, .newtype ProblemResponse.ty)] →
      (callRun p (.new args v) rs).2 =
        .ready (.newtypeVariant "NotFound".toList (ProblemResponse.toVal ⟨none, x⟩)) (exBody x)) ∧
    (p.resTy = .enum [("Ok".toList, .newtype ProblemResponse.ty)] →
      (callRun p (.new args v) rs).2 = .failed .invalid) := by
  have key := fun vs hty => C120_returned exCfg (exEvents x) exHead _ (ex_block x hx) x "Ok".toList
    (by simp [returned, exReturned, exBody]) (exAnswer x) (by simp [answers]) p hm vs hty [] (by simp) more
    args v r hr rs hrs
  have hname : ∀ n, (n, x.statusCode.toNat) ∈ statusTable → n = "NotFound".toList := by
    intro n hn
    rw [hx] at hn
    have h1 := (statusCodeToStr_table _ _).2 hn
    exact (Option.some.inj h1).symm
  constructor
  · intro hty
    obtain ⟨n, h1, -, h3, -⟩ := key _ hty
    cases hname n h1
    rw [(h3 rfl).1, hm]
    rfl
  · intro hty
    obtain ⟨n, h1, -, -, h4⟩ := key _ hty
    cases hname n h1
    exact h4 rfl

/-- `C120_bare`: a client that expects the problem itself gets nothing. -/
example (e : EntryPoint) (args : Val) (v : Bytes) (rs : List IoResult) (w : Val) (b : Bytes) :
    (callRun ⟨.other 1, e, ProblemResponse.ty⟩ (.new args v) rs).2 ≠ .ready w b :=
  C120_bare _ rfl args v rs w b

end ProblemCallExamples

end Htrpc
