/-
Cases that meet the hypotheses of the theorems in Verif/Props/Expect.lean.
-/
import Verif.Props.Expect
import Verif.Props.StreamExamples

namespace Htrpc
open Spec Http

namespace ExpectExamples
open ToyJson ToyMethods
open MalformedExamples StreamExamples

/-- `C133_standstill`: the head and a part of the body have been sent, the rest is held back. -/
example (cfg : ServerCfg) (n : Nat) : letI := toyFloat; letI := toyUrl; letI := toyJson; letI := toyMethods
    letI := serverWire
    (answers (connLog cfg (upTo (exJunk (exText "3" ++ [1, 2])) n))).length ≤ 0 := by
  let := toyFloat
  let := toyUrl
  let := toyJson
  let := toyMethods
  let := serverWire
  refine (C133_standstill cfg (fun _ _ _ _ => True) _ _ _ _ ex_part ?_
    (ServerExamples.readsWhole_other fun e he w rest h => by
      rcases junk_event _ n e he with rfl | rfl | rfl <;> cases h)).2.1
  intro l e l' he hn
  refine absurd ?_ hn
  have h := junk_arriving (exText "3" ++ [1, 2]) n
  rw [he, List.append_cons] at h
  exact (arriving_prefix _ _).trans h

end ExpectExamples

end Htrpc
