/-
C133: clients that wait for the server before they send the body of a request.
-/
import Verif.Spec.Expect
import Verif.Props.Stream
import Verif.Props.Live

namespace Htrpc
open Spec Http

/-- What holds of all events holds of the first ones. -/
theorem wholly_read [FloatText] [UrlText] [JsonText] [Wire] {cfg : ServerCfg} {c : ConnState}
    {es es' : List ConnEvent} {g : ReadBody} (h : ReadsWhole cfg g c (es ++ es')) : ReadsWhole cfg g c es := by
  induction es generalizing c with
  | nil => trivial
  | cons e es ih => exact ⟨h.1, ih h.2⟩

section
variable [LawfulFloatText] [UrlText] [JsonText] [MethodNames]

/-- **C133.** If a client holds back a part of the body of a request until the server says something, then
neither of them ever goes on. -/
theorem C133_standstill (cfg : ServerCfg) (g : ReadBody) (es : List ConnEvent) (sent : Bytes)
    (ms : List (ReqHead × Bytes)) (h : ReqHead) (hk : Splits sent ms (.part h)) :
    letI := serverWire
    HoldsBack cfg sent ms.length es → ReadsWhole cfg g .new es →
    arriving es <+: sent ∧ (answers (connLog cfg es)).length ≤ ms.length ∧
      ∃ seen r, seen <+: ms ∧ List.Forall₂ (SameRequest g) r seen ∧
        (received (connLog cfg es) = r ∨ received (connLog cfg es) = r ++ [(h, .pending)]) := by
  let := serverWire
  intro hold hw
  have harr : arriving es <+: sent := by
    induction es using List.reverseRecOn with
    | nil => exact List.nil_prefix
    | append_singleton es e ih =>
      have hw' : ReadsWhole cfg g .new es := wholly_read hw
      have h1 := ih (fun l e' l' he => hold l e' (l' ++ [e]) (by rw [he]; simp)) hw'
      by_contra hc
      have h2 := hold es e [] rfl hc
      obtain ⟨seen, r, h3, -, h4, -⟩ := C106_whatever_arrives cfg g es sent ms _ hk h1 hw'
      exact Nat.lt_irrefl _ (Nat.lt_of_lt_of_le h2 (Nat.le_trans h4 h3.length_le))
  obtain ⟨seen, r, h1, h2, h3, h4⟩ := C106_whatever_arrives cfg g es sent ms _ hk harr hw
  refine ⟨harr, Nat.le_trans h3 h1.length_le, seen, r, h1, h2, ?_⟩
  rcases h4 with h4 | ⟨-, h', hk', h5⟩
  · exact .inl h4
  · rcases hk' with hk' | hk' <;> cases hk'
    exact .inr h5

end

end Htrpc
