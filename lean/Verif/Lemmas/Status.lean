import Verif.Spec.Status
import Verif.Model.Status

namespace Htrpc
open Spec

theorem statusCodeToStr_table (c : Nat) (n : Str) :
    statusCodeToStr c = some n ↔ (n, c) ∈ statusTable := by
  constructor
  · intro h
    unfold statusCodeToStr at h
    split at h <;> first | cases h; done | (cases h; decide)
  · intro h
    have : ∀ x ∈ statusTable, statusCodeToStr x.2 = some x.1 := by decide
    exact this _ h

theorem ite_some {α : Type} {p : Prop} [Decidable p] {a : α} {b : Option α} {x : α}
    (h : (if p then some a else b) = some x) : (p ∧ a = x) ∨ b = some x := by
  split at h
  · next hp => exact .inl ⟨hp, Option.some.inj h⟩
  · exact .inr h

theorem statusFromStr_table (n : Str) (s : Status) :
    statusFromStr n = some s ↔ (n, s.code) ∈ statusTable := by
  constructor
  · intro h
    unfold statusFromStr at h
    iterate 57
      (replace h := ite_some h
       rcases h with ⟨rfl, rfl⟩ | h
       · decide)
    cases h
  · intro h
    rw [← statusCodeToStr_table] at h
    cases s <;> (cases h; rfl)

theorem statusOfCode_iff (c : Nat) (s : Status) : statusOfCode c = some s ↔ s.code = c := by
  constructor
  · intro h
    have := List.find?_some h
    simpa using this
  · rintro rfl
    cases s <;> rfl

end Htrpc
