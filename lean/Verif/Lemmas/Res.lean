import Verif.Model.Basic

namespace Htrpc

/-- The result is a value with `P` or an `Invalid` error; in particular not a panic. -/
def Res.Sat {α : Type} (r : Res α) (P : α → Prop) : Prop :=
  match r with
  | .ok a => P a
  | .err k => k = .invalid
  | .panic => False

namespace Res
variable {α β : Type}

@[simp] theorem sat_ok {a : α} {P : α → Prop} : Sat (.ok a) P ↔ P a := Iff.rfl
@[simp] theorem sat_invalid {P : α → Prop} : Sat (.err .invalid) P := rfl

theorem Sat.bind {r : Res α} {f : α → Res β} {P : α → Prop} {Q : β → Prop} (hr : r.Sat P)
    (hf : ∀ a, P a → (f a).Sat Q) : (r >>= f).Sat Q := by
  cases r with
  | ok a => exact hf a hr
  | err k => exact hr
  | panic => exact hr

theorem Sat.mono {r : Res α} {P Q : α → Prop} (hr : r.Sat P) (h : ∀ a, P a → Q a) : r.Sat Q := by
  cases r with
  | ok a => exact h a hr
  | err k => exact hr
  | panic => exact hr

theorem sat_check {c : Bool} : (check c).Sat fun _ => c = true := by
  cases c <;> simp

theorem sat_ofOption {o : Option α} : (ofOption o).Sat fun a => o = some a := by
  cases o <;> simp

theorem Sat.ok_or_invalid {r : Res α} {P : α → Prop} (h : r.Sat P) :
    (∃ a, r = .ok a) ∨ r = .err .invalid := by
  cases r with
  | ok a => exact .inl ⟨a, rfl⟩
  | err k => cases h; exact .inr rfl
  | panic => cases h

theorem Sat.of_ok {r : Res α} {P : α → Prop} (h : r.Sat P) {a : α} (e : r = .ok a) : P a := by
  subst e; exact h

end Res
end Htrpc
