/-
A program that makes one call after another.
-/
import Verif.Spec.RealTime

namespace Htrpc.Spec.World

variable [FloatText] [UrlText] [JsonText]

/-- No call is made before the one before it has completed. -/
def OneByOne (w : World) : Prop := ∀ n j, w.Made n (j + 1) → ∃ v b, w.Completed n j v b

/-- When a call is made, the one before it has completed, or it never will: it has failed, was dropped, or
hangs. -/
def OneByOneOrFailed (w : World) : Prop :=
  ∀ n j, w.Made n (j + 1) → (∃ v b, w.Completed n j v b) ∨ ∀ m v b, ¬ w.Completed m j v b

/-- The state of an object after these operations. -/
def stateAfter {σ X Y : Type} (apply : σ → X → σ × Y) (s : σ) (xs : List X) : σ :=
  xs.foldl (fun s x => (apply s x).1) s

end Htrpc.Spec.World
