/-
What decides which acquisitions a pool rejects.
-/
import Verif.Spec.Pool
import Mathlib.Data.List.Forall2

namespace Htrpc.Spec

/-- For each acquisition in turn whether it was rejected. -/
def rejections (outs : List PoolOutput) : List Bool :=
  outs.filterMap fun | .reply r => some (decide (r = .failed)) | _ => none

/-- A history without the connections returned in it. -/
def withoutReturns (evs : List PoolEvent) : List PoolEvent :=
  evs.filter fun | .release _ _ => false | _ => true

/-- The same commands, except that the durations set for suspensions are as long or longer. -/
inductive LongerSet : List PoolEvent → List PoolEvent → Prop where
  | nil : LongerSet [] []
  | same (e : PoolEvent) {l l' : List PoolEvent} : LongerSet l l' → LongerSet (e :: l) (e :: l')
  | longer {d d' : Nat} {l l' : List PoolEvent} : d ≤ d' → LongerSet l l' →
      LongerSet (.setSuspended d :: l) (.setSuspended d' :: l')

/-- The same commands, except that failures are reported in the second list which are not reported in the first. -/
inductive MoreReports : List PoolEvent → List PoolEvent → Prop where
  | nil : MoreReports [] []
  | same (e : PoolEvent) {l l' : List PoolEvent} : MoreReports l l' → MoreReports (e :: l) (e :: l')
  | more (a : Addr) (t : Time) {l l' : List PoolEvent} : MoreReports l l' → MoreReports l (.blacklist a t :: l')

/-- Wherever the first list has `true`, the second one has it too; and they have the same length. -/
def Within (l l' : List Bool) : Prop := List.Forall₂ (fun x y => x = true → y = true) l l'

end Htrpc.Spec
