/-
Equality of values is decidable (`Eq` of the keys of a map).
-/
import Verif.Model.Serde

namespace Htrpc

mutual
/-- Equality of values. -/
def Val.beq : Val → Val → Bool
  | .bool a, y => match y with | .bool b => a == b | _ => false
  | .int t i, y => match y with | .int t' i' => t == t' && i == i' | _ => false
  | .f32 a, y => match y with | .f32 b => a == b | _ => false
  | .f64 a, y => match y with | .f64 b => a == b | _ => false
  | .char a, y => match y with | .char b => a == b | _ => false
  | .str a, y => match y with | .str b => a == b | _ => false
  | .bytes a, y => match y with | .bytes b => a == b | _ => false
  | .none, y => match y with | .none => true | _ => false
  | .some a, y => match y with | .some b => a.beq b | _ => false
  | .unit, y => match y with | .unit => true | _ => false
  | .unitStruct a, y => match y with | .unitStruct b => a == b | _ => false
  | .unitVariant a, y => match y with | .unitVariant b => a == b | _ => false
  | .newtypeStruct a, y => match y with | .newtypeStruct b => a.beq b | _ => false
  | .newtypeVariant n a, y => match y with | .newtypeVariant m b => n == m && a.beq b | _ => false
  | .seq a, y => match y with | .seq b => Val.beqs a b | _ => false
  | .tuple a, y => match y with | .tuple b => Val.beqs a b | _ => false
  | .tupleStruct a, y => match y with | .tupleStruct b => Val.beqs a b | _ => false
  | .tupleVariant n a, y => match y with | .tupleVariant m b => n == m && Val.beqs a b | _ => false
  | .map a, y => match y with | .map b => Val.beqMap a b | _ => false
  | .struct a, y => match y with | .struct b => Val.beqFields a b | _ => false
  | .structVariant n a, y => match y with
    | .structVariant m b => n == m && Val.beqFields a b
    | _ => false
termination_by structural x => x
/-- Element-wise. -/
def Val.beqs : List Val → List Val → Bool
  | [], y => match y with | [] => true | _ => false
  | a :: as, y => match y with | b :: bs => a.beq b && Val.beqs as bs | _ => false
termination_by structural x => x
/-- Entries of a map. -/
def Val.beqMap : List (Val × Val) → List (Val × Val) → Bool
  | [], y => match y with | [] => true | _ => false
  | (a, a') :: as, y => match y with
    | (b, b') :: bs => a.beq b && a'.beq b' && Val.beqMap as bs
    | _ => false
termination_by structural x => x
/-- Fields of a struct. -/
def Val.beqFields : List (Str × Val) → List (Str × Val) → Bool
  | [], y => match y with | [] => true | _ => false
  | (a, a') :: as, y => match y with
    | (b, b') :: bs => a == b && a'.beq b' && Val.beqFields as bs
    | _ => false
termination_by structural x => x
end

mutual
theorem Val.beq_iff : ∀ a b : Val, a.beq b = true ↔ a = b
  | .bool _, b | .int _ _, b | .f32 _, b | .f64 _, b | .char _, b | .str _, b | .bytes _, b
  | .none, b | .unit, b | .unitStruct _, b | .unitVariant _, b => by
    cases b <;> simp [beq]
  | .some a, b | .newtypeStruct a, b | .newtypeVariant _ a, b => by
    cases b <;> simp [beq, beq_iff a]
  | .seq a, b | .tuple a, b | .tupleStruct a, b | .tupleVariant _ a, b => by
    cases b <;> simp [beq, beqs_iff a]
  | .map a, b => by cases b <;> simp [beq, beqMap_iff a]
  | .struct a, b | .structVariant _ a, b => by cases b <;> simp [beq, beqFields_iff a]
theorem Val.beqs_iff : ∀ a b : List Val, Val.beqs a b = true ↔ a = b
  | [], b => by cases b <;> simp [beqs]
  | a :: as, b => by cases b <;> simp [beqs, beq_iff a, beqs_iff as]
theorem Val.beqMap_iff : ∀ a b : List (Val × Val), Val.beqMap a b = true ↔ a = b
  | [], b => by cases b <;> simp [beqMap]
  | (a, a') :: as, b => by
    rcases b with _ | ⟨⟨b, b'⟩, bs⟩ <;> simp [beqMap, beq_iff a, beq_iff a', beqMap_iff as]
theorem Val.beqFields_iff : ∀ a b : List (Str × Val), Val.beqFields a b = true ↔ a = b
  | [], b => by cases b <;> simp [beqFields]
  | (a, a') :: as, b => by
    rcases b with _ | ⟨⟨b, b'⟩, bs⟩ <;> simp [beqFields, beq_iff a', beqFields_iff as]
end

instance : DecidableEq Val := fun a b => decidable_of_iff _ (Val.beq_iff a b)

end Htrpc
