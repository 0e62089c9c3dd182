/-
Names for the methods, so that statements which assume them are not vacuous.
-/
import Verif.Lemmas.Http

namespace Htrpc.ToyMethods
open Http

/-- `HEAD`, and `X` with the number for the others. -/
def name : Method → Bytes
  | .head => utf8 "HEAD".toList
  | .other n => 88 :: utf8 (showNat n)

def ofName : Bytes → Option Method
  | 88 :: ds =>
    match (fromUtf8 ds).bind parseDigits with
    | some n => if utf8 (showNat n) = ds then some (.other n) else none
    | none => none
  | bs => if bs = utf8 "HEAD".toList then some .head else none

/-- Such names exist. -/
@[instance_reducible] def toyMethods : MethodNames where
  name := name
  ofName := ofName
  ofName_name m := by
    cases m with
    | head => decide
    | other n => simp [name, ofName, fromUtf8_utf8, parseDigits_showNat]
  name_ofName n m h := by
    unfold ofName at h
    split at h
    · split at h
      · split at h
        · rename_i hd
          cases h
          rw [name, hd]
        · cases h
      · cases h
    · split at h
      · rename_i hd
        cases h
        exact hd
      · cases h
  graphic m := by
    cases m with
    | head => decide
    | other n =>
      intro b hb
      rcases List.mem_cons.1 hb with rfl | hb
      · decide
      · exact showNat_graphic b hb

end Htrpc.ToyMethods
