import Verif.Lemmas.Text

namespace Htrpc

/-- A float text satisfying the contract (bit patterns in decimal), to show that the hypothesis
`LawfulFloatText` of the round trip theorems can be met. -/
@[instance_reducible] def toyFloat : LawfulFloatText where
  show64 x := showNat x.toNat
  parse64 s := (parseDigits s).map UInt64.ofNat
  parse32 s := (parseDigits s).map UInt32.ofNat
  widen x := x.toUInt64
  ofNat64 := UInt64.ofNat
  ofNat32 := UInt32.ofNat
  parse64_show64 x _ := by rw [parseDigits_showNat]; simp
  parse32_show64 x _ := by rw [parseDigits_showNat]; simp
  parse64_nan x y h hy := by rw [parseDigits_showNat] at hy; simp at hy; exact hy ▸ h
  parse32_nan x y h hy := by rw [parseDigits_showNat] at hy; simp at hy; exact hy ▸ h
  show64_alnum x c h := .inl (showNat_ascii h)
  show64_some_alnum x := showInt_some_digit (.ofNat x.toNat)

end Htrpc
