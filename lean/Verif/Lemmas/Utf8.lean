import Verif.Model.Text
import Mathlib.Logic.Basic
import Mathlib.Tactic.ByContra

namespace Htrpc

theorem Char.toNat_lt (c : Char) : c.toNat < 0x110000 := by
  have := c.valid
  simp only [UInt32.isValidChar, Nat.isValidChar] at this
  simp only [Char.toNat]
  omega

theorem Char.valid_nat (c : Char) : c.toNat.isValidChar := c.valid

theorem u8_toNat {n : Nat} (h : n < 256) : (UInt8.ofNat n).toNat = n := by
  simp; omega

theorem u8_ofNat_toNat (b : UInt8) : UInt8.ofNat b.toNat = b := by simp

theorem charOfNat_toNat {n : Nat} (h : n.isValidChar) : (Char.ofNat n).toNat = n := by
  rw [Char.ofNat, dif_pos h]; rfl

theorem toNat_inj {a b : Char} (h : a.toNat = b.toNat) : a = b := by
  rw [← Char.ofNat_toNat a, h, Char.ofNat_toNat]

theorem valid_of_lt {n : Nat} (h : n < 0xD800) : n.isValidChar := Or.inl h

theorem u8_lt (b : UInt8) : b.toNat < 256 := b.toNat_lt

theorem charOfByte_toNat (b : UInt8) : (Char.ofNat b.toNat).toNat = b.toNat :=
  charOfNat_toNat (valid_of_lt (by have := u8_lt b; omega))

theorem utf8Char_ascii {c : Char} (h : c.toNat < 0x80) : utf8Char c = [UInt8.ofNat c.toNat] := by
  simp [utf8Char, h]

theorem utf8Char_ofByte {b : UInt8} (h : b.toNat < 0x80) : utf8Char (Char.ofNat b.toNat) = [b] := by
  rw [utf8Char_ascii (by rw [charOfByte_toNat]; exact h), charOfByte_toNat, u8_ofNat_toNat]

/-- Bytes below 0x80 only encode themselves. -/
theorem mem_utf8Char_ascii {c : Char} {b : UInt8} (hb : b ∈ utf8Char c) (h : b.toNat < 0x80) :
    c = Char.ofNat b.toNat := by
  have hc := Char.toNat_lt c
  simp only [utf8Char] at hb
  split at hb
  · simp only [List.mem_singleton] at hb
    rw [hb, u8_toNat (by omega), Char.ofNat_toNat]
  · exfalso
    split at hb
    · simp only [List.mem_cons, List.not_mem_nil, or_false] at hb
      rcases hb with rfl | rfl <;> rw [u8_toNat (by omega)] at h <;> omega
    · split at hb
      · simp only [List.mem_cons, List.not_mem_nil, or_false] at hb
        rcases hb with rfl | rfl | rfl <;> rw [u8_toNat (by omega)] at h <;> omega
      · simp only [List.mem_cons, List.not_mem_nil, or_false] at hb
        rcases hb with rfl | rfl | rfl | rfl <;> rw [u8_toNat (by omega)] at h <;> omega

theorem utf8Char_ne_nil (c : Char) : utf8Char c ≠ [] := by
  simp only [utf8Char]
  split
  · simp
  · split
    · simp
    · split <;> simp

@[simp] theorem utf8_nil : utf8 [] = [] := rfl
@[simp] theorem utf8_cons (c : Char) (s : Str) : utf8 (c :: s) = utf8Char c ++ utf8 s := rfl
theorem utf8_append (s t : Str) : utf8 (s ++ t) = utf8 s ++ utf8 t := by simp [utf8]

theorem isCont_iff {b : UInt8} : isCont b = true ↔ 0x80 ≤ b.toNat ∧ b.toNat < 0xC0 := by
  simp [isCont]

theorem utf8Next_one {b0 : UInt8} {r : Bytes} (h : b0.toNat < 0x80) :
    utf8Next (b0 :: r) = some (Char.ofNat b0.toNat, r) := by
  simp only [utf8Next]
  rw [if_pos h]

theorem cont_ofNat {x : Nat} (h : x < 64) :
    isCont (UInt8.ofNat (0x80 + x)) = true ∧ contVal (UInt8.ofNat (0x80 + x)) = x := by
  have := u8_toNat (n := 0x80 + x) (by omega)
  refine ⟨isCont_iff.2 ?_, ?_⟩
  · omega
  · unfold contVal
    omega

theorem utf8Next_two {x y n : Nat} {r : Bytes} (hx : x < 32) (hy : y < 64) (hn : 0x80 ≤ n)
    (e : x * 64 + y = n) :
    utf8Next (UInt8.ofNat (0xC0 + x) :: UInt8.ofNat (0x80 + y) :: r) = some (Char.ofNat n, r) := by
  have h0 := u8_toNat (n := 0xC0 + x) (by omega)
  have h1 := cont_ofNat hy
  have e' : (0xC0 + x - 0xC0) * 64 + y = n := by
    have : 0xC0 + x - 0xC0 = x := by omega
    rw [this, e]
  simp only [utf8Next, h0, h1.2, e']
  rw [if_neg (by omega), if_neg (by omega), if_pos (by omega), if_pos ⟨h1.1, hn⟩]

theorem utf8Next_three {x y z n : Nat} {r : Bytes} (hx : x < 16) (hy : y < 64) (hz : z < 64)
    (hn : 0x800 ≤ n) (hv : n.isValidChar) (e : x * 4096 + y * 64 + z = n) :
    utf8Next (UInt8.ofNat (0xE0 + x) :: UInt8.ofNat (0x80 + y) :: UInt8.ofNat (0x80 + z) :: r) =
      some (Char.ofNat n, r) := by
  have h0 := u8_toNat (n := 0xE0 + x) (by omega)
  have h1 := cont_ofNat hy
  have h2 := cont_ofNat hz
  have e' : (0xE0 + x - 0xE0) * 4096 + y * 64 + z = n := by
    have : 0xE0 + x - 0xE0 = x := by omega
    rw [this, e]
  simp only [utf8Next, h0, h1.2, h2.2, e']
  rw [if_neg (by omega), if_neg (by omega), if_neg (by omega), if_pos (by omega),
    if_pos ⟨h1.1, h2.1, hn, hv⟩]

theorem utf8Next_four {x y z w n : Nat} {r : Bytes} (hx : x < 8) (hy : y < 64) (hz : z < 64)
    (hw : w < 64) (hn : 0x10000 ≤ n) (hv : n.isValidChar)
    (e : x * 262144 + y * 4096 + z * 64 + w = n) :
    utf8Next (UInt8.ofNat (0xF0 + x) :: UInt8.ofNat (0x80 + y) :: UInt8.ofNat (0x80 + z) ::
      UInt8.ofNat (0x80 + w) :: r) = some (Char.ofNat n, r) := by
  have h0 := u8_toNat (n := 0xF0 + x) (by omega)
  have h1 := cont_ofNat hy
  have h2 := cont_ofNat hz
  have h3 := cont_ofNat hw
  have e' : (0xF0 + x - 0xF0) * 262144 + y * 4096 + z * 64 + w = n := by
    have : 0xF0 + x - 0xF0 = x := by omega
    rw [this, e]
  simp only [utf8Next, h0, h1.2, h2.2, h3.2, e']
  rw [if_neg (by omega), if_neg (by omega), if_neg (by omega), if_neg (by omega),
    if_pos (by omega), if_pos ⟨h1.1, h2.1, h3.1, hn, hv⟩]

theorem utf8Next_utf8Char (c : Char) (rest : Bytes) :
    utf8Next (utf8Char c ++ rest) = some (c, rest) := by
  have hc := Char.toNat_lt c
  have hv := Char.valid_nat c
  have hof := Char.ofNat_toNat c
  generalize hn : c.toNat = n at *
  simp only [utf8Char, hn]
  subst hof
  clear hn
  split
  · rename_i h1
    have h := u8_toNat (n := n) (by omega)
    have := utf8Next_one (b0 := UInt8.ofNat n) (r := rest) (by rw [h]; exact h1)
    rw [h] at this
    exact this
  · split
    · exact utf8Next_two (by omega) (by omega) (by omega) (by omega)
    · split
      · exact utf8Next_three (by omega) (by omega) (by omega) (by omega) hv (by omega)
      · exact utf8Next_four (by omega) (by omega) (by omega) (by omega) (by omega) hv (by omega)

theorem fromUtf8Aux_utf8 (s : Str) (k : Nat) (h : s.length ≤ k) :
    fromUtf8Aux k (utf8 s) = some s := by
  induction s generalizing k with
  | nil => cases k <;> rfl
  | cons c s ih =>
    cases k with
    | zero => simp at h
    | succ k =>
      have hne := utf8Char_ne_nil c
      rw [utf8_cons]
      have hx := utf8Next_utf8Char c (utf8 s)
      cases hu : utf8Char c ++ utf8 s with
      | nil => simp [hne] at hu
      | cons b bs =>
        rw [hu] at hx
        simp only [fromUtf8Aux, hx]
        rw [ih k (by simpa using h)]; rfl

theorem length_le_utf8 (s : Str) : s.length ≤ (utf8 s).length := by
  induction s with
  | nil => simp
  | cons c s ih =>
    have := List.length_pos_iff.2 (utf8Char_ne_nil c)
    simp only [utf8_cons, List.length_append, List.length_cons]; omega

/-- Decoding the UTF-8 encoding of a text gives the text back. -/
theorem fromUtf8_utf8 (s : Str) : fromUtf8 (utf8 s) = some s :=
  fromUtf8Aux_utf8 s _ (length_le_utf8 s)

theorem utf8LossyAux_utf8 (s : Str) (k : Nat) (h : s.length ≤ k) :
    utf8LossyAux k (utf8 s) = s := by
  induction s generalizing k with
  | nil => cases k <;> rfl
  | cons c s ih =>
    cases k with
    | zero => simp at h
    | succ k =>
      have hne := utf8Char_ne_nil c
      rw [utf8_cons]
      have hx := utf8Next_utf8Char c (utf8 s)
      cases hu : utf8Char c ++ utf8 s with
      | nil => simp [hne] at hu
      | cons b bs =>
        rw [hu] at hx
        simp only [utf8LossyAux, hx]
        rw [ih k (by simpa using h)]

theorem utf8Lossy_utf8 (s : Str) : utf8Lossy (utf8 s) = s :=
  utf8LossyAux_utf8 s _ (length_le_utf8 s)

theorem utf8_injective {s t : Str} (h : utf8 s = utf8 t) : s = t := by
  have := fromUtf8_utf8 s
  rw [h, fromUtf8_utf8] at this
  simpa using this.symm

/-- The UTF-8 bytes of an ASCII text are its character codes. -/
theorem utf8_ascii {s : Str} (h : ∀ c ∈ s, c.toNat < 0x80) :
    utf8 s = s.map fun c => UInt8.ofNat c.toNat := by
  induction s with
  | nil => rfl
  | cons c s ih =>
    rw [utf8_cons, utf8Char_ascii (h c (List.mem_cons_self ..)),
      ih fun d hd => h d (List.mem_cons_of_mem _ hd)]
    rfl

end Htrpc
