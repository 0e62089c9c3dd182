import Verif.Lemmas.Utf8
import Verif.Model.PathDe
import Verif.Spec.Path

namespace Htrpc
open Spec (latin1)

/-! ### Splitting -/

theorem splitBy_none {p : Char → Bool} {s : Str} (h : ∀ c ∈ s, p c = false) :
    splitBy p s = [s] := by
  induction s with
  | nil => rfl
  | cons c s ih =>
    simp [splitBy, h c, ih fun d hd => h d (List.mem_cons_of_mem _ hd)]

theorem splitBy_sep {p : Char → Bool} {s t : Str} {c : Char} (h : ∀ c ∈ s, p c = false)
    (hc : p c = true) : splitBy p (s ++ c :: t) = s :: splitBy p t := by
  induction s with
  | nil => simp [splitBy, hc]
  | cons d s ih =>
    simp [splitBy, h d, ih fun d hd => h d (List.mem_cons_of_mem _ hd)]

/-- Split what was joined. -/
theorem splitBy_join {p : Char → Bool} {c : Char} (hc : p c = true) {s : Str} {L : List Str}
    (hs : ∀ c ∈ s, p c = false) (hL : ∀ t ∈ L, ∀ c ∈ t, p c = false) :
    splitBy p (s ++ L.flatMap fun t => c :: t) = s :: L := by
  induction L generalizing s with
  | nil => simpa using splitBy_none hs
  | cons t L ih =>
    simp only [List.flatMap_cons, List.cons_append]
    rw [splitBy_sep hs hc, ih (hL t (List.mem_cons_self ..))
      fun u hu => hL u (List.mem_cons_of_mem _ hu)]

/-! ### Hexadecimal digits -/

theorem hexVal_hexDigit {n : Nat} (h : n < 16) : hexVal (hexDigit n) = some n := by
  have : ∀ n, n < 16 → hexVal (hexDigit n) = some n := by decide
  exact this n h

theorem hexDigit_ne_plus {n : Nat} (h : n < 16) : hexDigit n ≠ '+' := by
  have : ∀ n, n < 16 → hexDigit n ≠ '+' := by decide
  exact this n h

theorem hexDigit_alnum {n : Nat} (h : n < 16) : (hexDigit n).isAlphanum = true := by
  have : ∀ n, n < 16 → (hexDigit n).isAlphanum = true := by decide
  exact this n h

/-! ### Percent encoding -/

/-- Bytes kept by an encoder: ASCII and not the escape character. -/
def GoodKeep (keep : UInt8 → Bool) : Prop :=
  ∀ b, keep b = true → b.toNat < 0x80 ∧ b.toNat ≠ 0x25

theorem pctDecode_escape {h l : Char} {a b : Nat} {cs : Str} (ha : hexVal h = some a)
    (hb : hexVal l = some b) :
    pctDecode ('%' :: h :: l :: cs) = UInt8.ofNat (a * 16 + b) :: pctDecode cs := by
  rw [pctDecode, ha, hb]

theorem pctDecode_other {c : Char} {cs : Str} (h : c ≠ '%') :
    pctDecode (c :: cs) = utf8Char c ++ pctDecode cs := by
  rw [pctDecode]
  rintro a b d rfl
  exact absurd rfl h

theorem ofNat_byte_ne {b : UInt8} {n : Nat} (hn : n < 256) (h : b.toNat ≠ n) :
    Char.ofNat b.toNat ≠ Char.ofNat n := by
  intro e
  have := congrArg Char.toNat e
  rw [charOfByte_toNat, charOfNat_toNat (valid_of_lt (by omega))] at this
  exact h this

theorem pctDecode_pctEncode {keep : UInt8 → Bool} (hk : GoodKeep keep) (bs : Bytes) (rest : Str) :
    pctDecode (pctEncode keep bs ++ rest) = bs ++ pctDecode rest := by
  induction bs with
  | nil => rfl
  | cons b bs ih =>
    have hcons : pctEncode keep (b :: bs) =
        (if keep b then [Char.ofNat b.toNat] else pctByte b) ++ pctEncode keep bs := rfl
    rw [hcons]
    have hb := u8_lt b
    split
    · rename_i h
      simp only [List.cons_append, List.nil_append]
      rw [pctDecode_other (ofNat_byte_ne (n := 0x25) (by omega) (hk b h).2), ih,
        utf8Char_ofByte (hk b h).1]
      rfl
    · simp only [pctByte, List.cons_append, List.nil_append]
      rw [pctDecode_escape (hexVal_hexDigit (by omega)) (hexVal_hexDigit (by omega)), ih]
      congr 1
      rw [show b.toNat / 16 * 16 + b.toNat % 16 = b.toNat by omega]
      simp

theorem pctEncode_cons (keep : UInt8 → Bool) (b : UInt8) (bs : Bytes) :
    pctEncode keep (b :: bs) =
      (if keep b then [Char.ofNat b.toNat] else pctByte b) ++ pctEncode keep bs := rfl

/-- Encoding is injective. -/
theorem pctEncode_injective {keep : UInt8 → Bool} (hk : GoodKeep keep) {a b : Bytes}
    (h : pctEncode keep a = pctEncode keep b) : a = b := by
  have := pctDecode_pctEncode hk a []
  rw [h, pctDecode_pctEncode hk b []] at this
  simpa [pctDecode] using this.symm

/-- Text made of kept ASCII characters is not changed by encoding. -/
theorem pctEncode_id {keep : UInt8 → Bool} {s : Str}
    (h : ∀ c ∈ s, c.toNat < 0x80 ∧ keep (UInt8.ofNat c.toNat) = true) :
    pctEncode keep (utf8 s) = s := by
  induction s with
  | nil => rfl
  | cons c s ih =>
    have hc := h c (List.mem_cons_self ..)
    rw [utf8_cons, utf8Char_ascii hc.1, List.cons_append, List.nil_append, pctEncode_cons,
      if_pos hc.2, ih fun d hd => h d (List.mem_cons_of_mem _ hd), u8_toNat (by omega),
      Char.ofNat_toNat]
    rfl

/-- Characters of encoded text. -/
theorem mem_pctEncode {keep : UInt8 → Bool} {bs : Bytes} {c : Char} (h : c ∈ pctEncode keep bs) :
    (∃ b ∈ bs, keep b = true ∧ c = Char.ofNat b.toNat) ∨ c = '%' ∨ ∃ n < 16, c = hexDigit n := by
  induction bs with
  | nil => cases h
  | cons b bs ih =>
    rw [pctEncode_cons, List.mem_append] at h
    rcases h with h | h
    · have hb := u8_lt b
      split at h
      · rename_i hk
        simp only [List.mem_singleton] at h
        exact .inl ⟨b, List.mem_cons_self .., hk, h⟩
      · simp only [pctByte, List.mem_cons, List.not_mem_nil, or_false] at h
        rcases h with h | h | h
        · exact .inr (.inl h)
        · exact .inr (.inr ⟨_, by omega, h⟩)
        · exact .inr (.inr ⟨_, by omega, h⟩)
    · rcases ih h with ⟨x, hx, h'⟩ | h'
      · exact .inl ⟨x, List.mem_cons_of_mem _ hx, h'⟩
      · exact .inr h'

theorem percentDecode_other {c : Char} {cs : Str} (h : c ≠ '%') :
    percentDecode (c :: cs) = (percentDecode cs).map (c :: ·) := by
  rw [percentDecode.eq_def]
  simp [h]

/-- What htrpc's own `percent_decode` makes of encoded text. -/
theorem percentDecode_pctEncode {keep : UInt8 → Bool} (hk : GoodKeep keep) (bs : Bytes) :
    percentDecode (pctEncode keep bs) = some (latin1 bs) := by
  induction bs with
  | nil => rfl
  | cons b bs ih =>
    have hb := u8_lt b
    rw [pctEncode_cons]
    split
    · rename_i h
      have : Char.ofNat b.toNat ≠ '%' := ofNat_byte_ne (n := 0x25) (by omega) (hk b h).2
      rw [List.cons_append, List.nil_append, percentDecode_other this, ih]
      rfl
    · simp only [pctByte, List.cons_append, List.nil_append, percentDecode, if_true, hexPair,
        if_neg (hexDigit_ne_plus (show b.toNat / 16 < 16 by omega)),
        hexVal_hexDigit (show b.toNat / 16 < 16 by omega),
        hexVal_hexDigit (show b.toNat % 16 < 16 by omega), ih]
      rw [show b.toNat / 16 * 16 + b.toNat % 16 = b.toNat by omega]
      rfl

theorem latin1_ascii {s : Str} (h : ∀ c ∈ s, c.toNat < 0x80) : latin1 (utf8 s) = s := by
  rw [utf8_ascii h, latin1, List.map_map]
  conv => rhs; rw [← List.map_id s]
  apply List.map_congr_left
  intro c hc
  have := h c hc
  simp only [Function.comp, id]
  rw [u8_toNat (by omega), Char.ofNat_toNat]

/-! ### The encode sets -/

theorem keepPath_lt {b : UInt8} (h : keepPath b = true) : 0x21 ≤ b.toNat ∧ b.toNat < 0x7F := by
  simp only [keepPath, isGraphic, Bool.and_eq_true, decide_eq_true_eq] at h
  exact h.1

theorem keepSegment_path {b : UInt8} (h : keepSegment b = true) : keepPath b = true := by
  simp only [keepSegment, Bool.and_eq_true] at h
  exact h.1

theorem keepSegment_not {b : UInt8} (h : keepSegment b = true) :
    b.toNat ≠ 0x25 ∧ b.toNat ≠ 0x2F ∧ b.toNat ≠ 0x5C := by
  simp only [keepSegment, Bool.and_eq_true, Bool.not_eq_true'] at h
  refine ⟨?_, ?_, ?_⟩ <;>
  · intro e
    rw [e] at h
    exact absurd h.2 (by decide)

theorem goodKeep_segment : GoodKeep keepSegment := fun _ h =>
  ⟨by have := keepPath_lt (keepSegment_path h); omega, (keepSegment_not h).1⟩

theorem alnum_range {c : Char} (h : c.isAlphanum = true) :
    (48 ≤ c.toNat ∧ c.toNat ≤ 57) ∨ (65 ≤ c.toNat ∧ c.toNat ≤ 90) ∨
      (97 ≤ c.toNat ∧ c.toNat ≤ 122) := by
  simp only [Char.isAlphanum, Char.isAlpha, Char.isDigit, Char.isUpper, Char.isLower,
    Bool.or_eq_true, Bool.and_eq_true, decide_eq_true_eq] at h
  simp only [Char.toNat]
  rcases h with (⟨h1, h2⟩ | ⟨h1, h2⟩) | ⟨h1, h2⟩
  · right; left; exact ⟨UInt32.le_iff_toNat_le.1 h1, UInt32.le_iff_toNat_le.1 h2⟩
  · right; right; exact ⟨UInt32.le_iff_toNat_le.1 h1, UInt32.le_iff_toNat_le.1 h2⟩
  · left; exact ⟨UInt32.le_iff_toNat_le.1 h1, UInt32.le_iff_toNat_le.1 h2⟩

/-- A check over all ASCII codes. -/
theorem ascii_cases {P : Nat → Prop} (h : ∀ n, n < 128 → P n) {c : Char} (hc : c.toNat < 0x80) :
    P c.toNat := h _ hc

theorem keepSegment_alnum {c : Char} (h : c.isAlphanum = true) :
    c.toNat < 0x80 ∧ keepSegment (UInt8.ofNat c.toNat) = true := by
  have hr := alnum_range h
  have : ∀ n, n < 128 → ((48 ≤ n ∧ n ≤ 57) ∨ (65 ≤ n ∧ n ≤ 90) ∨ (97 ≤ n ∧ n ≤ 122)) →
      keepSegment (UInt8.ofNat n) = true := by decide
  exact ⟨by omega, this _ (by omega) hr⟩

/-- A character that may occur in an encoded path segment. -/
def SegChar (c : Char) : Prop :=
  c.toNat < 0x80 ∧ keepPath (UInt8.ofNat c.toNat) = true ∧ c ≠ '/' ∧ c ≠ '\\'

theorem segChar_pctEncode {bs : Bytes} {c : Char} (h : c ∈ pctEncode keepSegment bs) :
    SegChar c := by
  rcases mem_pctEncode h with ⟨b, -, hk, rfl⟩ | rfl | ⟨n, hn, rfl⟩
  · refine ⟨?_, ?_, ?_, ?_⟩
    · rw [charOfByte_toNat]; exact (goodKeep_segment b hk).1
    · rw [charOfByte_toNat, u8_ofNat_toNat]; exact keepSegment_path hk
    · exact ofNat_byte_ne (n := 0x2F) (by omega) (keepSegment_not hk).2.1
    · exact ofNat_byte_ne (n := 0x5C) (by omega) (keepSegment_not hk).2.2
  · exact ⟨by decide, by decide, by decide, by decide⟩
  · have ha := hexDigit_alnum hn
    have h1 := keepSegment_alnum ha
    refine ⟨h1.1, keepSegment_path h1.2, ?_, ?_⟩
    · intro e; rw [e] at ha; exact absurd ha (by decide)
    · intro e; rw [e] at ha; exact absurd ha (by decide)

theorem segChar_encodeSegment {s : Str} {c : Char} (h : c ∈ encodeSegment s) : SegChar c :=
  segChar_pctEncode h

/-- Facts about characters of encoded segments, all checked over the ASCII codes. -/
theorem SegChar.facts {c : Char} (h : SegChar c) :
    c ≠ '?' ∧ c ≠ '#' ∧ 0x21 ≤ c.toNat ∧ isTabNl c = false := by
  obtain ⟨h1, h2, -, -⟩ := h
  have hr := keepPath_lt h2
  rw [u8_toNat (by omega)] at hr
  refine ⟨?_, ?_, hr.1, ?_⟩
  · rintro rfl; exact absurd h2 (by decide)
  · rintro rfl; exact absurd h2 (by decide)
  · simp only [isTabNl, Bool.or_eq_false_iff, beq_eq_false_iff_ne]
    refine ⟨⟨?_, ?_⟩, ?_⟩ <;> rintro rfl <;> exact absurd hr.1 (by decide)

end Htrpc
