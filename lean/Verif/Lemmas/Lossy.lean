/-
UTF-8 with replacement characters, and the parameters of queries.
-/
import Verif.Spec.Form
import Verif.Lemmas.Utf8
import Verif.Lemmas.PathRead

namespace Htrpc
open Spec

theorem two_bytes {b0 b1 : UInt8} (h0 : 0xC0 ≤ b0.toNat) (h0' : b0.toNat < 0xE0)
    (hc1 : isCont b1 = true) {n : Nat} (hN : (b0.toNat - 0xC0) * 64 + contVal b1 = n)
    (hn : 0x80 ≤ n) : utf8Char (Char.ofNat n) = [b0, b1] := by
  have hb : ∀ {b : UInt8} {n : Nat}, b.toNat = n → UInt8.ofNat n = b := by
    intro b n hn; rw [← hn]; exact u8_ofNat_toNat b
  rw [isCont_iff] at hc1
  have e1 : contVal b1 = b1.toNat - 0x80 := rfl
  rw [e1] at hN
  rw [utf8Char, charOfNat_toNat (valid_of_lt (by omega))]
  rw [if_neg (by omega), if_pos (by omega), hb (b := b0) (by omega), hb (b := b1) (by omega)]

theorem three_bytes {b0 b1 b2 : UInt8} (h0 : 0xE0 ≤ b0.toNat) (h0' : b0.toNat < 0xF0)
    (hc1 : isCont b1 = true) (hc2 : isCont b2 = true) {n : Nat}
    (hN : (b0.toNat - 0xE0) * 4096 + contVal b1 * 64 + contVal b2 = n)
    (hn : 0x800 ≤ n) (hv : n.isValidChar) : utf8Char (Char.ofNat n) = [b0, b1, b2] := by
  have hb : ∀ {b : UInt8} {n : Nat}, b.toNat = n → UInt8.ofNat n = b := by
    intro b n hn; rw [← hn]; exact u8_ofNat_toNat b
  rw [isCont_iff] at hc1 hc2
  have e1 : contVal b1 = b1.toNat - 0x80 := rfl
  have e2 : contVal b2 = b2.toNat - 0x80 := rfl
  rw [e1, e2] at hN
  rw [utf8Char, charOfNat_toNat hv]
  rw [if_neg (by omega), if_neg (by omega), if_pos (by omega), hb (b := b0) (by omega),
    hb (b := b1) (by omega), hb (b := b2) (by omega)]

theorem four_bytes {b0 b1 b2 b3 : UInt8} (h0 : 0xF0 ≤ b0.toNat) (h0' : b0.toNat < 0xF8)
    (hc1 : isCont b1 = true) (hc2 : isCont b2 = true) (hc3 : isCont b3 = true) {n : Nat}
    (hN : (b0.toNat - 0xF0) * 262144 + contVal b1 * 4096 + contVal b2 * 64 + contVal b3 = n)
    (hn : 0x10000 ≤ n) (hv : n.isValidChar) : utf8Char (Char.ofNat n) = [b0, b1, b2, b3] := by
  have hb : ∀ {b : UInt8} {n : Nat}, b.toNat = n → UInt8.ofNat n = b := by
    intro b n hn; rw [← hn]; exact u8_ofNat_toNat b
  rw [isCont_iff] at hc1 hc2 hc3
  have e1 : contVal b1 = b1.toNat - 0x80 := rfl
  have e2 : contVal b2 = b2.toNat - 0x80 := rfl
  have e3 : contVal b3 = b3.toNat - 0x80 := rfl
  rw [e1, e2, e3] at hN
  rw [utf8Char, charOfNat_toNat hv]
  rw [if_neg (by omega), if_neg (by omega), if_neg (by omega), hb (b := b0) (by omega),
    hb (b := b1) (by omega), hb (b := b2) (by omega), hb (b := b3) (by omega)]

/-- What is read as a character is the UTF-8 form of it. -/
theorem utf8Next_some {bs : Bytes} {c : Char} {rest : Bytes} (h : utf8Next bs = some (c, rest)) :
    bs = utf8Char c ++ rest := by
  unfold utf8Next at h
  split at h
  · cases h
  · rename_i b0 r0
    dsimp only at h
    split at h
    · rename_i h1
      obtain ⟨rfl, rfl⟩ := Prod.mk.inj (Option.some.inj h)
      rw [utf8Char_ofByte h1]; rfl
    · split at h
      · cases h
      · split at h
        · split at h
          · split at h
            · rename_i h1 h2 _ _ _ hc
              generalize hN : (b0.toNat - 0xC0) * 64 + contVal _ = n at h hc
              obtain ⟨rfl, rfl⟩ := Prod.mk.inj (Option.some.inj h)
              rw [two_bytes (by omega) h2 hc.1 hN hc.2]; rfl
            · cases h
          · cases h
        · split at h
          · split at h
            · split at h
              · rename_i h1 h2 _ _ _ _ hc
                generalize hN : (b0.toNat - 0xE0) * 4096 + contVal _ * 64 + contVal _ = n at h hc
                obtain ⟨rfl, rfl⟩ := Prod.mk.inj (Option.some.inj h)
                rw [three_bytes (by omega) h2 hc.1 hc.2.1 hN hc.2.2.1 hc.2.2.2]; rfl
              · cases h
            · cases h
          · split at h
            · split at h
              · split at h
                · rename_i h1 h2 _ _ _ _ _ hc
                  generalize hN : (b0.toNat - 0xF0) * 262144 + contVal _ * 4096 + contVal _ * 64 +
                    contVal _ = n at h hc
                  obtain ⟨rfl, rfl⟩ := Prod.mk.inj (Option.some.inj h)
                  rw [four_bytes (by omega) h2 hc.1 hc.2.1 hc.2.2.1 hN hc.2.2.2.1 hc.2.2.2.2]; rfl
                · cases h
              · cases h
            · cases h

theorem utf8_one (c : Char) : utf8 [c] = utf8Char c := by simp [utf8]

theorem utf8Next_none {bs : Bytes} : utf8Next bs = none ↔ ∀ c, ¬ utf8 [c] <+: bs := by
  constructor
  · rintro h c ⟨rest, rfl⟩
    rw [utf8_one, utf8Next_utf8Char] at h
    cases h
  · intro h
    cases hn : utf8Next bs with
    | none => rfl
    | some x =>
      obtain ⟨c, rest⟩ := x
      exact absurd ⟨rest, by rw [utf8_one]; exact (utf8Next_some hn).symm⟩ (h c)

theorem secondOk_iff {b0 b1 : UInt8} : secondOk b0 b1 = true ↔
    (b0.toNat = 0xE0 ∧ 0xA0 ≤ b1.toNat ∧ b1.toNat < 0xC0) ∨
    (b0.toNat = 0xED ∧ 0x80 ≤ b1.toNat ∧ b1.toNat < 0xA0) ∨
    (b0.toNat = 0xF0 ∧ 0x90 ≤ b1.toNat ∧ b1.toNat < 0xC0) ∨
    (b0.toNat = 0xF4 ∧ 0x80 ≤ b1.toNat ∧ b1.toNat < 0x90) ∨
    (b0.toNat ≠ 0xE0 ∧ b0.toNat ≠ 0xED ∧ b0.toNat ≠ 0xF0 ∧ 0xC2 ≤ b0.toNat ∧ b0.toNat < 0xF4 ∧
      0x80 ≤ b1.toNat ∧ b1.toNat < 0xC0) := by
  simp only [secondOk]
  split
  · simp; omega
  · split
    · simp; omega
    · split
      · simp; omega
      · split
        · simp; omega
        · simp [isCont]; omega

theorem charOfNat_valid {n : Nat} (h : n < 0xD800 ∨ 0xDFFF < n ∧ n < 0x110000) :
    (Char.ofNat n).toNat = n := charOfNat_toNat h

/-- Two bytes that begin a longer character. -/
theorem unfinished_two {b0 b1 : UInt8} :
    Unfinished [b0, b1] ↔ 0xE0 ≤ b0.toNat ∧ secondOk b0 b1 = true := by
  rw [secondOk_iff]
  have h0 := u8_lt b0
  have h1 := u8_lt b1
  constructor
  · rintro ⟨c, hp, hne⟩
    rw [utf8_one] at hp hne
    have hc := Char.toNat_lt c
    have hv := Char.valid_nat c
    simp only [Nat.isValidChar] at hv
    have hne' : (utf8Char c).length ≠ 2 := fun hl => hne (hp.eq_of_length (by rw [hl]; rfl))
    simp only [utf8Char] at hp hne'
    split at hp
    · have := hp.length_le; simp at this
    · split at hp
      · rename_i h1 h2
        rw [if_neg h1, if_pos h2] at hne'
        simp at hne'
      · split at hp
        · simp only [List.cons_prefix_cons] at hp
          obtain ⟨rfl, rfl, -⟩ := hp
          rw [u8_toNat (by omega), u8_toNat (by omega)]
          omega
        · simp only [List.cons_prefix_cons] at hp
          obtain ⟨rfl, rfl, -⟩ := hp
          rw [u8_toNat (by omega), u8_toNat (by omega)]
          omega
  · rintro ⟨hge, h⟩
    have hb : ∀ {b : UInt8} {n : Nat}, b.toNat = n → UInt8.ofNat n = b := by
      intro b n hn; rw [← hn]; exact u8_ofNat_toNat b
    by_cases h4 : b0.toNat < 0xF0
    · refine ⟨Char.ofNat ((b0.toNat - 0xE0) * 4096 + (b1.toNat - 0x80) * 64), ?_⟩
      rw [utf8_one, utf8Char, charOfNat_valid (by omega)]
      rw [if_neg (by omega), if_neg (by omega), if_pos (by omega), hb (b := b0) (by omega),
        hb (b := b1) (by omega)]
      exact ⟨⟨[_], rfl⟩, fun h => by simp at h⟩
    · refine ⟨Char.ofNat ((b0.toNat - 0xF0) * 262144 + (b1.toNat - 0x80) * 4096), ?_⟩
      rw [utf8_one, utf8Char, charOfNat_valid (by omega)]
      rw [if_neg (by omega), if_neg (by omega), if_neg (by omega), hb (b := b0) (by omega),
        hb (b := b1) (by omega)]
      exact ⟨⟨[_, _], rfl⟩, fun h => by simp at h⟩

/-- Three bytes that begin a longer character. -/
theorem unfinished_three {b0 b1 b2 : UInt8} :
    Unfinished [b0, b1, b2] ↔ 0xF0 ≤ b0.toNat ∧ secondOk b0 b1 = true ∧ isCont b2 = true := by
  rw [secondOk_iff, isCont_iff]
  have h0 := u8_lt b0
  have h1 := u8_lt b1
  have h2 := u8_lt b2
  constructor
  · rintro ⟨c, hp, hne⟩
    rw [utf8_one] at hp hne
    have hc := Char.toNat_lt c
    have hv := Char.valid_nat c
    simp only [Nat.isValidChar] at hv
    have hne' : (utf8Char c).length ≠ 3 := fun hl => hne (hp.eq_of_length (by rw [hl]; rfl))
    simp only [utf8Char] at hp hne'
    split at hp
    · have := hp.length_le; simp at this
    · split at hp
      · have := hp.length_le; simp at this
      · split at hp
        · rename_i h1 h2 h3
          rw [if_neg h1, if_neg h2, if_pos h3] at hne'
          simp at hne'
        · simp only [List.cons_prefix_cons] at hp
          obtain ⟨rfl, rfl, rfl, -⟩ := hp
          rw [u8_toNat (by omega), u8_toNat (by omega), u8_toNat (by omega)]
          omega
  · rintro ⟨hge, h, h'⟩
    have hb : ∀ {b : UInt8} {n : Nat}, b.toNat = n → UInt8.ofNat n = b := by
      intro b n hn; rw [← hn]; exact u8_ofNat_toNat b
    refine ⟨Char.ofNat ((b0.toNat - 0xF0) * 262144 + (b1.toNat - 0x80) * 4096 +
      (b2.toNat - 0x80) * 64), ?_⟩
    rw [utf8_one, utf8Char, charOfNat_valid (by omega)]
    rw [if_neg (by omega), if_neg (by omega), if_neg (by omega), hb (b := b0) (by omega),
      hb (b := b1) (by omega), hb (b := b2) (by omega)]
    exact ⟨⟨[_], rfl⟩, fun h => by simp at h⟩

theorem unfinished_length {p : Bytes} (h : Unfinished p) : p.length ≤ 3 := by
  obtain ⟨c, hp, hne⟩ := h
  have h1 := hp.length_le
  have h2 : (utf8 [c]).length ≤ 4 := by
    rw [utf8_one, utf8Char]
    split
    · simp
    · split
      · simp
      · split <;> simp
  rcases Nat.lt_or_ge p.length (utf8 [c]).length with h | h
  · omega
  · exact absurd (hp.eq_of_length (by omega)) hne

/-- What is replaced where no character begins. -/
theorem illFormed_badLen {b : UInt8} {bs : Bytes} (h : utf8Next (b :: bs) = none) :
    ∃ p rest, b :: bs = p ++ rest ∧ rest = (b :: bs).drop (badLen (b :: bs)) ∧ IllFormed p rest := by
  have hno := utf8Next_none.1 h
  -- longer beginnings, up to the longest possible
  have key : ∀ p rest, b :: bs = p ++ rest → p ≠ [] → (p.length = 1 ∨ Unfinished p) →
      (∀ x, p.length < 2 → b :: bs = x → ∀ b1 r, bs = b1 :: r → ¬ Unfinished [b, b1]) →
      (p.length < 3 → ∀ b1 b2 r, bs = b1 :: b2 :: r → ¬ Unfinished [b, b1, b2]) →
      IllFormed p rest := by
    intro p rest he hp hu h2 h3
    refine ⟨hp, by rw [← he]; exact hno, hu, ?_⟩
    rw [← he]
    intro p' hp' hl hun
    have h4 := unfinished_length hun
    have hpos := List.length_pos_iff.2 hp
    match p', hp', hl, hun, h4 with
    | [], _, hl, _, _ => simp at hl
    | [_], _, hl, _, _ => simp at hl; exact hp hl
    | [x, y], ⟨r, hr⟩, hl, hun, _ =>
      simp only [List.cons_append, List.nil_append, List.cons.injEq] at hr
      obtain ⟨rfl, hr⟩ := hr
      exact h2 _ hl rfl y r hr.symm hun
    | [x, y, z], ⟨r, hr⟩, hl, hun, _ =>
      simp only [List.cons_append, List.nil_append, List.cons.injEq] at hr
      obtain ⟨rfl, hr⟩ := hr
      exact h3 hl y z r hr.symm hun
    | _ :: _ :: _ :: _ :: _, _, _, _, h4 => simp at h4
  have hthree : ∀ {x y z}, Unfinished [x, y, z] → Unfinished [x, y] := by
    rintro x y z hu
    rw [unfinished_three] at hu
    rw [unfinished_two]
    exact ⟨by omega, hu.2.1⟩
  match bs with
  | [] =>
    refine ⟨[b], [], rfl, rfl, key _ _ rfl (by simp) (.inl rfl) ?_ ?_⟩
    · intro _ _ _ _ _ h; cases h
    · intro _ _ _ _ h; cases h
  | b1 :: r =>
    by_cases hs : 0xE0 ≤ b.toNat ∧ secondOk b b1 = true
    · have hu2 := unfinished_two.2 hs
      by_cases hf : 0xF0 ≤ b.toNat
      · match r with
        | [] =>
          refine ⟨[b, b1], [], rfl, ?_, key _ _ rfl (by simp) (.inr hu2) ?_ ?_⟩
          · simp only [badLen]
            rw [if_pos hs, if_pos hf]; rfl
          · intro _ h; simp at h
          · intro _ _ _ _ h; cases h
        | b2 :: r =>
          by_cases hc : isCont b2 = true
          · refine ⟨[b, b1, b2], r, rfl, ?_, key _ _ rfl (by simp)
              (.inr (unfinished_three.2 ⟨hf, hs.2, hc⟩)) ?_ ?_⟩
            · simp only [badLen]
              rw [if_pos hs, if_pos hf, if_pos hc]; rfl
            · intro _ h; simp at h
            · intro h; simp at h
          · refine ⟨[b, b1], b2 :: r, rfl, ?_, key _ _ rfl (by simp) (.inr hu2) ?_ ?_⟩
            · simp only [badLen]
              rw [if_pos hs, if_pos hf, if_neg hc]; rfl
            · intro _ h; simp at h
            · intro _ x y r' h hu
              cases h
              exact hc (unfinished_three.1 hu).2.2
      · refine ⟨[b, b1], r, rfl, ?_, key _ _ rfl (by simp) (.inr hu2) ?_ ?_⟩
        · simp only [badLen]
          rw [if_pos hs, if_neg hf]; rfl
        · intro _ h; simp at h
        · intro _ x y r' h hu
          exact hf (unfinished_three.1 hu).1
    · refine ⟨[b], b1 :: r, rfl, ?_, key _ _ rfl (by simp) (.inl rfl) ?_ ?_⟩
      · simp only [badLen]
        rw [if_neg hs]; rfl
      · intro _ _ _ x r' h hu
        cases h
        exact hs (unfinished_two.1 hu)
      · intro _ x y r' h hu
        cases h
        exact hs (unfinished_two.1 (hthree hu))

/-- The text of bytes exists. -/
theorem lossy_utf8Lossy (bs : Bytes) : Lossy bs (utf8Lossy bs) := by
  rw [utf8Lossy]
  suffices h : ∀ k bs, bs.length ≤ k → Lossy bs (utf8LossyAux k bs) from h _ _ (Nat.le_refl _)
  intro k
  induction k with
  | zero =>
    intro bs h
    rw [List.eq_nil_of_length_eq_zero (Nat.le_zero.1 h)]
    exact .nil
  | succ k ih =>
    intro bs h
    match bs with
    | [] => exact .nil
    | b :: bs =>
      rw [utf8LossyAux]
      split
      · rename_i c rest hn
        have he := utf8Next_some hn
        have hl := List.length_pos_iff.2 (utf8Char_ne_nil c)
        rw [he, ← utf8_one]
        refine .char (ih _ ?_)
        rw [he, List.length_append] at h
        omega
      · rename_i hn
        obtain ⟨p, rest, he, hr, hi⟩ := illFormed_badLen hn
        have hl := List.length_pos_iff.2 hi.some
        rw [← hr]
        conv => arg 1; rw [he]
        refine .ill hi (ih _ ?_)
        rw [he, List.length_append] at h
        omega

theorem Spec.IllFormed.unique {p rest p' rest' : Bytes} (h : IllFormed p rest) (h' : IllFormed p' rest')
    (he : p ++ rest = p' ++ rest') : p = p' ∧ rest = rest' := by
  have hlen : p.length = p'.length := by
    rcases Nat.lt_trichotomy p.length p'.length with hl | hl | hl
    · have hu := h.most p' ⟨rest', he.symm⟩ hl
      rcases h'.part with h1 | h1
      · have := List.length_pos_iff.2 h.some; omega
      · exact absurd h1 hu
    · exact hl
    · have hu := h'.most p ⟨rest, he⟩ hl
      rcases h.part with h1 | h1
      · have := List.length_pos_iff.2 h'.some; omega
      · exact absurd h1 hu
  exact List.append_inj he hlen

theorem utf8_append_inj {c d : Char} {x y : Bytes} (h : utf8 [c] ++ x = utf8 [d] ++ y) :
    c = d ∧ x = y := by
  rw [utf8_one, utf8_one] at h
  have h1 := utf8Next_utf8Char c x
  rw [h, utf8Next_utf8Char] at h1
  cases h1
  exact ⟨rfl, rfl⟩

theorem Spec.Lossy.unique {bs : Bytes} {s t : Str} (h : Lossy bs s) (h' : Lossy bs t) : s = t := by
  induction h generalizing t with
  | nil =>
    generalize hb : ([] : Bytes) = bs at h'
    cases h' with
    | nil => rfl
    | char => rw [utf8_one] at hb; simp [utf8Char_ne_nil] at hb
    | ill hi => simp [hi.some] at hb
  | @char c bs s _ ih =>
    generalize hb : utf8 [c] ++ bs = x at h'
    cases h' with
    | nil => rw [utf8_one] at hb; simp [utf8Char_ne_nil] at hb
    | char h' =>
      obtain ⟨rfl, rfl⟩ := utf8_append_inj hb
      rw [ih h']
    | ill hi h' => exact absurd ⟨_, hb⟩ (hi.noChar c)
  | @ill p bs s hi _ ih =>
    generalize hb : p ++ bs = x at h'
    cases h' with
    | nil => simp [hi.some] at hb
    | @char d y _ h' => exact absurd ⟨_, hb.symm⟩ (hi.noChar d)
    | ill hi' h' =>
      obtain ⟨rfl, rfl⟩ := hi.unique hi' hb
      rw [ih h']

theorem lossy_iff {bs : Bytes} {s : Str} : Lossy bs s ↔ utf8Lossy bs = s :=
  ⟨fun h => (lossy_utf8Lossy bs).unique h, fun h => h ▸ lossy_utf8Lossy bs⟩

end Htrpc
