import Verif.Lemmas.Utf8

namespace Htrpc

theorem showNat_ne_nil (n : Nat) : showNat n ≠ [] := by
  unfold showNat
  exact Nat.toDigits_ne_nil

theorem showNat_digits {n : Nat} {c : Char} (h : c ∈ showNat n) : c.isDigit = true :=
  Nat.isDigit_of_mem_toDigits (by omega) (by omega) h

theorem parseDigits_showNat (n : Nat) : parseDigits (showNat n) = some n := by
  unfold parseDigits
  rw [if_pos ⟨showNat_ne_nil n, List.all_eq_true.2 fun c hc => showNat_digits hc⟩]
  rw [showNat, Nat.ofDigitChars_toDigits (by omega) (by omega)]

theorem digit_ne_sign {c : Char} (h : c.isDigit = true) : c ≠ '+' ∧ c ≠ '-' := by
  constructor <;> rintro rfl <;> exact absurd h (by decide)

theorem parseInt_showInt {t : IntTy} {i : Int} (h : t.fits i = true) :
    parseInt t (showInt i) = some i := by
  cases i with
  | ofNat n =>
    have hd := parseDigits_showNat n
    cases hs : showNat n with
    | nil => exact absurd hs (showNat_ne_nil n)
    | cons c cs =>
      have hc : c.isDigit = true := showNat_digits (n := n) (by simp [hs])
      have hne := digit_ne_sign hc
      rw [hs] at hd
      simp only [showInt, hs, parseInt]
      split
      · rename_i hv
        split at hv
        · rename_i heq
          simp at heq; exact absurd heq.1 hne.1
        · rename_i heq
          simp at heq; exact absurd heq.1 hne.2
        · rw [hd] at hv
          simp only [Option.map_some, Option.some.injEq] at hv
          subst hv
          rw [if_pos h]
      · rename_i hv
        split at hv
        · rename_i heq
          simp at heq; exact absurd heq.1 hne.1
        · rename_i heq
          simp at heq; exact absurd heq.1 hne.2
        · rw [hd] at hv
          simp at hv
  | negSucc n =>
    have hsgn : t.signed = true := by
      cases t <;> first | rfl | simp [IntTy.fits, IntTy.min] at h
    simp only [showInt, parseInt, hsgn, if_true, parseDigits_showNat]
    simp only [Option.map_some]
    have : -Int.ofNat (n + 1) = Int.negSucc n := rfl
    rw [this, if_pos h]

/-- Everything the parser accepts fits the type. -/
theorem parseInt_fits {t : IntTy} {s : Str} {i : Int} (h : parseInt t s = some i) :
    t.fits i = true := by
  simp only [parseInt] at h
  split at h
  · split at h
    · cases h; assumption
    · cases h
  · cases h

theorem showNat_ascii {n : Nat} {c : Char} (h : c ∈ showNat n) : c.isAlphanum = true := by
  have := showNat_digits h
  simp [Char.isAlphanum, this]

theorem showInt_chars {i : Int} {c : Char} (h : c ∈ showInt i) :
    c.isAlphanum = true ∨ c = '-' := by
  cases i with
  | ofNat n => exact .inl (showNat_ascii h)
  | negSucc n =>
    simp only [showInt, List.mem_cons] at h
    rcases h with h | h
    · exact .inr h
    · exact .inl (showNat_ascii h)

theorem showInt_some_digit (i : Int) : ∃ c ∈ showInt i, c.isAlphanum = true := by
  have key : ∀ n, ∃ c ∈ showNat n, c.isAlphanum = true := by
    intro n
    cases hs : showNat n with
    | nil => exact absurd hs (showNat_ne_nil n)
    | cons c cs => exact ⟨c, by simp, showNat_ascii (n := n) (by simp [hs])⟩
  cases i with
  | ofNat n => exact key n
  | negSucc n =>
    obtain ⟨c, hc, h⟩ := key (n + 1)
    exact ⟨c, by simp [showInt, hc], h⟩

end Htrpc
