/-
The reader of JSON texts follows the grammar.
-/
import Verif.Spec.JsonGrammar
import Verif.Lemmas.JsonText
import Verif.Props.Decode

namespace Htrpc.JsonCodec
open Spec

/-! ### Strings -/

theorem hexDigit_iff {c : Char} {n : Nat} : hexDigit c = some n ↔ IsHex c n := by
  constructor
  · intro h
    have named {m : Nat} (h : c.toNat = m) : c = Char.ofNat m := by rw [← h]; simp
    have dig : ∀ k : Fin 10, IsHex (Char.ofNat (48 + k)) k := by unfold IsHex; decide
    have low : ∀ k : Fin 6, IsHex (Char.ofNat (97 + k)) (10 + k) := by unfold IsHex; decide
    have up : ∀ k : Fin 6, IsHex (Char.ofNat (65 + k)) (10 + k) := by unfold IsHex; decide
    unfold hexDigit at h
    split at h
    · rename_i hc
      have h1 : 48 ≤ c.toNat := hc.1
      have h2 : c.toNat ≤ 57 := hc.2
      cases h
      have := dig ⟨c.toNat - 48, by omega⟩
      rwa [show (48 + (⟨c.toNat - 48, by omega⟩ : Fin 10).1) = c.toNat from by simp; omega, ← named rfl] at this
    · split at h
      · rename_i hc
        have h1 : 97 ≤ c.toNat := hc.1
        have h2 : c.toNat ≤ 102 := hc.2
        cases h
        have := low ⟨c.toNat - 97, by omega⟩
        rw [show (97 + (⟨c.toNat - 97, by omega⟩ : Fin 6).1) = c.toNat from by simp; omega, ← named rfl] at this
        rwa [show (10 + (⟨c.toNat - 97, by omega⟩ : Fin 6).1) = c.toNat - 87 from by simp; omega] at this
      · split at h
        · rename_i hc
          have h1 : 65 ≤ c.toNat := hc.1
          have h2 : c.toNat ≤ 70 := hc.2
          cases h
          have := up ⟨c.toNat - 65, by omega⟩
          rw [show (65 + (⟨c.toNat - 65, by omega⟩ : Fin 6).1) = c.toNat from by simp; omega, ← named rfl] at this
          rwa [show (10 + (⟨c.toNat - 65, by omega⟩ : Fin 6).1) = c.toNat - 55 from by simp; omega] at this
        · cases h
  · have low : ∀ k : Fin 16, hexDigit ("0123456789abcdef".toList[k.1]'k.2) = some k.1 := by decide
    have up : ∀ k : Fin 16, hexDigit ("0123456789ABCDEF".toList[k.1]'k.2) = some k.1 := by decide
    rintro (h | h)
    · obtain ⟨h1, rfl⟩ := List.getElem?_eq_some_iff.1 h
      exact low ⟨n, h1⟩
    · obtain ⟨h1, rfl⟩ := List.getElem?_eq_some_iff.1 h
      exact up ⟨n, h1⟩

theorem hex4_iff {a b c d : Char} {n : Nat} : hex4 a b c d = some n ↔ IsHex4 [a, b, c, d] n := by
  constructor
  · intro h
    simp only [hex4, Option.bind_eq_bind, Option.bind_eq_some_iff, hexDigit_iff] at h
    obtain ⟨k, h1, l, h2, m, h3, o, h4, h5⟩ := h
    cases h5
    have := IsHex4.mk h1 h2 h3 h4
    rwa [show 16 * (16 * (16 * k + l) + m) + o = k * 4096 + l * 256 + m * 16 + o by omega] at this
  · rintro ⟨h1, h2, h3, h4⟩
    rw [← hexDigit_iff] at h1 h2 h3 h4
    simp only [hex4, h1, h2, h3, h4, Option.bind_eq_bind, Option.bind_some, Option.some.injEq]
    omega

theorem char_range (c : Char) : c.toNat < 0xD800 ∨ 0xDFFF < c.toNat ∧ c.toNat < 0x110000 := by
  have h := c.valid
  exact h

theorem string_char {s : Str} {c : Char} (h : CharText s c) (r : Str) :
    string (s ++ r) = push c (string r) := by
  cases h with
  | plain h1 h2 h3 =>
    rw [List.singleton_append, string.eq_def]
    simp only
    rw [if_neg h2, if_neg (by omega), if_neg h3]
  | short h =>
    simp only [List.mem_cons, Prod.mk.injEq, List.not_mem_nil, or_false] at h
    rcases h with ⟨rfl, rfl⟩ | ⟨rfl, rfl⟩ | ⟨rfl, rfl⟩ | ⟨rfl, rfl⟩ | ⟨rfl, rfl⟩ | ⟨rfl, rfl⟩ | ⟨rfl, rfl⟩ |
      ⟨rfl, rfl⟩ <;> (simp only [List.cons_append, List.nil_append]; conv => lhs; unfold string) <;> simp
  | @code s _ h =>
    have hr := char_range c
    generalize hn : c.toNat = n at h
    cases h with
    | mk h1 h2 h3 h4 =>
    have h := hex4_iff.2 (.mk h1 h2 h3 h4)
    rw [← hn] at h
    simp only [List.cons_append, List.nil_append]
    conv => lhs; unfold string
    simp only [Char.reduceEq, if_false, if_true, Char.reduceToNat, Nat.reduceLT, h]
    rw [if_neg (by omega), if_neg (by omega)]
    simp
  | @pair s t hi lo _ h1 h2 h3 h4 h5 =>
    generalize hx : 0xD800 + hi = x at h1
    generalize hy : 0xDC00 + lo = y at h3
    cases h1 with
    | mk a1 a2 a3 a4 =>
    cases h3 with
    | mk b1 b2 b3 b4 =>
    have h1 := hex4_iff.2 (.mk a1 a2 a3 a4)
    have h3 := hex4_iff.2 (.mk b1 b2 b3 b4)
    rw [← hx] at h1
    rw [← hy] at h3
    simp only [List.cons_append, List.nil_append]
    conv => lhs; unfold string
    simp only [Char.reduceEq, if_false, if_true, Char.reduceToNat, Nat.reduceLT, h1, h3]
    rw [if_pos (by omega), if_pos (by omega)]
    rw [show 65536 + (55296 + hi - 55296) * 1024 + (56320 + lo - 56320) = c.toNat by omega]
    simp

theorem string_sound_char {c : Char} {r x : Str} {y : Str}
    (h : push c (string r) = some (x, y)) : ∃ xs, x = c :: xs ∧ string r = some (xs, y) := by
  unfold push at h
  obtain ⟨⟨a, b⟩, h1, h2⟩ := Option.map_eq_some_iff.1 h
  cases h2
  exact ⟨a, rfl, h1⟩

theorem string_complete {t s : Str} (h : StringText t s) (r : Str) :
    string (t ++ '"' :: r) = some (s, r) := by
  induction h with
  | nil => rw [List.nil_append, string.eq_def]; rfl
  | cons h1 _ ih => rw [List.append_assoc, string_char h1, ih]; rfl

theorem ofNat_toNat {n : Nat} (h : n < 0xD800 ∨ 0xDFFF < n ∧ n < 0x110000) : (Char.ofNat n).toNat = n := by
  have hv : n.isValidChar := h
  unfold Char.ofNat
  rw [dif_pos hv]
  rfl

theorem isHex_lt {c : Char} {n : Nat} (h : IsHex c n) : n < 16 := by
  rcases h with h | h
  · exact (List.getElem?_eq_some_iff.1 h).1
  · exact (List.getElem?_eq_some_iff.1 h).1

theorem isHex4_lt {s : Str} {n : Nat} (h : IsHex4 s n) : n < 65536 := by
  obtain ⟨h1, h2, h3, h4⟩ := h
  have := isHex_lt h1
  have := isHex_lt h2
  have := isHex_lt h3
  have := isHex_lt h4
  omega

theorem string_sound (n : Nat) : ∀ {s x r : Str}, s.length ≤ n → string s = some (x, r) →
    ∃ t, s = t ++ '"' :: r ∧ StringText t x := by
  induction n with
  | zero =>
    intro s x r hn h
    cases s with
    | nil => rw [string.eq_def] at h; cases h
    | cons _ _ => simp at hn
  | succ n ih =>
    have step : ∀ {u s c x r}, CharText u c → s.length ≤ n → push c (string s) = some (x, r) →
        ∃ t, u ++ s = t ++ '"' :: r ∧ StringText t x := by
      intro u s c x r hu hn h
      obtain ⟨xs, rfl, h1⟩ := string_sound_char h
      obtain ⟨t, rfl, h2⟩ := ih hn h1
      exact ⟨u ++ t, by rw [List.append_assoc], .cons hu h2⟩
    have short : ∀ {e s m x r}, (e, m) ∈ [('"', 34), ('\\', 92), ('/', 47), ('b', 8), ('f', 12), ('n', 10),
        ('r', 13), ('t', 9)] → s.length ≤ n → push (Char.ofNat m) (string s) = some (x, r) →
        ∃ t, '\\' :: e :: s = t ++ '"' :: r ∧ StringText t x :=
      fun hm hn h => step (CharText.short hm) hn h
    intro s x r hn h
    cases s with
    | nil => rw [string.eq_def] at h; cases h
    | cons c s =>
      rw [List.length_cons] at hn
      rw [string.eq_def] at h
      simp only at h
      split at h
      · rename_i hc
        subst hc
        cases h
        exact ⟨[], rfl, .nil⟩
      rename_i hq
      split at h
      · cases h
      rename_i hctl
      split at h
      · rename_i hb
        subst hb
        split at h
        · rename_i a b c d s'
          simp only [List.length_cons] at hn
          split at h
          · cases h
          · rename_i m hm
            rw [hex4_iff] at hm
            have hlt := isHex4_lt hm
            split at h
            · rename_i hs
              split at h
              · rename_i a' b' c' d' s''
                simp only [List.length_cons] at hn
                split at h
                · cases h
                · rename_i k hk
                  rw [hex4_iff] at hk
                  split at h
                  · rename_i hs'
                    refine step (u := '\\' :: 'u' :: [a, b, c, d] ++ '\\' :: 'u' :: [a', b', c', d'])
                      (.pair (h := m - 0xD800) (l := k - 0xDC00) ?_ ?_ ?_ ?_ ?_) (by omega) h
                    · rwa [show 0xD800 + (m - 0xD800) = m by omega]
                    · omega
                    · rwa [show 0xDC00 + (k - 0xDC00) = k by omega]
                    · omega
                    · rw [ofNat_toNat (by omega)]
                      omega
                  · cases h
              · cases h
            · split at h
              · cases h
              · refine step (u := '\\' :: 'u' :: [a, b, c, d]) (.code ?_) (by omega) h
                rwa [ofNat_toNat (by omega)]
        all_goals first
          | (cases h)
          | (simp only [List.length_cons] at hn; exact short (by simp) (by omega) h)
      · rename_i hb
        exact step (u := [c]) (.plain (by omega) hq hb) (by omega) h

/-! ### Numbers -/

theorem digits_iff {ds : Str} : Digits ds ↔ ds ≠ [] ∧ ∀ c ∈ ds, c.isDigit = true := by
  unfold Digits
  simp only [isDigit_iff]

theorem digits_split (s : Str) : digits s ++ afterDigits s = s := List.takeWhile_append_dropWhile

theorem digits_all (s : Str) : ∀ c ∈ digits s, c.isDigit = true :=
  List.all_eq_true.1 List.all_takeWhile

theorem exponent_complete {e r : Str} (h : ExpText e) (hr : Ends r) :
    exponent (e ++ r) = some (e, r) := by
  cases h with
  | none =>
    cases r with
    | nil => rfl
    | cons c r =>
      obtain ⟨-, -, h2, h3⟩ := hr c rfl
      simp [exponent, h2, h3]
  | @some c sign ds hc hs hd =>
    rw [digits_iff] at hd
    obtain ⟨h1, h2⟩ := digits_append hd.2 hr
    have key : ∀ t, sign ++ ds ++ r = t → t.take (if t.head? = some '+' ∨ t.head? = some '-' then 1 else 0) = sign := by
      rintro t rfl
      simp only [List.mem_cons, List.not_mem_nil, or_false] at hs
      rcases hs with rfl | rfl | rfl
      · obtain ⟨d, ds, rfl⟩ := List.exists_cons_of_ne_nil hd.1
        have hd1 := digit_ne_sign (hd.2 d (by simp))
        simp [hd1]
      · simp
      · simp
    have hc' : c = 'e' ∨ c = 'E' := by simpa using hc
    rw [List.cons_append, exponent, if_pos hc']
    simp only [key _ rfl]
    rw [List.append_assoc, List.drop_left, h1, h2, if_neg hd.1, List.cons_append]

theorem ends_exp {e r : Str} (h : ExpText e) (hr : Ends r) : ∀ c ∈ (e ++ r).head?, c.isDigit = false := by
  cases h with
  | none => exact fun c hc => (hr c hc).1
  | some hc _ _ =>
    intro c h
    cases h
    simp only [List.mem_cons, List.not_mem_nil, or_false] at hc
    rcases hc with rfl | rfl <;> rfl

/-- Digits are read up to what is none. -/
theorem digits_until {ds r : Str} (h : ∀ c ∈ ds, c.isDigit = true) (hr : ∀ c ∈ r.head?, c.isDigit = false) :
    digits (ds ++ r) = ds ∧ afterDigits (ds ++ r) = r := by
  constructor
  · rw [digits, List.takeWhile_append_of_pos h]
    cases r with
    | nil => simp
    | cons c r => rw [List.takeWhile_cons_of_neg (by simp [hr c rfl]), List.append_nil]
  · rw [afterDigits, List.dropWhile_append_of_pos h]
    cases r with
    | nil => simp
    | cons c r => rw [List.dropWhile_cons_of_neg (by simp [hr c rfl])]

theorem fraction_complete {f e r : Str} (hf : FracText f) (he : ExpText e) (hr : Ends r) :
    fraction (f ++ (e ++ r)) = some (f ++ e, r) := by
  have hx := exponent_complete he hr
  cases hf with
  | none =>
    unfold fraction
    split
    · rename_i s heq
      cases he with
      | none => exact absurd rfl (hr '.' (by rw [show r = '.' :: s from heq]; rfl)).2.1
      | some hc _ _ =>
        cases heq
        simp at hc
    · exact hx
  | @some ds hd =>
    rw [digits_iff] at hd
    obtain ⟨h1, h2⟩ := digits_until hd.2 (ends_exp he hr)
    rw [List.cons_append]
    unfold fraction
    simp only [h1, h2, if_neg hd.1, hx]
    simp

theorem exponent_sound {s f r : Str} (h : exponent s = some (f, r)) : ExpText f ∧ s = f ++ r := by
  cases s with
  | nil => cases h; exact ⟨.none, rfl⟩
  | cons c s =>
    rw [exponent] at h
    split at h
    · rename_i hc
      generalize hsg : s.take (if s.head? = some '+' ∨ s.head? = some '-' then 1 else 0) = sign at h
      simp only at h
      split at h
      · cases h
      · rename_i hd
        cases h
        have hs : sign ∈ [[], ['+'], ['-']] ∧ s = sign ++ s.drop sign.length := by
          subst hsg
          split
          · rename_i h
            cases s with
            | nil => simp at h
            | cons d s => rcases h with h | h <;> cases h <;> simp
          · simp
        refine ⟨?_, ?_⟩
        · rw [List.cons_append]
          exact .some (by simpa using hc) hs.1 (digits_iff.2 ⟨hd, digits_all _⟩)
        · rw [List.cons_append, List.cons_append, List.append_assoc, digits_split, ← hs.2]
    · cases h
      exact ⟨.none, rfl⟩

theorem fraction_sound {s x r : Str} (h : fraction s = some (x, r)) :
    ∃ f e, x = f ++ e ∧ s = x ++ r ∧ FracText f ∧ ExpText e := by
  unfold fraction at h
  split at h
  · rename_i t
    split at h
    · cases h
    · rename_i hd
      obtain ⟨⟨e, r'⟩, h1, h2⟩ := Option.map_eq_some_iff.1 h
      cases h2
      obtain ⟨h3, h4⟩ := exponent_sound h1
      refine ⟨'.' :: digits t, e, rfl, ?_, .some (digits_iff.2 ⟨hd, digits_all _⟩), h3⟩
      rw [List.cons_append, List.cons_append, List.append_assoc, ← h4, digits_split]
  · obtain ⟨h1, h2⟩ := exponent_sound h
    exact ⟨[], x, rfl, h2, .none, h1⟩

theorem int_iff {ds : Str} : IntText ds ↔
    (∀ c ∈ ds, c.isDigit = true) ∧ ¬ (ds = [] ∨ (1 < ds.length ∧ ds.head? = some '0')) := by
  unfold IntText
  rw [digits_iff]
  constructor
  · rintro ⟨⟨h1, h2⟩, h3⟩
    refine ⟨h2, ?_⟩
    rintro (h | ⟨h, h'⟩)
    · exact h1 h
    · rw [h3 h'] at h
      simp at h
  · rintro ⟨h1, h2⟩
    rw [not_or] at h2
    refine ⟨⟨h2.1, h1⟩, fun h => ?_⟩
    obtain ⟨c, ds, rfl⟩ := List.exists_cons_of_ne_nil h2.1
    cases h
    cases ds with
    | nil => rfl
    | cons d ds => exact absurd ⟨by simp, rfl⟩ h2.2

theorem ofDigitChars_eq (ds : Str) : Nat.ofDigitChars 10 ds 0 = digitsValue ds := rfl

theorem int_no_minus {s t : Str} (h : IntText s) : s ≠ '-' :: t := by
  rintro rfl
  exact absurd (((int_iff.1 h).1) '-' (by simp)) (by decide)

/-- No number has a fraction or an exponent and is an integer. -/
theorem int_parts {s f e : Str} (hf : FracText f) (he : ExpText e)
    (h : ∀ c ∈ s ++ f ++ e, c.isDigit = true) : f = [] ∧ e = [] := by
  constructor
  · cases hf with
    | none => rfl
    | some _ => exact absurd (h '.' (by simp)) (by decide)
  · cases he with
    | none => rfl
    | @some c _ _ hc _ _ =>
      have := h c (by simp)
      simp only [List.mem_cons, List.not_mem_nil, or_false] at hc
      rcases hc with rfl | rfl <;> cases this

theorem smallInt_nonneg {s f e : Str} {i : Int} (hs : IntText s) (hf : FracText f) (he : ExpText e) :
    SmallInt (s ++ (f ++ e)) i ↔ f ++ e = [] ∧ digitsValue s < 2 ^ 64 ∧ i = digitsValue s := by
  constructor
  · intro h
    generalize ht : s ++ (f ++ e) = t at h
    cases h with
    | nonneg h1 h2 =>
      subst ht
      obtain ⟨rfl, rfl⟩ := int_parts hf he (by rw [List.append_assoc]; exact (int_iff.1 h1).1)
      simp at h2 ⊢
      exact h2
    | neg h1 h2 h3 =>
      obtain ⟨c, s, rfl⟩ := List.exists_cons_of_ne_nil (digits_iff.1 hs.1).1
      cases ht
      exact absurd rfl (int_no_minus hs)
  · rintro ⟨h1, h2, rfl⟩
    rw [h1, List.append_nil]
    exact .nonneg hs h2

theorem smallInt_neg {s f e : Str} {i : Int} (hs : IntText s) (hf : FracText f) (he : ExpText e) :
    SmallInt ('-' :: (s ++ (f ++ e))) i ↔
      f ++ e = [] ∧ 0 < digitsValue s ∧ digitsValue s ≤ 2 ^ 63 ∧ i = -(digitsValue s : Int) := by
  constructor
  · intro h
    generalize ht : '-' :: (s ++ (f ++ e)) = t at h
    cases h with
    | nonneg h1 h2 => exact absurd ht.symm (int_no_minus h1)
    | neg h1 h2 h3 =>
      cases ht
      obtain ⟨rfl, rfl⟩ := int_parts hf he (by rw [List.append_assoc]; exact (int_iff.1 h1).1)
      simp at h2 h3 ⊢
      exact ⟨h2, h3⟩
  · rintro ⟨h1, h2, h3, rfl⟩
    rw [h1, List.append_nil]
    exact .neg hs h2 h3

section
variable [FloatText]

/-- What a number behind its sign is read as. -/
theorem number_parts {s f e r : Str} (neg : Bool) (hs : IntText s) (hf : FracText f) (he : ExpText e)
    (hr : Ends r) : number neg (s ++ (f ++ (e ++ r))) =
      if f ++ e = [] ∧ neg = false ∧ digitsValue s < 2 ^ 64 then some (.num (digitsValue s), r)
      else if f ++ e = [] ∧ neg = true ∧ 0 < digitsValue s ∧ digitsValue s ≤ 2 ^ 63 then
        some (.num (-(digitsValue s : Int)), r)
      else (FloatText.parse64 ((if neg then ['-'] else []) ++ s ++ (f ++ e))).map fun x => (.float x, r) := by
  have hd : ∀ c ∈ (f ++ (e ++ r)).head?, c.isDigit = false := by
    cases hf with
    | none => simpa using ends_exp he hr
    | some _ => intro c hc; cases hc; rfl
  obtain ⟨h1, h2⟩ := digits_until (int_iff.1 hs).1 hd
  unfold number
  simp only [h1, h2, if_neg (int_iff.1 hs).2, fraction_complete hf he hr, Option.bind_eq_bind, Option.bind_some,
    ofDigitChars_eq]
  split
  · rfl
  · split
    · rfl
    · cases FloatText.parse64 _ <;> rfl

theorem number_sound {neg : Bool} {s r : Str} {j : Json} (h : number neg s = some (j, r)) :
    ∃ t, s = t ++ r ∧ JsonMeans ((if neg then ['-'] else []) ++ t) j ∧ j.depth = 0 := by
  unfold number at h
  simp only at h
  split at h
  · cases h
  · rename_i hi
    have hint : IntText (digits s) := int_iff.2 ⟨digits_all s, hi⟩
    obtain ⟨⟨x, r'⟩, h1, h0⟩ := Option.bind_eq_some_iff.1 h
    obtain ⟨f, e, rfl, h3, hf, he⟩ := fraction_sound h1
    have hsplit : s = digits s ++ (f ++ e) ++ r' := by
      rw [List.append_assoc, ← h3, digits_split]
    have h2 : (if f ++ e = [] ∧ neg = false ∧ digitsValue (digits s) < 2 ^ 64 then
          some (Json.num (digitsValue (digits s)), r')
        else if f ++ e = [] ∧ neg = true ∧ 0 < digitsValue (digits s) ∧ digitsValue (digits s) ≤ 2 ^ 63 then
          some (.num (-(digitsValue (digits s) : Int)), r')
        else (FloatText.parse64 ((if neg then ['-'] else []) ++ digits s ++ (f ++ e))).bind fun x =>
          some (.float x, r')) = some (j, r) := h0
    clear h h0
    by_cases hc : f ++ e = [] ∧ neg = false ∧ digitsValue (digits s) < 2 ^ 64
    · rw [if_pos hc] at h2
      obtain ⟨c1, rfl, c2⟩ := hc
      cases h2
      refine ⟨_, hsplit, .int ?_, rfl⟩
      exact (smallInt_nonneg hint hf he).2 ⟨c1, c2, rfl⟩
    · have hn1 := hc
      rw [if_neg hn1] at h2
      by_cases hc : f ++ e = [] ∧ neg = true ∧ 0 < digitsValue (digits s) ∧ digitsValue (digits s) ≤ 2 ^ 63
      · rw [if_pos hc] at h2
        obtain ⟨c1, rfl, c2, c3⟩ := hc
        cases h2
        refine ⟨_, hsplit, .int ?_, rfl⟩
        exact (smallInt_neg hint hf he).2 ⟨c1, c2, c3, rfl⟩
      · have hn2 := hc
        rw [if_neg hn2] at h2
        obtain ⟨x, h4, h5⟩ := Option.bind_eq_some_iff.1 h2
        cases h5
        refine ⟨_, hsplit, ?_, rfl⟩
        have := JsonMeans.float (sign := if neg then ['-'] else []) (x := x) (by cases neg <;> simp) hint hf he ?_
          (by simpa using h4)
        · simpa using this
        · intro i hi
          cases neg
          · have := (smallInt_nonneg (i := i) hint hf he).1 (by simpa using hi)
            exact hn1 ⟨this.1, rfl, this.2.1⟩
          · have := (smallInt_neg (i := i) hint hf he).1 (by simpa using hi)
            exact hn2 ⟨this.1, rfl, this.2.1, this.2.2.1⟩

/-! ### Documents -/

omit [FloatText] in
theorem isWs_iff {c : Char} : isWs c = true ↔ c ∈ [' ', '\t', '\n', '\r'] := by
  simp only [isWs, Bool.or_eq_true, beq_iff_eq, List.mem_cons, List.not_mem_nil, or_false]
  constructor
  · rintro (((h | h) | h) | h) <;> simp [h]
  · rintro (h | h | h | h) <;> simp [h]

omit [FloatText] in
theorem skipWs_blank {w r : Str} (h : Blank w) : skipWs (w ++ r) = skipWs r :=
  List.dropWhile_append_of_pos fun c hc => isWs_iff.2 (h c hc)

omit [FloatText] in
theorem skipWs_split (s : Str) : ∃ w, Blank w ∧ s = w ++ skipWs s :=
  ⟨s.takeWhile isWs, fun c hc => isWs_iff.1 (List.all_eq_true.1 List.all_takeWhile c hc),
    List.takeWhile_append_dropWhile.symm⟩

omit [FloatText] in
theorem expect_iff {t s r : Str} : expect t s = some r ↔ s = t ++ r := by
  induction t generalizing s with
  | nil => simp [expect, eq_comm]
  | cons c t ih =>
    cases s with
    | nil => simp [expect]
    | cons d s =>
      rw [expect]
      split
      · rename_i h
        subst h
        simp [ih]
      · rename_i h
        simp [Ne.symm h]

/-- What is left of an array behind a value. -/
def RestElements (s r : Str) (xs : List Json) : Prop :=
  (xs = [] ∧ s = ']' :: r) ∨ ∃ u, s = ',' :: (u ++ ']' :: r) ∧ ElementsMean u xs

/-- What is left of an object behind a member. -/
def RestMembers (s r : Str) (ms : List (Str × Json)) : Prop :=
  (ms = [] ∧ s = '}' :: r) ∨ ∃ u, s = ',' :: (u ++ '}' :: r) ∧ MembersMean u ms

theorem join_elements {w t w' s r : Str} {x : Json} {xs : List Json} (hw : Blank w) (ht : JsonMeans t x)
    (hw' : Blank w') (h : RestElements s r xs) :
    ∃ u, w ++ (t ++ (w' ++ s)) = u ++ ']' :: r ∧ ElementsMean u (x :: xs) := by
  rcases h with ⟨rfl, rfl⟩ | ⟨u, rfl, hu⟩
  · exact ⟨w ++ (t ++ w'), by simp, .one hw ht hw'⟩
  · exact ⟨w ++ (t ++ (w' ++ ',' :: u)), by simp, .more hw ht hw' hu⟩

theorem join_members {w t w' s r : Str} {m : Str × Json} {ms : List (Str × Json)} (hw : Blank w)
    (ht : MemberMeans t m) (hw' : Blank w') (h : RestMembers s r ms) :
    ∃ u, w ++ (t ++ (w' ++ s)) = u ++ '}' :: r ∧ MembersMean u (m :: ms) := by
  rcases h with ⟨rfl, rfl⟩ | ⟨u, rfl, hu⟩
  · exact ⟨w ++ (t ++ w'), by simp, .one hw ht hw'⟩
  · exact ⟨w ++ (t ++ (w' ++ ',' :: u)), by simp, .more hw ht hw' hu⟩

/-- Whatever is read is a text of the grammar. -/
theorem sound (fuel : Nat) :
    (∀ {d s j r}, value fuel d s = some (j, r) → ∃ t, s = t ++ r ∧ JsonMeans t j ∧ j.depth ≤ d) ∧
    (∀ {d s m r}, member fuel d s = some (m, r) → ∃ t, s = t ++ r ∧ MemberMeans t m ∧ m.2.depth ≤ d) ∧
    (∀ {d s xs r}, elements fuel d s = some (xs, r) → RestElements s r xs ∧ Json.depthAll xs ≤ d) ∧
    (∀ {d s ms r}, entries fuel d s = some (ms, r) → RestMembers s r ms ∧ Json.depthMembers ms ≤ d) := by
  induction fuel with
  | zero =>
    refine ⟨?_, ?_, ?_, ?_⟩
    · intro d s j r h
      rw [value.eq_def] at h
      cases h
    · intro d s j r h
      rw [member.eq_def] at h
      cases h
    · intro d s j r h
      rw [elements.eq_def] at h
      cases h
    · intro d s j r h
      rw [entries.eq_def] at h
      cases h
  | succ fuel ih =>
    obtain ⟨ih1, ih2, ih3, ih4⟩ := ih
    -- a value and what follows it
    have arr : ∀ {d s xs r}, (do
          let (x, r) ← value fuel d (skipWs s)
          let (xs, r) ← elements fuel d (skipWs r)
          some (x :: xs, r)) = some (xs, r) →
        ∃ u, s = u ++ ']' :: r ∧ ElementsMean u xs ∧ Json.depthAll xs ≤ d := by
      intro d s xs r h
      obtain ⟨⟨x, r1⟩, h1, h2⟩ := Option.bind_eq_some_iff.1 h
      obtain ⟨⟨ys, r2⟩, h3, h4⟩ := Option.bind_eq_some_iff.1 h2
      cases h4
      obtain ⟨t, e1, ht, hd⟩ := ih1 h1
      obtain ⟨hr, hd'⟩ := ih3 h3
      obtain ⟨w, hw, e2⟩ := skipWs_split s
      obtain ⟨w', hw', e3⟩ := skipWs_split r1
      obtain ⟨u, e4, hu⟩ := join_elements hw ht hw' hr
      refine ⟨u, ?_, hu, ?_⟩
      · rw [← e4, ← e3, ← e1, ← e2]
      · rw [Json.depthAll]
        omega
    have obj : ∀ {d s ms r}, (do
          let (m, r) ← member fuel d (skipWs s)
          let (ms, r) ← entries fuel d (skipWs r)
          some (m :: ms, r)) = some (ms, r) →
        ∃ u, s = u ++ '}' :: r ∧ MembersMean u ms ∧ Json.depthMembers ms ≤ d := by
      intro d s xs r h
      obtain ⟨⟨x, r1⟩, h1, h2⟩ := Option.bind_eq_some_iff.1 h
      obtain ⟨⟨ys, r2⟩, h3, h4⟩ := Option.bind_eq_some_iff.1 h2
      cases h4
      obtain ⟨t, e1, ht, hd⟩ := ih2 h1
      obtain ⟨hr, hd'⟩ := ih4 h3
      obtain ⟨w, hw, e2⟩ := skipWs_split s
      obtain ⟨w', hw', e3⟩ := skipWs_split r1
      obtain ⟨u, e4, hu⟩ := join_members hw ht hw' hr
      refine ⟨u, ?_, hu, ?_⟩
      · rw [← e4, ← e3, ← e1, ← e2]
      · obtain ⟨k, x⟩ := x
        rw [Json.depthMembers]
        simp only at hd
        omega
    refine ⟨?_, ?_, ?_, ?_⟩
    · intro d s j r h
      cases s with
      | nil => rw [value.eq_def] at h; cases h
      | cons c s =>
        rw [value.eq_def] at h
        simp only at h
        split at h
        · rename_i hc
          subst hc
          obtain ⟨r', h1, h2⟩ := Option.map_eq_some_iff.1 h
          cases h2
          rw [expect_iff] at h1
          exact ⟨_, congrArg _ h1, .null, by simp [Json.depth]⟩
        split at h
        · rename_i hc
          subst hc
          obtain ⟨r', h1, h2⟩ := Option.map_eq_some_iff.1 h
          cases h2
          rw [expect_iff] at h1
          exact ⟨_, congrArg _ h1, .true, by simp [Json.depth]⟩
        split at h
        · rename_i hc
          subst hc
          obtain ⟨r', h1, h2⟩ := Option.map_eq_some_iff.1 h
          cases h2
          rw [expect_iff] at h1
          exact ⟨_, congrArg _ h1, .false, by simp [Json.depth]⟩
        split at h
        · rename_i hc
          subst hc
          obtain ⟨⟨x, r'⟩, h1, h2⟩ := Option.map_eq_some_iff.1 h
          cases h2
          obtain ⟨t, rfl, ht⟩ := string_sound _ (Nat.le_refl _) h1
          exact ⟨'"' :: (t ++ ['"']), by simp, .str ht, by simp [Json.depth]⟩
        split at h
        · rename_i hc
          subst hc
          obtain ⟨t, rfl, ht, hd⟩ := number_sound h
          exact ⟨'-' :: t, rfl, ht, by omega⟩
        split at h
        · obtain ⟨t, e, ht, hd⟩ := number_sound h
          exact ⟨t, e, ht, by omega⟩
        split at h
        · rename_i hc
          subst hc
          cases d with
          | zero => cases h
          | succ d =>
            simp only at h
            split at h
            · rename_i r' heq
              cases h
              obtain ⟨w, hw, e⟩ := skipWs_split s
              refine ⟨'[' :: (w ++ [']']), ?_, .noElements hw, by simp [Json.depth, Json.depthAll]⟩
              rw [e, heq]
              simp
            · obtain ⟨⟨x, r1⟩, h1, h2⟩ := Option.bind_eq_some_iff.1 h
              obtain ⟨⟨ys, r2⟩, h3, h4⟩ := Option.bind_eq_some_iff.1 h2
              cases h4
              obtain ⟨u, rfl, hu, hd⟩ := arr (d := d) (s := s) (xs := x :: ys) (r := r2) (by
                dsimp only at h3
                simp only [h1, h3, Option.bind_eq_bind, Option.bind_some])
              exact ⟨'[' :: (u ++ [']']), by simp, .arr hu, Nat.succ_le_succ hd⟩
        split at h
        · rename_i hc
          subst hc
          cases d with
          | zero => cases h
          | succ d =>
            simp only at h
            split at h
            · rename_i r' heq
              cases h
              obtain ⟨w, hw, e⟩ := skipWs_split s
              refine ⟨'{' :: (w ++ ['}']), ?_, .noMembers hw, by simp [Json.depth, Json.depthMembers]⟩
              rw [e, heq]
              simp
            · obtain ⟨⟨x, r1⟩, h1, h2⟩ := Option.bind_eq_some_iff.1 h
              obtain ⟨⟨ys, r2⟩, h3, h4⟩ := Option.bind_eq_some_iff.1 h2
              cases h4
              obtain ⟨u, rfl, hu, hd⟩ := obj (d := d) (s := s) (ms := x :: ys) (r := r2) (by
                dsimp only at h3
                simp only [h1, h3, Option.bind_eq_bind, Option.bind_some])
              exact ⟨'{' :: (u ++ ['}']), by simp, .obj hu, Nat.succ_le_succ hd⟩
        · cases h
    · intro d s m r h
      rw [member.eq_def] at h
      simp only at h
      split at h
      · rename_i s'
        obtain ⟨⟨k, r1⟩, h1, h2⟩ := Option.bind_eq_some_iff.1 h
        obtain ⟨t, rfl, ht⟩ := string_sound _ (Nat.le_refl _) h1
        simp only at h2
        split at h2
        · rename_i r2 heq
          obtain ⟨⟨x, r3⟩, h3, h4⟩ := Option.bind_eq_some_iff.1 h2
          cases h4
          obtain ⟨u, e1, hu, hd⟩ := ih1 h3
          obtain ⟨w, hw, e2⟩ := skipWs_split r1
          obtain ⟨w', hw', e3⟩ := skipWs_split r2
          refine ⟨'"' :: (t ++ '"' :: (w ++ ':' :: (w' ++ u))), ?_, .mk ht hw hw' hu, hd⟩
          rw [e2, heq, e3, e1]
          simp
        · cases h2
      · cases h
    · intro d s xs r h
      rw [elements.eq_def] at h
      simp only at h
      split at h
      · cases h
        exact ⟨.inl ⟨rfl, rfl⟩, by simp [Json.depthAll]⟩
      · obtain ⟨u, rfl, hu, hd⟩ := arr h
        exact ⟨.inr ⟨u, rfl, hu⟩, hd⟩
      · cases h
    · intro d s xs r h
      rw [entries.eq_def] at h
      simp only at h
      split at h
      · cases h
        exact ⟨.inl ⟨rfl, rfl⟩, by simp [Json.depthMembers]⟩
      · obtain ⟨u, rfl, hu, hd⟩ := obj h
        exact ⟨.inr ⟨u, rfl, hu⟩, hd⟩
      · cases h

omit [FloatText] in
theorem int_begins {s : Str} (h : IntText s) : ∃ c u, s = c :: u ∧ c.isDigit = true := by
  obtain ⟨c, u, rfl⟩ := List.exists_cons_of_ne_nil h.1.1
  exact ⟨c, u, rfl, (int_iff.1 h).1 c (by simp)⟩

omit [FloatText] in
theorem digit_begins {c : Char} (h : c.isDigit = true) : isWs c = false ∧ c ≠ ']' := by
  have ne (e : Char) (he : e.isDigit = false) : c ≠ e := by
    rintro rfl
    rw [h] at he
    cases he
  have h1 := ne ' ' (by decide)
  have h2 := ne '\n' (by decide)
  have h3 := ne '\t' (by decide)
  have h4 := ne '\r' (by decide)
  exact ⟨by simp [isWs, h1, h2, h3, h4], ne _ (by decide)⟩

/-- How the text of a document begins. -/
theorem means_begins {t : Str} {j : Json} (h : JsonMeans t j) :
    ∃ c u, t = c :: u ∧ isWs c = false ∧ c ≠ ']' := by
  cases h with
  | null => exact ⟨_, _, rfl, by decide, by decide⟩
  | true => exact ⟨_, _, rfl, by decide, by decide⟩
  | false => exact ⟨_, _, rfl, by decide, by decide⟩
  | int h =>
    cases h with
    | nonneg h _ =>
      obtain ⟨c, u, rfl, hc⟩ := int_begins h
      exact ⟨c, u, rfl, digit_begins hc⟩
    | neg _ _ _ => exact ⟨_, _, rfl, by decide, by decide⟩
  | @float sign s f e x h1 h2 _ _ _ _ =>
    simp only [List.mem_cons, List.not_mem_nil, or_false] at h1
    rcases h1 with rfl | rfl
    · obtain ⟨c, u, rfl, hc⟩ := int_begins h2
      exact ⟨c, u ++ f ++ e, rfl, digit_begins hc⟩
    · exact ⟨'-', s ++ f ++ e, rfl, by decide, by decide⟩
  | str _ => exact ⟨_, _, rfl, by decide, by decide⟩
  | noElements _ => exact ⟨_, _, rfl, by decide, by decide⟩
  | arr _ => exact ⟨_, _, rfl, by decide, by decide⟩
  | noMembers _ => exact ⟨_, _, rfl, by decide, by decide⟩
  | obj _ => exact ⟨_, _, rfl, by decide, by decide⟩

theorem skipWs_means {t : Str} {j : Json} (h : JsonMeans t j) (r : Str) :
    skipWs (t ++ r) = t ++ r := by
  obtain ⟨c, u, rfl, hc, -⟩ := means_begins h
  exact skipWs_cons hc

theorem value_digit (fuel d : Nat) {c : Char} {s : Str} (hc : c.isDigit = true) :
    value (fuel + 1) d (c :: s) = number false (c :: s) := by
  have ne (e : Char) (he : e.isDigit = false) : c ≠ e := by
    rintro rfl
    rw [hc] at he
    cases he
  rw [value.eq_def]
  simp only []
  rw [if_neg (ne _ (by decide)), if_neg (ne _ (by decide)),
    if_neg (ne _ (by decide)), if_neg (ne _ (by decide)), if_neg (ne _ (by decide)), if_pos hc]

theorem value_minus (fuel d : Nat) {s : Str} : value (fuel + 1) d ('-' :: s) = number true s := by
  rw [value.eq_def]
  simp only [if_false, if_true, Char.reduceEq]

omit [FloatText] in
theorem ends_blank {w r : Str} (h : Blank w) (hr : Ends r) : Ends (w ++ r) := by
  cases w with
  | nil => exact hr
  | cons c w =>
    intro d hd
    cases hd
    have := h c (by simp)
    simp only [List.mem_cons, List.not_mem_nil, or_false] at this
    rcases this with rfl | rfl | rfl | rfl <;> decide

theorem number_complete (fuel d : Nat) {t r : Str} {j : Json} (hr : Ends r) (h : JsonMeans t j)
    (hj : (∃ i, j = .num i) ∨ ∃ x, j = .float x) : value (fuel + 1) d (t ++ r) = some (j, r) := by
  have plain : ∀ {s f e}, IntText s → FracText f → ExpText e →
      value (fuel + 1) d (s ++ (f ++ (e ++ r))) = number false (s ++ (f ++ (e ++ r))) := by
    intro s f e h _ _
    obtain ⟨c, u, rfl, hc⟩ := int_begins h
    exact value_digit fuel d hc
  cases h with
  | int h =>
    cases h with
    | @nonneg s h1 h2 =>
      have e := number_parts false h1 .none .none hr
      rw [if_pos ⟨rfl, rfl, h2⟩] at e
      have e' := plain h1 .none .none
      exact e'.trans e
    | @neg s h1 h2 h3 =>
      have e := number_parts true h1 .none .none hr
      rw [if_neg (by simp), if_pos ⟨rfl, rfl, h2, h3⟩] at e
      exact (value_minus fuel d).trans e
  | @float sign s f e x h1 h2 h3 h4 h5 h6 =>
    simp only [List.mem_cons, List.not_mem_nil, or_false] at h1
    rcases h1 with rfl | rfl
    · have hn : ¬ (f ++ e = [] ∧ False = False ∧ digitsValue s < 2 ^ 64) := fun h =>
        h5 _ (by simpa using (smallInt_nonneg h2 h3 h4).2 ⟨h.1, h.2.2, rfl⟩)
      have k := number_parts false h2 h3 h4 hr
      rw [if_neg (by simpa using hn), if_neg (by simp)] at k
      have h6' : FloatText.parse64 (s ++ (f ++ e)) = some x := by simpa using h6
      have k : number false (s ++ (f ++ (e ++ r))) = some (.float x, r) := by
        rw [k]; simp [h6']
      rw [← k, ← plain h2 h3 h4]
      simp
    · have hn : ¬ (f ++ e = [] ∧ True ∧ 0 < digitsValue s ∧ digitsValue s ≤ 2 ^ 63) := fun h =>
        h5 _ (by simpa using (smallInt_neg h2 h3 h4).2 ⟨h.1, h.2.2.1, h.2.2.2, rfl⟩)
      have k := number_parts true h2 h3 h4 hr
      rw [if_neg (by simp), if_neg (by simpa using hn)] at k
      have h6' : FloatText.parse64 ('-' :: (s ++ (f ++ e))) = some x := by simpa using h6
      have k : number true (s ++ (f ++ (e ++ r))) = some (.float x, r) := by
        rw [k]; simp [h6']
      rw [← k, ← value_minus fuel d]
      simp
  | _ => simp at hj

mutual
/-- Whatever is a text of the grammar is read, whatever comes behind it. -/
theorem value_complete {t : Str} {j : Json} (h : JsonMeans t j) (d fuel : Nat) (r : Str) (hr : Ends r)
    (hd : j.depth ≤ d) (hf : t.length ≤ fuel) : value fuel d (t ++ r) = some (j, r) := by
  obtain ⟨fuel, rfl⟩ : ∃ k, fuel = k + 1 := ⟨fuel - 1, by
    obtain ⟨c, u, rfl, -⟩ := means_begins h
    rw [List.length_cons] at hf
    omega⟩
  match h with
  | .null => simp [value.eq_def, expect]
  | .true => simp [value.eq_def, expect]
  | .false => simp [value.eq_def, expect]
  | .int h => exact number_complete fuel d hr (.int h) (.inl ⟨_, rfl⟩)
  | .float h1 h2 h3 h4 h5 h6 => exact number_complete fuel d hr (.float h1 h2 h3 h4 h5 h6) (.inr ⟨_, rfl⟩)
  | .str h =>
    have := string_complete h r
    simp [value.eq_def, this]
  | .noElements hw =>
    obtain ⟨d, rfl⟩ : ∃ k, d = k + 1 := ⟨d - 1, by simp [Json.depth] at hd; omega⟩
    have := skipWs_blank (r := ']' :: r) hw
    rw [skipWs_cons (by decide)] at this
    simp [value.eq_def, this]
  | .noMembers hw =>
    obtain ⟨d, rfl⟩ : ∃ k, d = k + 1 := ⟨d - 1, by simp [Json.depth] at hd; omega⟩
    have := skipWs_blank (r := '}' :: r) hw
    rw [skipWs_cons (by decide)] at this
    simp [value.eq_def, this, show ('{' : Char).isDigit = false from rfl]
  | .arr (t := t) (xs := xs) h =>
    simp only [Json.depth] at hd
    obtain ⟨d, rfl⟩ : ∃ k, d = k + 1 := ⟨d - 1, by omega⟩
    simp only [List.length_cons, List.length_append, List.length_nil] at hf
    obtain ⟨x, xs, r1, rfl, h1, h2, c, u, h3, h4⟩ := elements_complete h d fuel r (by omega) (by omega)
    simp only [List.cons_append, List.append_assoc, List.nil_append]
    rw [value.eq_def]
    simp only [if_false, if_true, Char.reduceEq, show ('[' : Char).isDigit = false from rfl,
      Bool.false_eq_true]
    split
    · rename_i heq
      rw [h3] at heq
      cases heq
      exact absurd rfl h4
    · simp only [h1, h2, Option.bind_eq_bind, Option.bind_some]
  | .obj (t := t) (ms := ms) h =>
    simp only [Json.depth] at hd
    obtain ⟨d, rfl⟩ : ∃ k, d = k + 1 := ⟨d - 1, by omega⟩
    simp only [List.length_cons, List.length_append, List.length_nil] at hf
    obtain ⟨m, ms, r1, rfl, h1, h2, u, h3⟩ := members_complete h d fuel r (by omega) (by omega)
    simp only [List.cons_append, List.append_assoc, List.nil_append]
    rw [value.eq_def]
    simp only [if_false, if_true, Char.reduceEq, show ('{' : Char).isDigit = false from rfl,
      Bool.false_eq_true]
    split
    · rename_i heq
      rw [h3] at heq
      cases heq
    · simp only [h1, h2, Option.bind_eq_bind, Option.bind_some]
theorem elements_complete {t : Str} {ys : List Json} (h : ElementsMean t ys) (d fuel : Nat) (r : Str)
    (hd : Json.depthAll ys ≤ d) (hf : t.length + 1 ≤ fuel) :
    ∃ x xs r1, ys = x :: xs ∧ value fuel d (skipWs (t ++ ']' :: r)) = some (x, r1) ∧
      elements fuel d (skipWs r1) = some (xs, r) ∧ ∃ c u, skipWs (t ++ ']' :: r) = c :: u ∧ c ≠ ']' := by
  obtain ⟨fuel, rfl⟩ : ∃ k, fuel = k + 1 := ⟨fuel - 1, by omega⟩
  match h with
  | .one (w := w) (t := t) (w' := w') (x := x) hw ht hw' =>
    simp only [Json.depthAll] at hd
    simp only [List.length_append] at hf
    have h1 := value_complete ht d (fuel + 1) (w' ++ ']' :: r) (ends_blank hw' (ends_close (by decide)))
      (by omega) (by omega)
    have e : skipWs (w ++ (t ++ w') ++ ']' :: r) = t ++ (w' ++ ']' :: r) := by
      rw [List.append_assoc, skipWs_blank hw, List.append_assoc, skipWs_means ht]
    rw [e]
    refine ⟨x, [], _, rfl, h1, ?_, ?_⟩
    · rw [skipWs_blank hw', skipWs_cons (by decide)]
      simp [elements]
    · obtain ⟨c, u, rfl, -, hc⟩ := means_begins ht
      exact ⟨c, _, rfl, hc⟩
  | .more (w := w) (t := t) (w' := w') (u := u) (x := x) (xs := xs) hw ht hw' hu =>
    simp only [Json.depthAll] at hd
    simp only [List.length_append, List.length_cons] at hf
    have h1 := value_complete ht d (fuel + 1) (w' ++ ',' :: (u ++ ']' :: r))
      (ends_blank hw' (ends_close (by decide))) (by omega) (by omega)
    obtain ⟨y, ys, r1, rfl, k1, k2, -⟩ := elements_complete hu d fuel r (by omega) (by omega)
    have e : skipWs (w ++ (t ++ (w' ++ ',' :: u)) ++ ']' :: r) = t ++ (w' ++ ',' :: (u ++ ']' :: r)) := by
      rw [List.append_assoc, skipWs_blank hw, List.append_assoc, skipWs_means ht, List.append_assoc,
        List.cons_append]
    rw [e]
    refine ⟨x, _, _, rfl, h1, ?_, ?_⟩
    · rw [skipWs_blank hw', skipWs_cons (by decide), elements]
      simp only [k1, k2, Option.bind_eq_bind, Option.bind_some]
    · obtain ⟨c, u, rfl, -, hc⟩ := means_begins ht
      exact ⟨c, _, rfl, hc⟩
theorem members_complete {t : Str} {ns : List (Str × Json)} (h : MembersMean t ns) (d fuel : Nat) (r : Str)
    (hd : Json.depthMembers ns ≤ d) (hf : t.length + 1 ≤ fuel) :
    ∃ m ms r1, ns = m :: ms ∧ member fuel d (skipWs (t ++ '}' :: r)) = some (m, r1) ∧
      entries fuel d (skipWs r1) = some (ms, r) ∧ ∃ u, skipWs (t ++ '}' :: r) = '"' :: u := by
  obtain ⟨fuel, rfl⟩ : ∃ k, fuel = k + 1 := ⟨fuel - 1, by omega⟩
  match h with
  | .one (w := w) (t := t) (w' := w') (m := (k, x)) hw ht hw' =>
    simp only [Json.depthMembers] at hd
    simp only [List.length_append] at hf
    obtain ⟨h1, u, hu⟩ := member_complete ht d (fuel + 1) (w' ++ '}' :: r)
      (ends_blank hw' (ends_close (by decide))) (by simp; omega) (by omega)
    have e : skipWs (w ++ (t ++ w') ++ '}' :: r) = t ++ (w' ++ '}' :: r) := by
      rw [List.append_assoc, skipWs_blank hw, List.append_assoc, hu, List.cons_append, skipWs_cons (by decide)]
    rw [e]
    refine ⟨_, [], _, rfl, h1, ?_, ?_⟩
    · rw [skipWs_blank hw', skipWs_cons (by decide)]
      simp [entries]
    · rw [hu]; exact ⟨_, rfl⟩
  | .more (w := w) (t := t) (w' := w') (u := u) (m := (k, x)) (ms := ms) hw ht hw' hu =>
    simp only [Json.depthMembers] at hd
    simp only [List.length_append, List.length_cons] at hf
    obtain ⟨h1, v, hv⟩ := member_complete ht d (fuel + 1) (w' ++ ',' :: (u ++ '}' :: r))
      (ends_blank hw' (ends_close (by decide))) (by simp; omega) (by omega)
    obtain ⟨y, ys, r1, rfl, k1, k2, -⟩ := members_complete hu d fuel r (by omega) (by omega)
    have e : skipWs (w ++ (t ++ (w' ++ ',' :: u)) ++ '}' :: r) = t ++ (w' ++ ',' :: (u ++ '}' :: r)) := by
      rw [List.append_assoc, skipWs_blank hw, List.append_assoc, hv, List.cons_append, skipWs_cons (by decide),
        List.append_assoc, List.cons_append]
      rfl
    rw [e]
    refine ⟨_, _, _, rfl, h1, ?_, ?_⟩
    · rw [skipWs_blank hw', skipWs_cons (by decide), entries]
      simp only [k1, k2, Option.bind_eq_bind, Option.bind_some]
    · rw [hv]; exact ⟨_, rfl⟩
theorem member_complete {t : Str} {m : Str × Json} (h : MemberMeans t m) (d fuel : Nat) (r : Str) (hr : Ends r)
    (hd : m.2.depth ≤ d) (hf : t.length ≤ fuel) :
    member fuel d (t ++ r) = some (m, r) ∧ ∃ u, t = '"' :: u := by
  match h with
  | .mk (k := k) (n := n) (w := w) (w' := w') (t := t) (x := x) hk hw hw' ht =>
    simp only [List.length_append, List.length_cons] at hf
    obtain ⟨fuel, rfl⟩ : ∃ k, fuel = k + 1 := ⟨fuel - 1, by omega⟩
    refine ⟨?_, _, rfl⟩
    have h1 := value_complete ht d fuel r hr hd (by omega)
    simp only [List.cons_append, List.append_assoc]
    rw [member]
    simp only [string_complete hk, Option.bind_eq_bind, Option.bind_some, skipWs_blank hw,
      skipWs_cons (c := ':') (by decide), skipWs_blank hw', skipWs_means ht, h1]
end

theorem parse_iff (s : Str) (j : Json) : parse s = some j ↔ IsJson s j ∧ j.depth ≤ 127 := by
  unfold parse
  constructor
  · intro h
    split at h
    · rename_i x r heq
      split at h
      · rename_i hr
        cases h
        obtain ⟨t, e, ht, hd⟩ := (sound _).1 heq
        obtain ⟨w, hw, e1⟩ := skipWs_split s
        obtain ⟨w', hw', e2⟩ := skipWs_split r
        rw [hr, List.append_nil] at e2
        subst e2
        exact ⟨⟨w, t, r, by rw [← e]; exact e1, hw, ht, hw'⟩, hd⟩
      · cases h
    · cases h
  · rintro ⟨⟨w, t, w', rfl, hw, ht, hw'⟩, hd⟩
    have h := value_complete ht 127 (2 * (w ++ (t ++ w')).length + 1) w' (by
      have := ends_blank hw' ends_nil
      rwa [List.append_nil] at this) hd (by simp; omega)
    rw [skipWs_blank hw, skipWs_means ht, h]
    have : skipWs w' = [] := by
      have := skipWs_blank (r := []) hw'
      rwa [List.append_nil] at this
    simp [this]

end

end Htrpc.JsonCodec
