import Verif.Lemmas.FloatStdText
import Verif.Spec.Floats
import Verif.Props.Path
import Verif.Props.Query
import Verif.Props.Header
import Verif.Lemmas.JsonGrammar
import Verif.Props.Decode

namespace Htrpc
open Spec FloatFmt FloatStd

/-! ### std's text of floats meets the contract -/

theorem f64_inf : FloatFmt.f64.inf = 2047 * 2 ^ 52 := by decide
theorem f32_inf : FloatFmt.f32.inf = 255 * 2 ^ 23 := by decide

theorem nan64_iff (x : UInt64) :
    isNaN64 x = false ↔ x.toNat % 2 ^ (FloatFmt.f64.exp + FloatFmt.f64.frac) ≤ FloatFmt.f64.inf := by
  rw [f64_inf]
  have : FloatFmt.f64.exp + FloatFmt.f64.frac = 63 := rfl
  rw [this, isNaN64]
  have := x.toNat_lt
  simp only [Bool.and_eq_false_iff, decide_eq_false_iff_not, ne_eq, not_not]
  omega

theorem nan32_iff (x : UInt32) :
    isNaN32 x = false ↔ x.toNat % 2 ^ (FloatFmt.f32.exp + FloatFmt.f32.frac) ≤ FloatFmt.f32.inf := by
  rw [f32_inf]
  have : FloatFmt.f32.exp + FloatFmt.f32.frac = 31 := rfl
  rw [this, isNaN32]
  have := x.toNat_lt
  simp only [Bool.and_eq_false_iff, decide_eq_false_iff_not, ne_eq, not_not]
  omega

theorem show_nan (f : FloatFmt) (x : Nat) (h : ¬ x % 2 ^ (f.exp + f.frac) ≤ f.inf) :
    FloatStd.show f x = "NaN".toList := by
  rw [FloatStd.show]
  exact if_pos (by omega)

theorem parse_nan (f : FloatFmt) : parse f "NaN".toList = some f.nan := by
  have : literal "NaN".toList = some .nan := by decide
  have h : parse f "NaN".toList = (literal "NaN".toList).map fun l => f.signed false (f.bits l) := rfl
  rw [h, this]
  rfl

theorem convert_nan (x : Nat) (h : ¬ x % 2 ^ (FloatFmt.f32.exp + FloatFmt.f32.frac) ≤ FloatFmt.f32.inf) :
    convert .f32 .f64 x < 2 ^ 64 ∧
    ¬ convert .f32 .f64 x % 2 ^ (FloatFmt.f64.exp + FloatFmt.f64.frac) ≤ FloatFmt.f64.inf := by
  rw [convert, if_pos (by omega), signed]
  split <;> decide

theorem convert_lt (x : Nat) : convert .f32 .f64 x < 2 ^ 64 := by
  by_cases h : x % 2 ^ (FloatFmt.f32.exp + FloatFmt.f32.frac) ≤ FloatFmt.f32.inf
  · rw [convert, if_neg (by omega)]
    have hi : FloatFmt.f64.inf < 2 ^ 63 := by decide
    have hB : ∀ B, B ≤ FloatFmt.f64.inf → ∀ s, FloatFmt.f64.signed s B < 2 ^ 64 := by
      intro B hB s
      rw [signed]
      have : FloatFmt.f64.exp + FloatFmt.f64.frac = 63 := rfl
      rw [this]
      split <;> omega
    apply hB
    split
    · exact le_refl _
    · exact round_le _ _ _
  · exact (convert_nan x h).1

/-- std's text of floats, as modelled, meets the contract that the other theorems assume. -/
@[instance_reducible] def stdFloat : LawfulFloatText where
  toFloatText := stdFloatText
  parse64_show64 x h := by
    show (parse .f64 (FloatStd.show .f64 x.toNat)).map UInt64.ofNat = some x
    rw [parse_show .f64 x.toNat_lt ((nan64_iff x).1 h)]
    simp
  parse32_show64 x h := by
    show (parse .f32 (FloatStd.show .f64 (UInt64.ofNat (convert .f32 .f64 x.toNat)).toNat)).map
      UInt32.ofNat = some x
    rw [UInt64.toNat_ofNat_of_lt' (convert_lt _),
      parse_narrow (K := 924) (by decide) (by decide +kernel) (by decide +kernel) x.toNat_lt
        ((nan32_iff x).1 h)]
    simp
  parse64_nan x y h hy := by
    have hx : ¬ x.toNat % 2 ^ (FloatFmt.f64.exp + FloatFmt.f64.frac) ≤ FloatFmt.f64.inf := by
      rw [← nan64_iff, h]; simp
    replace hy : (parse .f64 (FloatStd.show .f64 x.toNat)).map UInt64.ofNat = some y := hy
    rw [show_nan _ _ hx, parse_nan] at hy
    simp at hy
    rw [← hy]
    decide
  parse32_nan x y h hy := by
    have hx : ¬ x.toNat % 2 ^ (FloatFmt.f32.exp + FloatFmt.f32.frac) ≤ FloatFmt.f32.inf := by
      rw [← nan32_iff, h]; simp
    replace hy : (parse .f32 (FloatStd.show .f64 (UInt64.ofNat (convert .f32 .f64 x.toNat)).toNat)).map
      UInt32.ofNat = some y := hy
    rw [UInt64.toNat_ofNat_of_lt' (convert_lt _), show_nan _ _ (convert_nan _ hx).2, parse_nan] at hy
    simp at hy
    rw [← hy]
    decide
  show64_alnum x c hc := by
    replace hc : c ∈ FloatStd.show .f64 x.toNat := hc
    have hdig : ∀ c : Char, c.isDigit = true → c.isAlphanum = true := fun c h => by
      simp [Char.isAlphanum, h]
    rw [FloatStd.show] at hc
    dsimp only at hc
    split at hc
    · left; revert c; decide
    · have hs : ∀ c, c ∈ (if x.toNat % 2 ^ (FloatFmt.f64.exp + FloatFmt.f64.frac) = FloatFmt.f64.inf
          then "inf".toList else showMag .f64 (x.toNat % 2 ^ (FloatFmt.f64.exp + FloatFmt.f64.frac))) →
          c.isAlphanum = true ∨ c = '-' ∨ c = '.' := by
        intro c hc
        split at hc
        · left; revert c; decide
        · rcases showMag_chars _ _ c hc with h | h
          · exact .inl (hdig c h)
          · exact .inr (.inr h)
      split at hc
      · rcases List.mem_cons.1 hc with h | h
        · exact .inr (.inl h)
        · exact hs c h
      · exact hs c hc
  show64_some_alnum x := by
    show ∃ c ∈ FloatStd.show .f64 x.toNat, c.isAlphanum = true
    rw [FloatStd.show]
    dsimp only
    split
    · exact ⟨'N', by decide, by decide⟩
    · have hs : ∃ c, c ∈ (if x.toNat % 2 ^ (FloatFmt.f64.exp + FloatFmt.f64.frac) = FloatFmt.f64.inf
          then "inf".toList else showMag .f64 (x.toNat % 2 ^ (FloatFmt.f64.exp + FloatFmt.f64.frac))) ∧
          c.isAlphanum = true := by
        split
        · exact ⟨'i', by decide, by decide⟩
        · obtain ⟨c, s, h1, h2⟩ := showMag_first .f64
            (x.toNat % 2 ^ (FloatFmt.f64.exp + FloatFmt.f64.frac))
          exact ⟨c, by rw [h1]; simp, by simp [Char.isAlphanum, h2]⟩
      obtain ⟨c, h1, h2⟩ := hs
      split
      · exact ⟨c, List.mem_cons_of_mem _ h1, h2⟩
      · exact ⟨c, h1, h2⟩

/-! ### The meaning of texts -/

theorem infBits_eq (f : FloatFmt) : infBits f = f.inf := rfl

/-- The model counts in units; this is the number. -/
theorem mag_value (f : FloatFmt) (h : 2 ≤ f.exp) (b : Nat) :
    (f.mag b : ℚ) = floatValue f b * 2 ^ f.scale := by
  have hsc : ((f.scale : Nat) : Int) = bias f - 1 + f.frac := by
    have h2 : 2 ≤ 2 ^ (f.exp - 1) := by
      calc 2 = 2 ^ 1 := rfl
        _ ≤ 2 ^ (f.exp - 1) := Nat.pow_le_pow_right (by omega) (by omega)
    rw [scale, bias]
    push_cast [Nat.cast_sub h2]
    omega
  have hs : (2 : ℚ) ^ f.scale = 2 ^ (bias f - 1) * 2 ^ f.frac := by
    rw [← zpow_natCast, hsc, zpow_add₀ (by norm_num), zpow_natCast]
  have hF : (2 : ℚ) ^ f.frac ≠ 0 := by positivity
  rw [hs, mag, floatValue]
  split
  · rw [show (1 - bias f) = -(bias f - 1) by ring, zpow_neg]
    have : (2 : ℚ) ^ (bias f - 1) ≠ 0 := by positivity
    field_simp
  · rename_i h0
    obtain ⟨k, hk⟩ : ∃ k, b / 2 ^ f.frac = k + 1 := ⟨b / 2 ^ f.frac - 1, (Nat.sub_add_cancel (Nat.pos_of_ne_zero h0)).symm⟩
    rw [hk]
    have : (2 : ℚ) ^ (((k + 1 : Nat) : Int) - bias f) * 2 ^ (bias f - 1) = 2 ^ k := by
      rw [← zpow_add₀ (by norm_num), show ((k + 1 : Nat) : Int) - bias f + (bias f - 1) = k by
        push_cast; ring, zpow_natCast]
    rw [Nat.add_sub_cancel]
    push_cast at this ⊢
    rw [← this]
    field_simp

/-- The nearest number is unique, and what rounding finds. -/
theorem nearest_iff (f : FloatFmt) (hf : 2 ≤ f.exp) {n d : Nat} (hd : 0 < d) {v : ℚ}
    (hv : (n / d : ℚ) = v * 2 ^ f.scale) (b : Nat) : Nearest f v b ↔ f.round n d = b := by
  have hS : (0 : ℚ) < 2 ^ f.scale := by positivity
  have hoff : ∀ c, f.off (n / d) c = |v - floatValue f c| * 2 ^ f.scale := by
    intro c
    rw [off, hv, mag_value f hf, ← sub_mul, abs_mul, abs_of_pos hS]
  have near : Nearest f v (f.round n d) := by
    refine ⟨round_le f n d, fun c hc hne => ?_⟩
    have h := round_nearest f hd c hc hne
    rw [hoff, hoff] at h
    rcases h with h | ⟨h, h'⟩
    · exact .inl (lt_of_mul_lt_mul_right h hS.le)
    · exact .inr ⟨mul_right_cancel₀ hS.ne' h, h'⟩
  constructor
  · intro h
    by_contra hne
    -- two nearest numbers are both even; the one between them is nearer
    have h1 := h.2 _ near.1 hne
    have h2 := near.2 _ h.1 (Ne.symm hne)
    have heq : |v - floatValue f b| = |v - floatValue f (f.round n d)| := by
      rcases h1 with h1 | ⟨h1, -⟩
      · rcases h2 with h2 | ⟨h2, -⟩
        · exact absurd h1 (not_lt.2 h2.le)
        · exact h2.symm
      · exact h1
    have e1 : b % 2 = 0 := by
      rcases h1 with h1 | ⟨-, h1⟩
      · exact absurd heq h1.ne
      · exact h1
    have e2 : f.round n d % 2 = 0 := by
      rcases h2 with h2 | ⟨-, h2⟩
      · exact absurd heq h2.ne'
      · exact h2
    generalize f.round n d = r at *
    have key : ∀ a c, a < c → a % 2 = 0 → c % 2 = 0 → c ≤ infBits f → Nearest f v a →
        |v - floatValue f a| = |v - floatValue f c| → False := by
      intro a c hac ha hc hci hna he
      have h3 := hna.2 (a + 1) (by omega) (by omega)
      have l1 : floatValue f a < floatValue f (a + 1) := by
        refine lt_of_mul_lt_mul_right ?_ hS.le
        rw [← mag_value f hf, ← mag_value f hf]
        exact castLt (by omega)
      have l2 : floatValue f (a + 1) < floatValue f c := by
        refine lt_of_mul_lt_mul_right ?_ hS.le
        rw [← mag_value f hf, ← mag_value f hf]
        exact castLt (by omega)
      have h3' : |v - floatValue f a| ≤ |v - floatValue f (a + 1)| := by
        rcases h3 with h3 | ⟨h3, -⟩
        · exact h3.le
        · exact h3.le
      have hmid : v - floatValue f a = -(v - floatValue f c) := by
        rcases abs_eq_abs.1 he with h | h
        · linarith
        · exact h
      have p1 : |v - floatValue f a| = v - floatValue f a := abs_of_nonneg (by linarith)
      rw [p1] at h3'
      have : |v - floatValue f (a + 1)| < v - floatValue f a := by
        rw [abs_lt]
        constructor <;> linarith
      linarith
    rcases Nat.lt_or_gt_of_ne hne with h' | h'
    · exact key r b h' e2 e1 h.1 near heq.symm
    · exact key b r h' e1 e2 near.1 h heq
  · rintro rfl
    exact near

theorem parseDigits_some {s : Str} {n : Nat} :
    parseDigits s = some n ↔ Digits s ∧ n = digitsValue s := by
  rw [JsonCodec.digits_iff, parseDigits]
  split
  · rename_i h
    simp only [List.all_eq_true] at h
    simp only [Option.some.injEq, h, ne_eq, not_false_eq_true, true_and]
    constructor
    · rintro rfl; exact ⟨h.2, rfl⟩
    · rintro ⟨-, rfl⟩; rfl
  · rename_i h
    simp only [List.all_eq_true] at h
    simp only [reduceCtorEq, false_iff]
    exact fun h' => h h'.1

theorem exponent_iff {s : Str} {e : Int} : exponent s = some e ↔ Denotes s e := by
  constructor
  · intro h
    rw [exponent.eq_def] at h
    split at h
    · obtain ⟨n, h1, rfl⟩ := Option.map_eq_some_iff.1 h
      obtain ⟨h2, rfl⟩ := parseDigits_some.1 h1
      exact .plus h2
    · obtain ⟨n, h1, rfl⟩ := Option.map_eq_some_iff.1 h
      obtain ⟨h2, rfl⟩ := parseDigits_some.1 h1
      exact .minus h2
    · obtain ⟨n, h1, rfl⟩ := Option.map_eq_some_iff.1 h
      obtain ⟨h2, rfl⟩ := parseDigits_some.1 h1
      exact .plain h2
  · intro h
    cases h with
    | plain h =>
      rw [exponent.eq_def]
      split
      · exact absurd ((JsonCodec.digits_iff.1 h).2 '+' (by simp)) (by decide)
      · exact absurd ((JsonCodec.digits_iff.1 h).2 '-' (by simp)) (by decide)
      · rw [parseDigits_some.2 ⟨h, rfl⟩]; rfl
    | plus h => simp only [exponent]; rw [parseDigits_some.2 ⟨h, rfl⟩]; rfl
    | minus h => simp only [exponent]; rw [parseDigits_some.2 ⟨h, rfl⟩]; rfl

theorem takeWhile_digits (s : Str) : ∀ c ∈ s.takeWhile Char.isDigit, c.isDigit = true := by
  intro c hc
  induction s with
  | nil => simp at hc
  | cons d s ih =>
    rw [List.takeWhile_cons] at hc
    split at hc
    · rcases List.mem_cons.1 hc with rfl | hc
      · assumption
      · exact ih hc
    · simp at hc

/-- What follows digits, a point and digits. -/
theorem number_tail {v : ℚ} {s t : Str} {d : Nat} {k : Nat} {e : Int}
    (hd : DecimalText s v) (hv : v = d / 10 ^ k)
    (he : ending t = some e) :
    NumberText (s ++ t) (d * (10 : ℚ) ^ (e - (k : Int))) := by
  have hval : v * 10 ^ e = d * (10 : ℚ) ^ (e - (k : Int)) := by
    rw [hv, zpow_sub₀ (by norm_num), zpow_natCast]
    ring
  rw [ending.eq_def] at he
  split at he
  · cases he
    rw [List.append_nil, ← hval, zpow_zero, mul_one]
    exact .plain hd
  · split at he
    · rename_i hc
      rw [← hval]
      exact .exp hd hc (exponent_iff.1 he)
    · cases he

theorem number_text {s : Str} {d : Nat} {e : Int} (h : number s = some (.dec d e)) :
    NumberText s (d * (10 : ℚ) ^ e) := by
  have hs := List.takeWhile_append_dropWhile (p := Char.isDigit) (l := s)
  have hi := takeWhile_digits s
  simp only [number] at h
  rw [Option.ite_none_left_eq_some] at h
  obtain ⟨hne, h⟩ := h
  generalize s.takeWhile Char.isDigit = ip at *
  generalize s.dropWhile Char.isDigit = r at *
  rw [fraction.eq_def] at hne h
  split at h
  · rename_i r
    simp only at hne h
    have hr := List.takeWhile_append_dropWhile (p := Char.isDigit) (l := r)
    have hf := takeWhile_digits r
    generalize r.takeWhile Char.isDigit = fp at *
    generalize r.dropWhile Char.isDigit = t at *
    obtain ⟨e0, h1, h2⟩ := Option.map_eq_some_iff.1 h
    cases h2
    have hd : Digits (ip ++ fp) := JsonCodec.digits_iff.2 ⟨by simpa using hne, by
      intro c hc
      rcases List.mem_append.1 hc with hc | hc
      · exact hi c hc
      · exact hf c hc⟩
    have := number_tail (.point hd) rfl h1
    rw [← hs, ← hr]
    rw [List.append_assoc] at this
    exact this
  · simp only [List.append_nil, and_true] at hne h
    obtain ⟨e0, h1, h2⟩ := Option.map_eq_some_iff.1 h
    cases h2
    have hd : Digits ip := JsonCodec.digits_iff.2 ⟨hne, hi⟩
    have := number_tail (.int hd) (k := 0) (by simp; rfl) h1
    rw [← hs]
    exact this

theorem decimal_number {s t : Str} {v : ℚ} {e : Int} (h : DecimalText s v)
    (ht : ∀ c ∈ t.head?, c.isDigit = false) (hdot : ∀ c ∈ t.head?, c ≠ '.') (he : ending t = some e) :
    ∃ d e', number (s ++ t) = some (.dec d e') ∧ (d : ℚ) * (10 : ℚ) ^ e' = v * 10 ^ e := by
  cases h with
  | int h =>
    obtain ⟨hne, hall⟩ := JsonCodec.digits_iff.1 h
    obtain ⟨h1, h2⟩ := FloatStd.takeWhile_all hall ht
    have h3 : fraction t = ([], t) := by
      cases t with
      | nil => rfl
      | cons c t =>
        rw [fraction.eq_def]
        split
        · rename_i heq; cases heq; exact absurd rfl (hdot '.' rfl)
        · rfl
    refine ⟨digitsValue s, e, ?_, rfl⟩
    simp only [number, h1, h2, h3, hne, false_and, if_false, he, List.append_nil]
    simp
    rfl
  | @point ip fp h =>
    obtain ⟨hne, hall⟩ := JsonCodec.digits_iff.1 h
    obtain ⟨h1, h2⟩ := FloatStd.takeWhile_all (ds := ip) (r := '.' :: (fp ++ t))
      (fun c hc => hall c (List.mem_append_left _ hc)) (by simp)
    obtain ⟨h3, h4⟩ := FloatStd.takeWhile_all (ds := fp) (r := t)
      (fun c hc => hall c (List.mem_append_right _ hc)) ht
    refine ⟨digitsValue (ip ++ fp), e - fp.length, ?_, ?_⟩
    · rw [List.append_assoc, List.cons_append]
      simp only [number, h1, h2, fraction, h3, h4, he]
      rw [if_neg (by simpa using hne)]
      rfl
    · rw [zpow_sub₀ (by norm_num), zpow_natCast]
      ring

theorem text_number {s : Str} {v : ℚ} (h : NumberText s v) :
    ∃ d e, number s = some (.dec d e) ∧ (d : ℚ) * (10 : ℚ) ^ e = v := by
  cases h with
  | plain h =>
    obtain ⟨d, e, h1, h2⟩ := decimal_number (t := []) h (by simp) (by simp) rfl
    exact ⟨d, e, by simpa using h1, by simpa using h2⟩
  | exp h hc ht =>
    refine decimal_number h ?_ ?_ ?_
    · intro c h'
      cases h'
      rcases hc with rfl | rfl <;> decide
    · intro c h'
      cases h'
      rcases hc with rfl | rfl <;> decide
    · rw [ending, if_pos hc]
      exact exponent_iff.2 ht

theorem lower_first {s : Str} {c : Char} {t : Str} (h : s.map Char.toLower = c :: t)
    (hc : c.isDigit = false) (hdot : c ≠ '.') : number s = none := by
  cases s with
  | nil => cases h
  | cons d s =>
    simp only [List.map_cons, List.cons.injEq] at h
    have hlow : d.isDigit = true ∨ d = '.' → d.toLower = d := by
      intro hd
      have : ¬ (d.val ≥ 'A'.val ∧ d.val ≤ 'Z'.val) := by
        rintro ⟨h1, h2⟩
        have h1' : 65 ≤ d.toNat := h1
        rcases hd with hd | rfl
        · have := (isDigit_iff d).1 hd
          have : d.toNat ≤ 57 := this.2
          omega
        · revert h1'; decide
      unfold Char.toLower
      rw [dif_neg this]
    have h1 : d.isDigit = false := by
      cases hd : d.isDigit with
      | false => rfl
      | true => rw [hlow (.inl hd)] at h; rw [← h.1, hd] at hc; cases hc
    have h2 : d ≠ '.' := by
      intro hd
      rw [hlow (.inr hd)] at h
      exact hdot (h.1 ▸ hd)
    have h3 : fraction (d :: s) = ([], d :: s) := by
      rw [fraction.eq_def]
      split
      · rename_i heq; cases heq; exact absurd rfl h2
      · rfl
    simp [number, h1, h3]

theorem literal_iff (f : FloatFmt) (hf : 2 ≤ f.exp) (s : Str) (b : Nat) :
    (∃ l, literal s = some l ∧ f.bits l = b) ↔ Unsigned f s b := by
  constructor
  · rintro ⟨l, h, rfl⟩
    rw [literal] at h
    split at h
    · rename_i l' hn
      cases h
      obtain ⟨d, e, rfl⟩ := number_dec hn
      obtain ⟨n, k, hk, e1, h1⟩ := bits_dec f d e
      exact .number (number_text hn) ((nearest_iff f hf hk h1 _).2 e1.symm)
    · simp only [special] at h
      split at h
      · cases h
        rename_i h'
        exact .inf h'
      · split at h
        · cases h
          rename_i h'
          exact .nan h'
        · cases h
  · intro h
    cases h with
    | number h1 h2 =>
      obtain ⟨d, e, h3, h4⟩ := text_number h1
      obtain ⟨n, k, hk, e1, h5⟩ := bits_dec f d e
      rw [h4] at h5
      exact ⟨_, by rw [literal, h3], by rw [e1]; exact (nearest_iff f hf hk h5 b).1 h2⟩
    | inf h =>
      refine ⟨.inf, ?_, rfl⟩
      have hn : number s = none := by
        rcases h with h | h
        · exact lower_first h (by decide) (by decide)
        · exact lower_first h (by decide) (by decide)
      rw [literal, hn]
      simp only [special, h, if_true]
    | nan h =>
      refine ⟨.nan, ?_, rfl⟩
      have hn : number s = none := lower_first h (by decide) (by decide)
      rw [literal, hn]
      simp only [special, h]
      rfl

theorem literal_sign (c : Char) (hc : c = '-' ∨ c = '+') (s : Str) : literal (c :: s) = none := by
  have hl : (c :: s).map Char.toLower = c :: s.map Char.toLower := by
    rcases hc with rfl | rfl <;> rfl
  have hn : number (c :: s) = none :=
    lower_first hl (by rcases hc with rfl | rfl <;> decide) (by rcases hc with rfl | rfl <;> decide)
  rw [literal, hn]
  simp only [special, hl]
  rcases hc with rfl | rfl <;> simp

theorem parse_iff (f : FloatFmt) (hf : 2 ≤ f.exp) (s : Str) (x : Nat) :
    parse f s = some x ↔ FloatReads f s x := by
  constructor
  · intro h
    rw [parse.eq_def] at h
    split at h
    · obtain ⟨l, h1, rfl⟩ := Option.map_eq_some_iff.1 h
      exact .minus ((literal_iff f hf _ _).1 ⟨l, h1, rfl⟩)
    · obtain ⟨l, h1, rfl⟩ := Option.map_eq_some_iff.1 h
      exact .plus ((literal_iff f hf _ _).1 ⟨l, h1, rfl⟩)
    · obtain ⟨l, h1, rfl⟩ := Option.map_eq_some_iff.1 h
      exact .plain ((literal_iff f hf _ _).1 ⟨l, h1, rfl⟩)
  · intro h
    cases h with
    | plain h =>
      obtain ⟨l, h1, rfl⟩ := (literal_iff f hf _ _).2 h
      rw [parse.eq_def]
      split
      · rw [literal_sign _ (.inl rfl)] at h1; cases h1
      · rw [literal_sign _ (.inr rfl)] at h1; cases h1
      · rw [h1]; rfl
    | plus h =>
      obtain ⟨l, h1, rfl⟩ := (literal_iff f hf _ _).2 h
      simp only [parse, h1]; rfl
    | minus h =>
      obtain ⟨l, h1, rfl⟩ := (literal_iff f hf _ _).2 h
      simp only [parse, h1]; rfl

/-! ### C98: floats survive -/

/-- The value `v` is sent and arrives as the `w` of type `t`: from a path, from a query and from
headers. -/
def ArrivesAs [FloatText] (v : Val) (t : Ty) (w : Val) : Prop :=
  (∀ o, ∃ path target, serPath [.var] ['/'] (.tuple [v]) = .ok path ∧
    parseTarget o path = some target ∧ dePath [.var] (.tuple [t]) target.segs = .ok (.tuple [w])) ∧
  (∀ n, ∃ q, serQuery (.struct [(n, v)]) = .ok q ∧
    deQuery (.struct [(n, t)]) (some q) = .ok (.struct [(n, w)])) ∧
  (∀ n, LowerName n → ∃ own, serHeaders [] (.struct [(n, v)]) = .ok own ∧
    deHeaders (.struct [(n, t)]) own = .ok (.struct [(n, w)]))

theorem arrives_of_read [FloatText] {v w : Val} {s : Str} {t : Ty} (h : SentAs v s) (ha : Ascii s)
    (hn : NoTabNl s) (hd : ¬ Dots s) (h1 : readArg t s = some w)
    (h2 : readText t s = some w) (h3 : readBytes t (utf8 s) = some w) : ArrivesAs v t w := by
  refine ⟨fun o => ?_, fun n => ?_, fun n hl => ?_⟩
  · have hs := serPath_tuple (.tuple [v]) (PathSer.writes_of_sent (.cons h .nil)) [.var] ['/']
    rw [if_pos (show varCount [.var] = [s].length from rfl)] at hs
    have hc : Carried (instantiate [.var] [s]) :=
      ⟨by simp [instantiate], by simpa [instantiate] using hd, .inl rfl⟩
    refine ⟨_, _, hs, parseTarget_push_none o hc, ?_⟩
    have hseg : readSegments [t] [encodeSegment s] = some [w] := by
      simp only [readSegments, readSegment_eq]
      rw [percentDecode_encodeSegment, strip_of_noTabNl hn, latin1_ascii ha]
      simp [h1]
    have hr := C63_path_read_exactly [.var] [encodeSegment s] (.cons trivial .nil) [t] rfl
    rw [show Spec.«variables» [.var] [encodeSegment s] = [encodeSegment s] from rfl, hseg] at hr
    exact hr
  · refine ⟨_, serQuery_struct (ps := [(n, s)]) (.present (.sent h) .nil), ?_⟩
    have hpf : formParse ((some (formText [(n, s)])).getD []) = [(n, s)] := formParse_formText _
    rw [deQuery_tame (by simp [DistinctNames]) (by rw [hpf]; simp [Tame]), hpf]
    simp [readStruct, collectFields, fieldValue, h2, Res.ofOption]
  · refine ⟨_, serHeaders_struct (es := [(n, utf8 s)]) (.present (.sent h) .nil) [], ?_⟩
    rw [List.nil_append, deHeaders_struct (by simp [DistinctNames]) ?_,
      entries_headersOf (by simpa using hl)]
    · simp [readStruct, collectFields, fieldValue, h3, Res.ofOption]
    · intro h hh b hb
      simp [headersOf] at hh
      subst hh
      exact utf8_lowerName_ascii hl b hb

/-- **C98.** The contract on the text of floats that the other theorems assume is met by std's text. -/
theorem C98_contract : ∃ l : LawfulFloatText, l.toFloatText = stdFloatText := ⟨stdFloat, rfl⟩

/-- **C98.** Every `f64` that is a number arrives bit by bit. -/
theorem C98_f64 (x : UInt64) (hx : isNaN64 x = false) :
    letI := stdFloat
    ArrivesAs (.f64 x) .f64 (.f64 x) := by
  let := stdFloat
  exact ⟨fun o => (plain_arrives (.f64 x hx) (by simp) (by simp) (.f64 x) []).1 o,
    fun n => (plain_arrives (.f64 x hx) (by simp) (by simp) (.f64 x) n).2.1,
    fun n => (plain_arrives (.f64 x hx) (by simp) (by simp) (.f64 x) n).2.2⟩

/-- **C98.** Every `f32` that is a number arrives bit by bit. -/
theorem C98_f32 (x : UInt32) (hx : isNaN32 x = false) :
    letI := stdFloat
    ArrivesAs (.f32 x) .f32 (.f32 x) := by
  let := stdFloat
  exact ⟨fun o => (plain_arrives (.f32 x hx) (by simp) (by simp) (.f32 x) []).1 o,
    fun n => (plain_arrives (.f32 x hx) (by simp) (by simp) (.f32 x) n).2.1,
    fun n => (plain_arrives (.f32 x hx) (by simp) (by simp) (.f32 x) n).2.2⟩

/-- **C98.** What is not a number arrives as something that is not a number. -/
theorem C98_nan (x : UInt64) (y : UInt32) (hx : isNaN64 x = true) (hy : isNaN32 y = true) :
    letI := stdFloat
    (∃ z, isNaN64 z = true ∧ ArrivesAs (.f64 x) .f64 (.f64 z)) ∧
      ∃ z, isNaN32 z = true ∧ ArrivesAs (.f32 y) .f32 (.f32 z) := by
  let := stdFloat
  have hx' : ¬ x.toNat % 2 ^ (FloatFmt.f64.exp + FloatFmt.f64.frac) ≤ FloatFmt.f64.inf := by
    rw [← nan64_iff, hx]; simp
  have hy' : ¬ y.toNat % 2 ^ (FloatFmt.f32.exp + FloatFmt.f32.frac) ≤ FloatFmt.f32.inf := by
    rw [← nan32_iff, hy]; simp
  have ex : FloatText.show64 x = "NaN".toList := show_nan _ _ hx'
  have ey : FloatText.show64 (FloatText.widen y) = "NaN".toList := by
    show FloatStd.show .f64 (UInt64.ofNat (convert .f32 .f64 y.toNat)).toNat = _
    rw [UInt64.toNat_ofNat_of_lt' (convert_lt _)]
    exact show_nan _ _ (convert_nan _ hy').2
  have sx : SentAs (.f64 x) "NaN".toList := ex ▸ .f64 x
  have sy : SentAs (.f32 y) "NaN".toList := ey ▸ .f32 y
  have px : FloatText.parse64 "NaN".toList = some (UInt64.ofNat FloatFmt.f64.nan) := by
    show (parse .f64 _).map UInt64.ofNat = _
    rw [parse_nan]; rfl
  have py : FloatText.parse32 "NaN".toList = some (UInt32.ofNat FloatFmt.f32.nan) := by
    show (parse .f32 _).map UInt32.ofNat = _
    rw [parse_nan]; rfl
  obtain ⟨h1, h2, -, h4⟩ := harmless (s := "NaN".toList) (by decide) ⟨'N', by decide⟩
  have hu : fromUtf8 (utf8 "NaN".toList) = some "NaN".toList := fromUtf8_utf8 _
  generalize "NaN".toList = s at *
  refine ⟨⟨_, ?_, arrives_of_read sx h1 h2 h4 (w := .f64 (UInt64.ofNat FloatFmt.f64.nan)) ?_ ?_ ?_⟩,
    _, ?_, arrives_of_read sy h1 h2 h4 (w := .f32 (UInt32.ofNat FloatFmt.f32.nan)) ?_ ?_ ?_⟩
  · decide
  · rw [readArg, px]; rfl
  · rw [readText, px]; rfl
  · rw [readBytes, hu]; simp [px]
  · decide
  · rw [readArg, py]; rfl
  · rw [readText, py]; rfl
  · rw [readBytes, hu]; simp [py]

/-- **C98.** The text of an `f64` denotes the number, for every program that reads decimal numbers by
the rules of IEEE 754. -/
theorem C98_text (x : UInt64) (hx : isNaN64 x = false) :
    letI := stdFloat
    FloatReads .f64 (FloatText.show64 x) x.toNat :=
  (parse_iff .f64 (by decide) _ _).1 (parse_show .f64 x.toNat_lt ((nan64_iff x).1 hx))

theorem convert_value {f g : FloatFmt} (hf2 : 2 ≤ f.exp) (hg2 : 2 ≤ g.exp) {K : Nat}
    (hfrac : f.frac < g.frac) (hK : g.scale = f.scale + (K + 1))
    (hinf : f.mag f.inf * 2 ^ (K + 1) < g.mag g.inf) {x : Nat}
    (h : x % 2 ^ (f.exp + f.frac) < f.inf) :
    floatValue g (convert f g x % 2 ^ (g.exp + g.frac)) = floatValue f (x % 2 ^ (f.exp + f.frac)) ∧
      convert f g x % 2 ^ (g.exp + g.frac) < g.inf ∧
      convert f g x / 2 ^ (g.exp + g.frac) = x / 2 ^ (f.exp + f.frac) % 2 := by
  have hGp := Nat.two_pow_pos (g.exp + g.frac)
  rw [convert]
  try dsimp only
  rw [if_neg (by omega), if_neg (by omega)]
  generalize x % 2 ^ (f.exp + f.frac) = b at h
  obtain ⟨m, k, e, hm⟩ := mag_digits f b
  obtain ⟨b', hb'⟩ := mag_surj g (m := m) (k + (K + 1))
    (lt_of_lt_of_le hm (Nat.pow_le_pow_right (by omega) (by omega)))
  have hmag : g.mag b' = f.mag b * 2 ^ (K + 1) := by rw [hb', e, pow_add, Nat.mul_assoc]
  have hlt : b' < g.inf := by
    refine (mag_lt_iff g).1 ?_
    rw [hmag]
    exact lt_of_le_of_lt (Nat.mul_le_mul_right _ ((mag_le_iff f).2 h.le)) hinf
  have hr : g.round (f.mag b * 2 ^ g.scale) (2 ^ f.scale) = b' := by
    refine round_exact g (Nat.two_pow_pos _) hlt.le ?_
    rw [hmag, hK, pow_add]
    push_cast
    field_simp
  have hBlt := lt_trans hlt (inf_lt g)
  rw [hr]
  have hmod : ∀ s, g.signed s b' % 2 ^ (g.exp + g.frac) = b' := by
    intro s
    rw [signed]
    split
    · rw [Nat.add_mod_left, Nat.mod_eq_of_lt hBlt]
    · rw [Nat.mod_eq_of_lt hBlt]
  rw [hmod]
  refine ⟨?_, hlt, ?_⟩
  · have h1 := mag_value g hg2 b'
    have h2 := mag_value f hf2 b
    have h3 : (g.mag b' : ℚ) = f.mag b * 2 ^ (K + 1) := by exact_mod_cast hmag
    rw [h1, h2, hK, pow_add, ← mul_assoc] at h3
    have hp : (2 : ℚ) ^ f.scale ≠ 0 := by positivity
    have hp' : (2 : ℚ) ^ (K + 1) ≠ 0 := by positivity
    exact mul_right_cancel₀ hp (mul_right_cancel₀ hp' h3)
  · rw [signed]
    rcases Nat.mod_two_eq_zero_or_one (x / 2 ^ (f.exp + f.frac)) with hq | hq
    · simp [hq, Nat.div_eq_of_lt hBlt]
    · simp [hq, Nat.add_div_left _ hGp, Nat.div_eq_of_lt hBlt]

/-- **C98.** What is sent for a finite `f32` is the text of an `f64` with the same value and sign. -/
theorem C98_f32_text (x : UInt32) (hx : x.toNat % 2 ^ 31 < 255 * 2 ^ 23) :
    letI := stdFloat
    ∃ y : UInt64, SentAs (.f32 x) (FloatText.show64 y) ∧
      floatValue .f64 (y.toNat % 2 ^ 63) = floatValue .f32 (x.toNat % 2 ^ 31) ∧
      y.toNat / 2 ^ 63 = x.toNat / 2 ^ 31 ∧ FloatReads .f64 (FloatText.show64 y) y.toNat := by
  let := stdFloat
  obtain ⟨h1, h2, h3⟩ := convert_value (f := .f32) (g := .f64) (K := 924) (by decide) (by decide)
    (by decide) (by decide +kernel) (by decide +kernel) (x := x.toNat) (by rw [f32_inf]; exact hx)
  have hw : (FloatText.widen x).toNat = convert .f32 .f64 x.toNat :=
    UInt64.toNat_ofNat_of_lt' (convert_lt _)
  rw [← hw] at h1 h2 h3
  have hlt := x.toNat_lt
  refine ⟨FloatText.widen x, .f32 x, h1, ?_, C98_text _ ((nan64_iff _).2 h2.le)⟩
  have e1 : FloatFmt.f32.exp + FloatFmt.f32.frac = 31 := rfl
  have e2 : FloatFmt.f64.exp + FloatFmt.f64.frac = 63 := rfl
  rw [e1, e2] at h3
  rw [h3]
  omega

/-! ### C99: the texts of floats -/

theorem reads_lt {f : FloatFmt} (hf : f.inf + 2 ^ (f.frac - 1) < 2 ^ (f.exp + f.frac)) {s : Str}
    {b : Nat} (h : FloatReads f s b) : b < 2 ^ (f.exp + f.frac + 1) := by
  have hp := Nat.two_pow_pos (f.frac - 1)
  have hu : ∀ s b, Unsigned f s b → b < 2 ^ (f.exp + f.frac) := by
    intro s b h
    cases h with
    | number _ h => exact Nat.lt_of_le_of_lt h.1 (by rw [FloatFmt.inf] at hf; rw [infBits]; omega)
    | inf => rw [FloatFmt.inf] at hf; rw [infBits]; omega
    | nan => rw [FloatFmt.inf] at hf; rw [infBits]; omega
  rw [Nat.pow_succ]
  cases h with
  | plain h => have := hu _ _ h; omega
  | plus h => have := hu _ _ h; omega
  | minus h => have := hu _ _ h; omega

/-- **C99.** Exactly which texts are read as an `f64`, and as which. -/
theorem C99_f64 (s : Str) (x : UInt64) :
    letI := stdFloat
    FloatText.parse64 s = some x ↔ FloatReads .f64 s x.toNat := by
  show (parse .f64 s).map UInt64.ofNat = some x ↔ _
  rw [Option.map_eq_some_iff]
  constructor
  · rintro ⟨b, hb, rfl⟩
    have h := (parse_iff .f64 (by decide) _ _).1 hb
    rwa [UInt64.toNat_ofNat_of_lt' (reads_lt (by decide) h)]
  · exact fun h => ⟨_, (parse_iff .f64 (by decide) _ _).2 h, by simp⟩

/-- **C99.** Exactly which texts are read as an `f32`, and as which. -/
theorem C99_f32 (s : Str) (x : UInt32) :
    letI := stdFloat
    FloatText.parse32 s = some x ↔ FloatReads .f32 s x.toNat := by
  show (parse .f32 s).map UInt32.ofNat = some x ↔ _
  rw [Option.map_eq_some_iff]
  constructor
  · rintro ⟨b, hb, rfl⟩
    have h := (parse_iff .f32 (by decide) _ _).1 hb
    rwa [UInt32.toNat_ofNat_of_lt' (reads_lt (by decide) h)]
  · exact fun h => ⟨_, (parse_iff .f32 (by decide) _ _).2 h, by simp⟩

/-- Natural numbers with few digits are numbers of the format. -/
theorem round_nat (f : FloatFmt) (hf : 2 ≤ f.exp) {n : Nat} (hn : n < 2 ^ (f.frac + 1))
    (hm : n * 2 ^ f.scale ≤ f.mag f.inf) :
    floatValue f (f.round (n * 2 ^ f.scale) 1) = n := by
  obtain ⟨b, hb⟩ := mag_surj f f.scale hn
  have hr : f.round (n * 2 ^ f.scale) 1 = b :=
    round_exact f (by decide) ((mag_le_iff f).1 (by rw [hb]; exact hm)) (by rw [hb]; simp)
  rw [hr]
  have h1 := mag_value f hf b
  rw [hb] at h1
  push_cast at h1
  exact (mul_right_cancel₀ (by positivity) h1).symm

/-- **C99.** A status that is read as a float (`visit_u16`) is the number. -/
theorem C99_status (n : Nat) (hn : n < 65536) :
    letI := stdFloat
    floatValue .f64 (FloatText.ofNat64 n).toNat = n ∧ floatValue .f32 (FloatText.ofNat32 n).toNat = n := by
  let := stdFloat
  have e64 : (FloatText.ofNat64 n).toNat = FloatFmt.f64.round (n * 2 ^ FloatFmt.f64.scale) 1 :=
    UInt64.toNat_ofNat_of_lt' (Nat.lt_of_le_of_lt (round_le _ _ _) (by decide))
  have e32 : (FloatText.ofNat32 n).toNat = FloatFmt.f32.round (n * 2 ^ FloatFmt.f32.scale) 1 :=
    UInt32.toNat_ofNat_of_lt' (Nat.lt_of_le_of_lt (round_le _ _ _) (by decide))
  rw [e64, e32]
  refine ⟨round_nat _ (by decide) (by simp only [FloatFmt.f64]; omega) ?_,
    round_nat _ (by decide) (by simp only [FloatFmt.f32]; omega) ?_⟩
  · exact Nat.le_trans (Nat.mul_le_mul_right _ hn.le) (by decide +kernel)
  · exact Nat.le_trans (Nat.mul_le_mul_right _ hn.le) (by decide +kernel)

/-! ### Examples -/

section Examples

/-- `C98_f64`: 0.1 as a parameter. -/
example : letI := stdFloat
    FloatText.show64 0x3FB999999999999A = "0.1".toList ∧
    ∃ q, serQuery (.struct [(['x'], .f64 0x3FB999999999999A)]) = .ok q ∧
      deQuery (.struct [(['x'], .f64)]) (some q) = .ok (.struct [(['x'], .f64 0x3FB999999999999A)]) :=
  ⟨by decide +kernel, (C98_f64 _ (by decide)).2.1 _⟩

/-- `C98_f32`: 0.1 as an `f32` is sent with the digits of the nearest `f64`. -/
example : letI := stdFloat
    FloatText.show64 (FloatText.widen 0x3DCCCCCD) = "0.10000000149011612".toList ∧
    ArrivesAs (.f32 0x3DCCCCCD) .f32 (.f32 0x3DCCCCCD) :=
  ⟨by decide +kernel, C98_f32 _ (by decide)⟩

/-- `C98_nan`: the bits of what is not a number may change. -/
example : letI := stdFloat
    FloatText.parse64 (FloatText.show64 0xFFF8000000000001) = some 0x7FF8000000000000 := by
  decide +kernel

/-- `C98_f32_text`: the least positive `f32`. -/
example : letI := stdFloat
    FloatText.widen 1 = 0x36A0000000000000 ∧ floatValue .f32 1 = 1 / 2 ^ 149 := by
  refine ⟨by decide +kernel, ?_⟩
  rw [floatValue, if_pos (by decide), bias]
  norm_num [FloatFmt.f32]

/-- `C99_f64`: exponents, halfway numbers, numbers that are too great, and texts of no number. -/
example : letI := stdFloat
    FloatText.parse64 "-.5E+3".toList = some 0xC07F400000000000 ∧
    FloatText.parse64 "9007199254740993".toList = some 0x4340000000000000 ∧
    FloatText.parse64 "1e400".toList = some 0x7FF0000000000000 ∧
    FloatText.parse64 "-Infinity".toList = some 0xFFF0000000000000 ∧
    FloatText.parse64 ".".toList = none ∧ FloatText.parse64 "1e".toList = none ∧
    FloatText.parse64 "".toList = none ∧ FloatText.parse64 "1,5".toList = none ∧
    FloatText.parse64 " 1".toList = none := by
  decide +kernel

/-- `C99_f32`: a text that is nearest to 1 among the `f32` but not among the `f64`. -/
example : letI := stdFloat
    FloatText.parse32 "1.00000001".toList = some 0x3F800000 ∧
    FloatReads .f32 "1.00000001".toList 0x3F800000 ∧
    FloatText.parse64 "1.00000001".toList = some 0x3FF0000002AF31DC := by
  refine ⟨by decide +kernel, ?_, by decide +kernel⟩
  exact (C99_f32 _ 0x3F800000).1 (by decide +kernel)

/-- `C99_status`. -/
example : letI := stdFloat
    FloatText.ofNat64 404 = 0x4079400000000000 := by decide +kernel

end Examples

end Htrpc
