/-
C103: the text of a floating point number is the shortest one, and of these the closest.
-/
import Verif.Spec.FloatPrint
import Verif.Props.Floats

namespace Htrpc
open Spec FloatFmt FloatStd

/-! ### Numbers and digits -/

theorem reads_dec (f : FloatFmt) (hf : 2 ≤ f.exp) (d : Nat) (e : Int) (b : Nat) :
    f.bits (.dec d e) = b ↔ Nearest f (d * (10 : ℚ) ^ e) b := by
  obtain ⟨n, k, hk, e1, h1⟩ := bits_dec f d e
  rw [e1, nearest_iff f hf hk h1]

/-- Numbers between a number that is read as `b` and the exact value are read as `b`. -/
theorem nearest_between {f : FloatFmt} {v w : ℚ} {b : Nat} (h : Nearest f v b)
    (hw : v ≤ w ∧ w ≤ floatValue f b ∨ floatValue f b ≤ w ∧ w ≤ v) : Nearest f w b := by
  have h1 : |v - floatValue f b| = |v - w| + |w - floatValue f b| := by
    rcases hw with ⟨a, c⟩ | ⟨a, c⟩
    · rw [abs_of_nonpos (by linarith), abs_of_nonpos (by linarith), abs_of_nonpos (by linarith)]
      ring
    · rw [abs_of_nonneg (by linarith), abs_of_nonneg (by linarith), abs_of_nonneg (by linarith)]
      ring
  refine ⟨h.1, fun c hc hne => ?_⟩
  have h2 : |v - floatValue f c| ≤ |v - w| + |w - floatValue f c| := abs_sub_le _ _ _
  rcases h.2 c hc hne with h3 | ⟨h3, h4⟩
  · exact .inl (by linarith)
  · rcases lt_or_eq_of_le (show |w - floatValue f b| ≤ |w - floatValue f c| by linarith) with h5 | h5
    · exact .inl h5
    · exact .inr ⟨h5, h4⟩

theorem InDigits.mono {n m : Nat} {v : ℚ} (h : InDigits n v) (hm : n ≤ m) : InDigits m v := by
  obtain ⟨d, e, h1, h2⟩ := h
  exact ⟨d, e, lt_of_lt_of_le h1 (Nat.pow_le_pow_right (by omega) hm), h2⟩

theorem inDigits_le {n d : Nat} (hn : 0 < n) (h : d ≤ 10 ^ n) (e : Int) :
    InDigits n (d * (10 : ℚ) ^ e) := by
  rcases Nat.lt_or_eq_of_le h with h | h
  · exact ⟨d, e, h, rfl⟩
  · refine ⟨1, e + n, Nat.one_lt_pow (by omega) (by omega), ?_⟩
    rw [h, zpow_add₀ (by norm_num), zpow_natCast]
    push_cast
    ring

section
variable {f : FloatFmt} {b x : Nat}

/-- The exact value in decimal. -/
theorem value_digits (hf : 2 ≤ f.exp) (hx : x = f.mag b * 5 ^ f.scale) :
    floatValue f b = x * (10 : ℚ) ^ (-(f.scale : Int)) := by
  have h := mag_value f hf b
  rw [hx, zpow_neg, zpow_natCast]
  push_cast
  rw [h, show (10 : ℚ) ^ f.scale = 5 ^ f.scale * 2 ^ f.scale by rw [← mul_pow]; norm_num]
  field_simp

/-- The candidates with `l - j` digits. -/
theorem grid {l j : Nat} (hv : floatValue f b = x * (10 : ℚ) ^ (-(f.scale : Int)))
    (hl : 10 ^ (l - 1) ≤ x) (hj : 0 < j) (hjl : j ≤ l - 1)
    {w : ℚ} (hw : Nearest f w b) (hn : InDigits (l - j) w) :
    (w ≤ (x / 10 ^ j : Nat) * (10 : ℚ) ^ ((j : Int) - f.scale) ∧
      Nearest f ((x / 10 ^ j : Nat) * (10 : ℚ) ^ ((j : Int) - f.scale)) b) ∨
    ((x / 10 ^ j + 1 : Nat) * (10 : ℚ) ^ ((j : Int) - f.scale) ≤ w ∧
      Nearest f ((x / 10 ^ j + 1 : Nat) * (10 : ℚ) ^ ((j : Int) - f.scale)) b) := by
  have hS : (0 : ℚ) < 10 ^ (-(f.scale : Int)) := by positivity
  have hpow : ∀ m : Nat, (m : ℚ) * (10 : ℚ) ^ ((j : Int) - f.scale) =
      ((m * 10 ^ j : Nat) : ℚ) * 10 ^ (-(f.scale : Int)) := by
    intro m
    rw [sub_eq_add_neg, zpow_add₀ (by norm_num), zpow_natCast]
    push_cast
    ring
  have hlo : x / 10 ^ j * 10 ^ j ≤ x := Nat.div_mul_le_self _ _
  have hhi : x ≤ (x / 10 ^ j + 1) * 10 ^ j := by
    have := Nat.lt_div_mul_add (a := x) (b := 10 ^ j) (by positivity)
    rw [Nat.add_mul]; omega
  have hlo' : ((x / 10 ^ j : Nat) : ℚ) * (10 : ℚ) ^ ((j : Int) - f.scale) ≤ floatValue f b := by
    rw [hpow, hv]
    exact mul_le_mul_of_nonneg_right (by exact_mod_cast hlo) hS.le
  have hhi' : floatValue f b ≤ ((x / 10 ^ j + 1 : Nat) : ℚ) * (10 : ℚ) ^ ((j : Int) - f.scale) := by
    rw [hpow, hv]
    exact mul_le_mul_of_nonneg_right (by exact_mod_cast hhi) hS.le
  by_cases hc : w ≤ (x / 10 ^ j : Nat) * (10 : ℚ) ^ ((j : Int) - f.scale)
  · exact .inl ⟨hc, nearest_between hw (.inl ⟨hc, hlo'⟩)⟩
  · rw [not_le] at hc
    have key : ((x / 10 ^ j + 1 : Nat) : ℚ) * (10 : ℚ) ^ ((j : Int) - f.scale) ≤ w := by
      obtain ⟨d, e, hd, rfl⟩ := hn
      -- the exponent is at least that of the candidates
      have he : (j : Int) - f.scale ≤ e := by
        by_contra hlt
        rw [not_le] at hlt
        have h1 : (10 : ℚ) ^ (l - 1 - j) ≤ (x / 10 ^ j : Nat) := by
          have : 10 ^ (l - 1 - j) ≤ x / 10 ^ j := by
            rw [Nat.le_div_iff_mul_le (by positivity), ← pow_add]
            rwa [Nat.sub_add_cancel hjl]
          exact_mod_cast this
        have h2 : (d : ℚ) * 10 ^ e < 10 ^ (l - 1 - j) * (10 : ℚ) ^ ((j : Int) - f.scale) := by
          have h3 : (d : ℚ) < 10 ^ (l - j) := by exact_mod_cast hd
          have h4 : (10 : ℚ) ^ e ≤ (10 : ℚ) ^ ((j : Int) - f.scale - 1) :=
            zpow_le_zpow_right₀ (by norm_num) (by omega)
          have h5 : (0 : ℚ) < 10 ^ e := by positivity
          calc (d : ℚ) * 10 ^ e < 10 ^ (l - j) * 10 ^ e := mul_lt_mul_of_pos_right h3 h5
            _ ≤ 10 ^ (l - j) * (10 : ℚ) ^ ((j : Int) - f.scale - 1) :=
              mul_le_mul_of_nonneg_left h4 (by positivity)
            _ = 10 ^ (l - 1 - j) * (10 : ℚ) ^ ((j : Int) - f.scale) := by
              rw [show l - j = l - 1 - j + 1 by omega, pow_succ, zpow_sub₀ (by norm_num) _ 1,
                zpow_one]
              ring
        have h6 := mul_le_mul_of_nonneg_right h1
          (show (0 : ℚ) ≤ (10 : ℚ) ^ ((j : Int) - f.scale) by positivity)
        linarith
      obtain ⟨k, hk⟩ := Int.le.dest he
      have hm : (d : ℚ) * 10 ^ e = ((d * 10 ^ k : Nat) : ℚ) * (10 : ℚ) ^ ((j : Int) - f.scale) := by
        rw [← hk, zpow_add₀ (by norm_num), zpow_natCast]
        push_cast
        ring
      rw [hm] at hc ⊢
      have hP : (0 : ℚ) < (10 : ℚ) ^ ((j : Int) - f.scale) := by positivity
      have := lt_of_mul_lt_mul_right hc hP.le
      have h7 : x / 10 ^ j < d * 10 ^ k := by exact_mod_cast this
      exact mul_le_mul_of_nonneg_right (by exact_mod_cast h7) hP.le
    exact .inr ⟨key, nearest_between hw (.inr ⟨hhi', key⟩)⟩

/-- What `shortest` finds. -/
def Found (f : FloatFmt) (b l : Nat) (r : Nat × Nat) : Prop :=
  Nearest f (r.1 * (10 : ℚ) ^ ((r.2 : Int) - f.scale)) b ∧
  InDigits (l - r.2) (r.1 * (10 : ℚ) ^ ((r.2 : Int) - f.scale)) ∧
  0 < r.1 ∧
  ∀ w m, Nearest f w b → InDigits m w → l - r.2 ≤ m ∧
    (m = l - r.2 → |r.1 * (10 : ℚ) ^ ((r.2 : Int) - f.scale) - floatValue f b| ≤ |w - floatValue f b|)

theorem not_nearest_zero (hf : 2 ≤ f.exp) (hb : b ≠ 0) : ¬ Nearest f 0 b := by
  intro h
  have h0 : floatValue f 0 = 0 := by simp [floatValue]
  have hpos : 0 < floatValue f b := by
    have h1 := mag_value f hf b
    have h2 : (f.mag 0 : ℚ) < f.mag b := castLt (by omega)
    rw [h1, mag_zero, Nat.cast_zero] at h2
    exact pos_of_mul_pos_left h2 (by positivity)
  rcases h.2 0 (Nat.zero_le _) (Ne.symm hb) with h3 | ⟨h3, -⟩
  · rw [h0, sub_self, abs_zero] at h3
    exact absurd h3 (not_lt.2 (abs_nonneg _))
  · rw [h0, sub_self, abs_zero, abs_eq_zero] at h3
    linarith

theorem shortest_found (hf : 2 ≤ f.exp) (hb : b ≤ f.inf) (hb0 : b ≠ 0) {l : Nat}
    (hv : floatValue f b = x * (10 : ℚ) ^ (-(f.scale : Int)))
    (hl : 10 ^ (l - 1) ≤ x) (hl' : x < 10 ^ l) (hlp : 0 < l) (J : Nat) (hJ : J ≤ l - 1)
    (hno : ∀ j w, J < j → j ≤ l - 1 → Nearest f w b → ¬ InDigits (l - j) w) :
    Found f b l (shortest f b x J) := by
  have fewest : ∀ j, j ≤ l - 1 → (∀ j' w, j < j' → j' ≤ l - 1 → Nearest f w b → ¬ InDigits (l - j') w) →
      ∀ w m, Nearest f w b → InDigits m w → l - j ≤ m := by
    intro j hj hno w m hw hm
    by_contra hlt
    rcases Nat.eq_zero_or_pos m with rfl | hm0
    · obtain ⟨d, e, hd, rfl⟩ := hm
      have : d = 0 := by simpa using hd
      subst this
      rw [Nat.cast_zero, zero_mul] at hw
      exact not_nearest_zero hf hb0 hw
    · exact hno (l - m) w (by omega) (by omega) hw (by rwa [Nat.sub_sub_self (by omega)])
  have hS : (0 : ℚ) < 10 ^ (-(f.scale : Int)) := by positivity
  induction J with
  | zero =>
    rw [shortest]
    have e : ((x : Nat) : ℚ) * (10 : ℚ) ^ (((0 : Nat) : Int) - f.scale) = floatValue f b := by
      rw [hv]; simp
    refine ⟨?_, ?_, ?_, fun w m hw hm => ⟨fewest 0 (by omega) hno w m hw hm, fun _ => ?_⟩⟩
    · show Nearest f (x * (10 : ℚ) ^ (((0 : Nat) : Int) - f.scale)) b
      rw [e]
      refine ⟨hb, fun c hc hne => .inl ?_⟩
      rw [sub_self, abs_zero]
      rw [abs_pos, sub_ne_zero]
      intro h
      apply hne
      have h1 := mag_value f hf b
      have h2 := mag_value f hf c
      rw [h, ← h2] at h1
      exact (mag_inj f (by exact_mod_cast h1)).symm
    · exact ⟨x, _, hl', rfl⟩
    · exact lt_of_lt_of_le (by positivity) hl
    · show |(x : ℚ) * (10 : ℚ) ^ (((0 : Nat) : Int) - f.scale) - _| ≤ _
      rw [e, sub_self, abs_zero]
      exact abs_nonneg _
  | succ j ih =>
    rw [shortest]
    dsimp only
    have hp : 0 < 10 ^ (j + 1) := by positivity
    have hdm := Nat.div_add_mod x (10 ^ (j + 1))
    have hmod := Nat.mod_lt x hp
    have hlon : x / 10 ^ (j + 1) < 10 ^ (l - (j + 1)) := by
      rw [Nat.div_lt_iff_lt_mul hp, ← pow_add, Nat.sub_add_cancel (by omega)]
      exact hl'
    have hlop : 0 < x / 10 ^ (j + 1) := by
      rw [Nat.div_pos_iff]
      exact ⟨hp, le_trans (Nat.pow_le_pow_right (by omega) hJ) hl⟩
    have hpow : ∀ m : Nat, (m : ℚ) * (10 : ℚ) ^ (((j + 1 : Nat) : Int) - f.scale) =
        ((m * 10 ^ (j + 1) : Nat) : ℚ) * 10 ^ (-(f.scale : Int)) := by
      intro m
      rw [sub_eq_add_neg, zpow_add₀ (by norm_num), zpow_natCast]
      push_cast
      ring
    have dlo : |((x / 10 ^ (j + 1) : Nat) : ℚ) * (10 : ℚ) ^ (((j + 1 : Nat) : Int) - f.scale) -
        floatValue f b| = ((x % 10 ^ (j + 1) : Nat) : ℚ) * 10 ^ (-(f.scale : Int)) := by
      have hx : (x : ℚ) = ((x / 10 ^ (j + 1) * 10 ^ (j + 1) : Nat) : ℚ) + ((x % 10 ^ (j + 1) : Nat) : ℚ) := by
        rw [← Nat.cast_add, Nat.mul_comm, hdm]
      rw [hpow, hv, abs_sub_comm, ← sub_mul, hx, add_sub_cancel_left, abs_of_nonneg (by positivity)]
    have dhi : |((x / 10 ^ (j + 1) + 1 : Nat) : ℚ) * (10 : ℚ) ^ (((j + 1 : Nat) : Int) - f.scale) -
        floatValue f b| = ((10 ^ (j + 1) - x % 10 ^ (j + 1) : Nat) : ℚ) * 10 ^ (-(f.scale : Int)) := by
      have hx : (((x / 10 ^ (j + 1) + 1) * 10 ^ (j + 1) : Nat) : ℚ) =
          (x : ℚ) + ((10 ^ (j + 1) - x % 10 ^ (j + 1) : Nat) : ℚ) := by
        rw [← Nat.cast_add]
        congr 1
        rw [Nat.add_mul, Nat.mul_comm (x / _)]
        omega
      rw [hpow, hv, ← sub_mul, hx, add_sub_cancel_left, abs_of_nonneg (by positivity)]
    have vlo : ((x / 10 ^ (j + 1) : Nat) : ℚ) * (10 : ℚ) ^ (((j + 1 : Nat) : Int) - f.scale) ≤
        floatValue f b := by
      rw [hpow, hv]
      exact mul_le_mul_of_nonneg_right (by exact_mod_cast Nat.div_mul_le_self _ _) hS.le
    have vhi : floatValue f b ≤
        ((x / 10 ^ (j + 1) + 1 : Nat) : ℚ) * (10 : ℚ) ^ (((j + 1 : Nat) : Int) - f.scale) := by
      rw [hpow, hv]
      refine mul_le_mul_of_nonneg_right ?_ hS.le
      have : x ≤ (x / 10 ^ (j + 1) + 1) * 10 ^ (j + 1) := by
        rw [Nat.add_mul, Nat.mul_comm (x / _)]; omega
      exact_mod_cast this
    have grid' : ∀ w, Nearest f w b → InDigits (l - (j + 1)) w → _ := fun w hw hn =>
      grid (j := j + 1) hv hl (by omega) hJ hw hn
    have hlo := reads_dec f hf (x / 10 ^ (j + 1)) (((j + 1 : Nat) : Int) - f.scale) b
    have hhi := reads_dec f hf (x / 10 ^ (j + 1) + 1) (((j + 1 : Nat) : Int) - f.scale) b
    split
    · rename_i h
      obtain ⟨h1, h2⟩ := h
      refine ⟨hhi.1 h1, inDigits_le (by omega) hlon _, Nat.succ_pos _, fun w m hw hm =>
        ⟨fewest (j + 1) hJ hno w m hw hm, ?_⟩⟩
      rintro rfl
      rcases grid' w hw hm with ⟨h3, h4⟩ | ⟨h3, -⟩
      · have h5 : 10 ^ (j + 1) ≤ 2 * (x % 10 ^ (j + 1)) := by
          rcases h2 with h2 | h2
          · exact absurd (hlo.2 h4) h2
          · exact h2
        have h6 : ((10 ^ (j + 1) - x % 10 ^ (j + 1) : Nat) : ℚ) * 10 ^ (-(f.scale : Int)) ≤
            ((x % 10 ^ (j + 1) : Nat) : ℚ) * 10 ^ (-(f.scale : Int)) := by
          refine mul_le_mul_of_nonneg_right ?_ hS.le
          have : 10 ^ (j + 1) - x % 10 ^ (j + 1) ≤ x % 10 ^ (j + 1) := by omega
          exact_mod_cast this
        refine le_trans (le_of_eq dhi) (le_trans h6 ?_)
        rw [← dlo, abs_of_nonpos (by linarith), abs_of_nonpos (by linarith)]
        linarith
      · show |((x / 10 ^ (j + 1) + 1 : Nat) : ℚ) * (10 : ℚ) ^ (((j + 1 : Nat) : Int) - f.scale) - _| ≤ _
        rw [abs_of_nonneg (by linarith), abs_of_nonneg (by linarith)]
        linarith
    · rename_i h
      split
      · rename_i h'
        refine ⟨hlo.1 h', inDigits_le (by omega) hlon.le _, hlop, fun w m hw hm =>
          ⟨fewest (j + 1) hJ hno w m hw hm, ?_⟩⟩
        rintro rfl
        rcases grid' w hw hm with ⟨h3, -⟩ | ⟨h3, h4⟩
        · show |((x / 10 ^ (j + 1) : Nat) : ℚ) * (10 : ℚ) ^ (((j + 1 : Nat) : Int) - f.scale) - _| ≤ _
          rw [abs_of_nonpos (by linarith), abs_of_nonpos (by linarith)]
          linarith
        · have h5 : 2 * (x % 10 ^ (j + 1)) < 10 ^ (j + 1) := by
            by_contra hge
            exact h ⟨hhi.2 h4, .inr (by omega)⟩
          have h6 : ((x % 10 ^ (j + 1) : Nat) : ℚ) * 10 ^ (-(f.scale : Int)) ≤
              ((10 ^ (j + 1) - x % 10 ^ (j + 1) : Nat) : ℚ) * 10 ^ (-(f.scale : Int)) := by
            refine mul_le_mul_of_nonneg_right ?_ hS.le
            have : x % 10 ^ (j + 1) ≤ 10 ^ (j + 1) - x % 10 ^ (j + 1) := by omega
            exact_mod_cast this
          refine le_trans (le_of_eq dlo) (le_trans h6 ?_)
          rw [← dhi, abs_of_nonneg (by linarith), abs_of_nonneg (by linarith)]
          linarith
      · rename_i h'
        refine ih (by omega) fun j' w hj hj' hw hn => ?_
        rcases Nat.lt_or_eq_of_le (Nat.succ_le_of_lt hj) with hj | rfl
        · exact hno j' w hj hj' hw hn
        · rcases grid' w hw hn with ⟨-, h4⟩ | ⟨-, h4⟩
          · exact h' (hlo.2 h4)
          · exact h ⟨hhi.2 h4, .inl h'⟩

end

/-! ### The text -/

theorem strip_end (fuel d : Nat) (e : Int) (hd : 0 < d) (h : d ≤ fuel) :
    (strip fuel d e).1 % 10 ≠ 0 := by
  induction fuel generalizing d e with
  | zero => omega
  | succ fuel ih =>
    rw [FloatStd.strip]
    split
    · exact ih _ _ (by omega) (by omega)
    · assumption

theorem showNat_last (d : Nat) (hd : d % 10 ≠ 0) : (showNat d).getLast? ≠ some '0' := by
  have hc : ∀ n, n < 10 → n ≠ 0 → n.digitChar ≠ '0' := by decide
  by_cases h : d < 10
  · rw [showNat, Nat.toDigits_of_lt_base h]
    intro h'
    exact hc d h (by omega) (Option.some.inj h')
  · rw [showNat, Nat.toDigits_of_base_le (by omega) (by omega), List.getLast?_concat]
    intro h'
    exact hc _ (Nat.mod_lt _ (by omega)) hd (Option.some.inj h')

theorem plain_decText (d : Nat) (e : Int) (hd : d % 10 ≠ 0) :
    PlainText (decText d e) (d * (10 : ℚ) ^ e) := by
  have hz : ∀ n, ∀ c ∈ List.replicate n '0', c.isDigit = true := fun n c hc => by
    rw [(List.mem_replicate.1 hc).2]; decide
  have hv : Nat.ofDigitChars 10 (showNat d) 0 = d := by
    rw [showNat, Nat.ofDigitChars_toDigits (by omega) (by omega)]
  have hhead : ∀ c s, showNat d = c :: s → c ≠ '0' := by
    rintro c s h rfl
    have := JsonCodec.showNat_head d s h
    omega
  cases e with
  | ofNat k =>
    have : (d : ℚ) * (10 : ℚ) ^ (Int.ofNat k) = digitsValue (showNat d ++ List.replicate k '0') := by
      rw [← JsonCodec.ofDigitChars_eq, Nat.ofDigitChars_append, hv, Nat.ofDigitChars_replicate_zero]
      push_cast
      simp [mul_comm]
    rw [this, show decText d (Int.ofNat k) = showNat d ++ List.replicate k '0' from rfl]
    refine .int ?_ fun h => ?_
    · rw [JsonCodec.digits_iff]
      refine ⟨by simp [showNat_ne_nil], fun c hc => ?_⟩
      rcases List.mem_append.1 hc with hc | hc
      · exact showNat_digits hc
      · exact hz k c hc
    · exfalso
      cases hs : showNat d with
      | nil => exact showNat_ne_nil d hs
      | cons c s =>
        rw [hs] at h
        exact hhead c s hs (Option.some.inj h)
  | negSucc k =>
    simp only [decText]
    generalize hds : List.replicate (k + 2 - (showNat d).length) '0' ++ showNat d = ds
    have hall : ∀ c ∈ ds, c.isDigit = true := by
      intro c hc
      rw [← hds] at hc
      rcases List.mem_append.1 hc with hc | hc
      · exact hz _ c hc
      · exact showNat_digits hc
    have hlen : k + 2 ≤ ds.length := by rw [← hds]; simp; omega
    have hval : Nat.ofDigitChars 10 ds 0 = d := by
      rw [← hds, Nat.ofDigitChars_append, Nat.ofDigitChars_replicate_zero, Nat.mul_zero, hv]
    have hne : ds.drop (ds.length - (k + 1)) ≠ [] := by
      intro h
      have := congrArg List.length h
      rw [List.length_drop, List.length_nil] at this
      omega
    have e1 : (d : ℚ) * (10 : ℚ) ^ (Int.negSucc k) =
        digitsValue (ds.take (ds.length - (k + 1)) ++ ds.drop (ds.length - (k + 1))) /
          10 ^ (ds.drop (ds.length - (k + 1))).length := by
      rw [List.take_append_drop, ← JsonCodec.ofDigitChars_eq, hval, List.length_drop,
        show ds.length - (ds.length - (k + 1)) = k + 1 by omega, zpow_negSucc]
      rfl
    rw [e1]
    refine .point ?_ ?_ ?_ ?_
    · rw [JsonCodec.digits_iff]
      refine ⟨fun h => ?_, fun c hc => hall c (List.mem_of_mem_take hc)⟩
      have := congrArg List.length h
      rw [List.length_take, List.length_nil] at this
      omega
    · intro h
      by_cases hk : (showNat d).length < k + 2
      · have hl : ds.length = k + 2 := by rw [← hds]; simp; omega
        rw [hl, show k + 2 - (k + 1) = 1 by omega] at h ⊢
        cases ds with
        | nil => simp at hl
        | cons c s =>
          rw [List.take_succ_cons, List.take_zero] at h ⊢
          rw [Option.some.inj h]
      · rw [show k + 2 - (showNat d).length = 0 by omega, List.replicate_zero, List.nil_append] at hds
        exfalso
        cases ds with
        | nil => simp at hlen
        | cons c s =>
          rw [show (c :: s).length - (k + 1) = s.length - (k + 1) + 1 by simp at hlen ⊢; omega,
            List.take_succ_cons] at h
          exact hhead c s hds (Option.some.inj h)
    · rw [JsonCodec.digits_iff]
      exact ⟨hne, fun c hc => hall c (List.mem_of_mem_drop hc)⟩
    · have : (ds.drop (ds.length - (k + 1))).getLast? = (showNat d).getLast? := by
        rw [List.getLast?_drop, if_neg (by omega), ← hds, List.getLast?_append_of_ne_nil _ (showNat_ne_nil d)]
      rw [this]
      exact showNat_last d hd

/-- The text of a number without sign. -/
theorem showMag_shortest (f : FloatFmt) (hf : 2 ≤ f.exp) {b : Nat} (hb : b ≤ f.inf) :
    ∃ v, Shortest f b v ∧ PlainText (showMag f b) v := by
  rw [showMag]
  split
  · rename_i h
    subst h
    have h0 : floatValue f 0 = 0 := by simp [floatValue]
    refine ⟨0, ⟨⟨Nat.zero_le _, fun c hc hne => .inl ?_⟩, 0, ⟨0, 0, by simp, by simp⟩, fun w m _ _ =>
      ⟨Nat.zero_le _, fun _ => ?_⟩⟩, ?_⟩
    · rw [h0, sub_self, abs_zero, abs_pos, sub_ne_zero]
      intro h
      have h1 := mag_value f hf c
      rw [← h, zero_mul] at h1
      have h2 : f.mag c = f.mag 0 := by rw [mag_zero]; exact_mod_cast h1
      exact hne (mag_inj f h2)
    · rw [h0, sub_self, abs_zero]
      exact abs_nonneg _
    · have := PlainText.int (ds := ['0']) (by rw [JsonCodec.digits_iff]; decide) (fun _ => rfl)
      simpa [digitsValue] using this
  · rename_i hb0
    dsimp only
    generalize hx : f.mag b * 5 ^ f.scale = x
    have hv := value_digits hf hx.symm
    have hxp : 0 < x := by
      rw [← hx]
      have : f.mag 0 < f.mag b := mag_lt f (by omega)
      rw [mag_zero] at this
      positivity
    have hlp : 0 < (showNat x).length := List.length_pos_of_ne_nil (showNat_ne_nil x)
    have hl' : x < 10 ^ (showNat x).length :=
      (Nat.length_toDigits_le_iff (by omega) hlp).1 (Nat.le_refl _)
    have hl : 10 ^ ((showNat x).length - 1) ≤ x := by
      by_cases h1 : (showNat x).length = 1
      · rw [h1]; simpa using Nat.succ_le_of_lt hxp
      · by_contra h
        have := (Nat.length_toDigits_le_iff (b := 10) (by omega) (by omega)).2 (not_le.1 h)
        rw [← showNat] at this
        omega
    obtain ⟨h1, h2, h3, h4⟩ := shortest_found hf hb hb0 hv hl hl' hlp ((showNat x).length - 1)
      (Nat.le_refl _) (fun j w hj hj' => by omega)
    generalize shortest f b x ((showNat x).length - 1) = r at h1 h2 h3 h4
    obtain ⟨d, j⟩ := r
    dsimp only at h1 h2 h3 h4 ⊢
    have h5 := strip_value d d ((j : Int) - f.scale)
    have h6 := strip_end d d ((j : Int) - f.scale) h3 (Nat.le_refl _)
    generalize strip d d ((j : Int) - f.scale) = r at h5 h6
    obtain ⟨d', e'⟩ := r
    dsimp only at h5 h6 ⊢
    have h7 := plain_decText d' e' h6
    rw [h5] at h7
    exact ⟨_, ⟨h1, _, h2, h4⟩, h7⟩

/-- **C103.** What is sent for a finite `f64` is the shortest decimal number that is read as its bits, and
of these one that is closest to the exact value, written without an exponent and without superfluous
zeros. -/
theorem C103_text (x : UInt64) (hx : x.toNat % 2 ^ 63 < 2047 * 2 ^ 52) :
    letI := stdFloat
    ∃ v s, Shortest .f64 (x.toNat % 2 ^ 63) v ∧ PlainText s v ∧
      SentAs (.f64 x) (if x.toNat / 2 ^ 63 = 1 then '-' :: s else s) := by
  let := stdFloat
  obtain ⟨v, h1, h2⟩ := showMag_shortest .f64 (by decide) (b := x.toNat % 2 ^ 63)
    (by rw [f64_inf]; omega)
  refine ⟨v, _, h1, h2, ?_⟩
  have hs : FloatText.show64 x = if x.toNat / 2 ^ 63 = 1 then '-' :: showMag .f64 (x.toNat % 2 ^ 63)
      else showMag .f64 (x.toNat % 2 ^ 63) := by
    show FloatStd.show .f64 x.toNat = _
    have hlt := x.toNat_lt
    have e2 : FloatFmt.f64.exp + FloatFmt.f64.frac = 63 := rfl
    have n1 : ¬ 2047 * 2 ^ 52 < x.toNat % 2 ^ 63 := by omega
    have n2 : ¬ x.toNat % 2 ^ 63 = 2047 * 2 ^ 52 := by omega
    have n3 : x.toNat / 2 ^ 63 % 2 = x.toNat / 2 ^ 63 := by omega
    rw [FloatStd.show]
    dsimp only
    rw [e2, f64_inf, if_neg n1, if_neg n2, n3]
  rw [← hs]
  exact .f64 x

/-- **C103.** What is sent for a finite `f32` is not its shortest text but that of the `f64` with the same
value. -/
theorem C103_f32 (x : UInt32) (hx : x.toNat % 2 ^ 31 < 255 * 2 ^ 23) :
    letI := stdFloat
    ∃ b v s, floatValue .f64 b = floatValue .f32 (x.toNat % 2 ^ 31) ∧ Shortest .f64 b v ∧
      PlainText s v ∧ SentAs (.f32 x) (if x.toNat / 2 ^ 31 = 1 then '-' :: s else s) := by
  let := stdFloat
  obtain ⟨h1, h2, h3⟩ := convert_value (f := .f32) (g := .f64) (K := 924) (by decide) (by decide)
    (by decide) (by decide +kernel) (by decide +kernel) (x := x.toNat) (by rw [f32_inf]; exact hx)
  have hw : (FloatText.widen x).toNat = convert .f32 .f64 x.toNat :=
    UInt64.toNat_ofNat_of_lt' (convert_lt _)
  rw [← hw] at h1 h2 h3
  have hlt := x.toNat_lt
  have e1 : FloatFmt.f32.exp + FloatFmt.f32.frac = 31 := rfl
  have e2 : FloatFmt.f64.exp + FloatFmt.f64.frac = 63 := rfl
  rw [e1, e2] at h3
  obtain ⟨v, s, h4, h5, h6⟩ := C103_text (FloatText.widen x) (by rw [← f64_inf]; exact h2)
  refine ⟨_, v, s, h1, h4, h5, ?_⟩
  rw [h3, show x.toNat / 2 ^ 31 % 2 = x.toNat / 2 ^ 31 by omega] at h6
  generalize ht : (if x.toNat / 2 ^ 31 = 1 then '-' :: s else s) = t at h6 ⊢
  cases h6
  exact .f32 x

/-- **C103 (finding).** For the `f32` 0.1 seventeen digits are sent although the reader would take `0.1`
for it. -/
theorem C103_f32_long :
    letI := stdFloat
    SentAs (.f32 0x3DCCCCCD) "0.10000000149011612".toList ∧ FloatReads .f32 "0.1".toList 0x3DCCCCCD := by
  let := stdFloat
  have h : FloatText.show64 (FloatText.widen 0x3DCCCCCD) = "0.10000000149011612".toList := by
    decide +kernel
  refine ⟨?_, (parse_iff .f32 (by decide) _ _).1 (by decide +kernel)⟩
  rw [← h]
  exact .f32 _

/-! ### A number has one text -/

theorem value_concat (s : Str) (c : Char) : digitsValue (s ++ [c]) = 10 * digitsValue s + (c.toNat - 48) := by
  rw [← JsonCodec.ofDigitChars_eq, Nat.ofDigitChars_append]
  rfl

theorem digit_bounds {c : Char} (h : c.isDigit = true) : 48 ≤ c.toNat ∧ c.toNat ≤ 57 := by
  rw [Char.isDigit] at h
  simp only [Bool.and_eq_true, decide_eq_true_eq] at h
  exact h

theorem value_inj : ∀ (n : Nat) {s t : Str}, s.length = n → t.length = n → (∀ c ∈ s, c.isDigit = true) →
    (∀ c ∈ t, c.isDigit = true) → digitsValue s = digitsValue t → s = t
  | 0, s, t, hs, ht, _, _, _ => by
    rw [List.length_eq_zero_iff.1 hs, List.length_eq_zero_iff.1 ht]
  | n + 1, s, t, hs, ht, h1, h2, hv => by
    rcases List.eq_nil_or_concat' s with rfl | ⟨s, c, rfl⟩
    · simp at hs
    rcases List.eq_nil_or_concat' t with rfl | ⟨t, d, rfl⟩
    · simp at ht
    rw [value_concat, value_concat] at hv
    have hc := digit_bounds (h1 c (by simp))
    have hd := digit_bounds (h2 d (by simp))
    have hcd : c = d := Char.toNat_inj.1 (by omega)
    have := value_inj n (s := s) (t := t) (by simpa using hs) (by simpa using ht)
      (fun c hc => h1 c (by simp [hc])) (fun c hc => h2 c (by simp [hc])) (by omega)
    rw [this, hcd]

theorem value_lt : ∀ (n : Nat) {s : Str}, s.length = n → (∀ c ∈ s, c.isDigit = true) →
    digitsValue s < 10 ^ n
  | 0, s, hs, _ => by rw [List.length_eq_zero_iff.1 hs]; decide
  | n + 1, s, hs, h => by
    rcases List.eq_nil_or_concat' s with rfl | ⟨s, c, rfl⟩
    · simp at hs
    have := value_lt n (s := s) (by simpa using hs) (fun c hc => h c (by simp [hc]))
    have := digit_bounds (h c (by simp))
    rw [value_concat, pow_succ]
    omega

theorem value_ge : ∀ (n : Nat) {s : Str}, s.length = n + 1 → (∀ c ∈ s, c.isDigit = true) →
    s.head? ≠ some '0' → 10 ^ n ≤ digitsValue s
  | 0, s, hs, h, h0 => by
    obtain ⟨c, rfl⟩ := List.length_eq_one_iff.1 hs
    have hc := digit_bounds (h c (by simp))
    have hv : digitsValue [c] = c.toNat - 48 := by
      simp [digitsValue]
    have : c.toNat ≠ 48 := fun h' => h0 (by rw [show c = '0' from Char.toNat_inj.1 h']; rfl)
    rw [hv]
    simp
    omega
  | n + 1, s, hs, h, h0 => by
    rcases List.eq_nil_or_concat' s with rfl | ⟨s, c, rfl⟩
    · simp at hs
    have hl : s.length = n + 1 := by simpa using hs
    have := value_ge n (s := s) hl (fun c hc => h c (by simp [hc])) (by
      intro h'
      apply h0
      cases s with
      | nil => simp at hl
      | cons a s => simpa using h')
    rw [value_concat, pow_succ]
    omega

/-- The digits of an integer part and `k` further digits are determined by their value. -/
theorem parts_inj {a b x y : Str} (ha : Digits a) (hb : Digits b) (ha0 : a.head? = some '0' → a = ['0'])
    (hb0 : b.head? = some '0' → b = ['0']) (hx : ∀ c ∈ x, c.isDigit = true)
    (hy : ∀ c ∈ y, c.isDigit = true) (hl : x.length = y.length)
    (hv : digitsValue (a ++ x) = digitsValue (b ++ y)) : a = b ∧ x = y := by
  obtain ⟨ha1, ha2⟩ := JsonCodec.digits_iff.1 ha
  obtain ⟨hb1, hb2⟩ := JsonCodec.digits_iff.1 hb
  have hax : ∀ c ∈ a ++ x, c.isDigit = true := fun c hc =>
    (List.mem_append.1 hc).elim (ha2 c) (hx c)
  have hby : ∀ c ∈ b ++ y, c.isDigit = true := fun c hc =>
    (List.mem_append.1 hc).elim (hb2 c) (hy c)
  have key : ∀ {a b x y : Str}, a ≠ [] → b ≠ [] → (a.head? = some '0' → a = ['0']) →
      x.length = y.length → (∀ c ∈ a ++ x, c.isDigit = true) → (∀ c ∈ b ++ y, c.isDigit = true) →
      digitsValue (a ++ x) = digitsValue (b ++ y) → a.length ≤ b.length := by
    intro a b x y ha1 hb1 ha0 hl hax hby hv
    by_contra hlt
    have hbl := List.length_pos_of_ne_nil hb1
    have h0 : a.head? ≠ some '0' := by
      intro h
      rw [ha0 h, List.length_singleton] at hlt
      exact hlt hbl
    have h1 := value_ge (a.length + x.length - 1) (s := a ++ x) (by simp; omega) hax (by
      cases a with
      | nil => exact absurd rfl ha1
      | cons c a => simpa using h0)
    have h2 := value_lt (b.length + y.length) (s := b ++ y) (by simp) hby
    have : 10 ^ (b.length + y.length) ≤ 10 ^ (a.length + x.length - 1) :=
      Nat.pow_le_pow_right (by omega) (by omega)
    omega
  have hlen : a.length = b.length := Nat.le_antisymm (key ha1 hb1 ha0 hl hax hby hv)
    (key hb1 ha1 hb0 hl.symm hby hax hv.symm)
  exact List.append_inj (value_inj (a.length + x.length) (by simp) (by simp; omega) hax hby hv) hlen

theorem value_last {s : Str} (h : ∀ c ∈ s, c.isDigit = true) (hne : s ≠ [])
    (h0 : s.getLast? ≠ some '0') : digitsValue s % 10 ≠ 0 := by
  rcases List.eq_nil_or_concat' s with rfl | ⟨s, c, rfl⟩
  · exact absurd rfl hne
  · have := digit_bounds (h c (by simp))
    have h' : c.toNat ≠ 48 := fun h' => h0 (by rw [show c = '0' from Char.toNat_inj.1 h']; simp)
    rw [value_concat]
    omega

/-- **C103.** A number has one such text. -/
theorem C103_unique {s t : Str} {v : ℚ} (hs : PlainText s v) (ht : PlainText t v) : s = t := by
  have hmix : ∀ {ds ip fp : Str}, Digits ip → Digits fp → fp.getLast? ≠ some '0' →
      (digitsValue ds : ℚ) ≠ digitsValue (ip ++ fp) / 10 ^ fp.length := by
    intro ds ip fp h1 h2 h3 h
    obtain ⟨hi1, hi2⟩ := JsonCodec.digits_iff.1 h1
    obtain ⟨hf1, hf2⟩ := JsonCodec.digits_iff.1 h2
    have hl := value_last (s := ip ++ fp) (fun c hc => (List.mem_append.1 hc).elim (hi2 c) (hf2 c))
      (by simp [hi1]) (by rwa [List.getLast?_append_of_ne_nil _ hf1])
    rw [eq_div_iff (by positivity)] at h
    have h' : digitsValue ds * 10 ^ fp.length = digitsValue (ip ++ fp) := by exact_mod_cast h
    obtain ⟨k, hk⟩ := Nat.exists_eq_succ_of_ne_zero (List.length_pos_of_ne_nil hf1).ne'
    rw [hk, pow_succ, ← mul_assoc] at h'
    omega
  cases hs with
  | int h1 h2 =>
    generalize hv : (digitsValue s : ℚ) = v at ht
    cases ht with
    | int h3 h4 =>
      have hv : digitsValue s = digitsValue t := by exact_mod_cast hv
      exact (parts_inj (x := []) (y := []) h1 h3 h2 h4 (by simp) (by simp) rfl (by simpa using hv)).1
    | point h3 _ h5 h6 => exact absurd hv (hmix h3 h5 h6)
  | @point a x h1 h2 h3 h4 =>
    generalize hv : (digitsValue (a ++ x) : ℚ) / 10 ^ x.length = v at ht
    cases ht with
    | int _ _ => exact absurd hv.symm (hmix h1 h3 h4)
    | @point b y h5 h6 h7 h8 =>
      obtain ⟨ha1, ha2⟩ := JsonCodec.digits_iff.1 h1
      obtain ⟨hx1, hx2⟩ := JsonCodec.digits_iff.1 h3
      obtain ⟨hb1, hb2⟩ := JsonCodec.digits_iff.1 h5
      obtain ⟨hy1, hy2⟩ := JsonCodec.digits_iff.1 h7
      have l1 := value_last (s := a ++ x) (fun c hc => (List.mem_append.1 hc).elim (ha2 c) (hx2 c))
        (by simp [ha1]) (by rwa [List.getLast?_append_of_ne_nil _ hx1])
      have l2 := value_last (s := b ++ y) (fun c hc => (List.mem_append.1 hc).elim (hb2 c) (hy2 c))
        (by simp [hb1]) (by rwa [List.getLast?_append_of_ne_nil _ hy1])
      rw [div_eq_div_iff (by positivity) (by positivity)] at hv
      have hv : digitsValue (a ++ x) * 10 ^ y.length = digitsValue (b ++ y) * 10 ^ x.length := by
        exact_mod_cast hv
      have hle : ∀ {p q i j : Nat}, p % 10 ≠ 0 → p * 10 ^ i = q * 10 ^ j → j ≤ i := by
        intro p q i j hp h
        by_contra hlt
        obtain ⟨k, rfl⟩ : ∃ k, j = i + (k + 1) := ⟨j - i - 1, by omega⟩
        have : p = q * 10 ^ k * 10 := by
          apply Nat.eq_of_mul_eq_mul_right (Nat.pow_pos (n := i) (show 0 < 10 by omega))
          rw [h, pow_add, pow_succ]
          ring
        omega
      have hl : x.length = y.length := Nat.le_antisymm (hle l1 hv) (hle l2 hv.symm)
      rw [hl] at hv
      have hv := Nat.eq_of_mul_eq_mul_right (Nat.pow_pos (show 0 < 10 by omega)) hv
      obtain ⟨rfl, rfl⟩ := parts_inj h1 h5 h2 h6 hx2 hy2 hl hv
      rfl
/-! ### Examples -/

section Examples

/-- `C103_text`: a third, the smallest and a great number. -/
example : letI := stdFloat
    FloatText.show64 0x3FD5555555555555 = "0.3333333333333333".toList ∧
    FloatText.show64 0xC1E0000000000000 = "-2147483648".toList ∧
    FloatText.show64 0x4340000000000001 = "9007199254740994".toList ∧
    FloatText.show64 0x44B52D02C7E14AF6 = "100000000000000000000000".toList ∧
    FloatText.show64 0x8000000000000000 = "-0".toList := by
  decide +kernel

/-- `C103_text`: 0.1. -/
example : ∃ v, Shortest .f64 0x3FB999999999999A v ∧ PlainText "0.1".toList v := by
  obtain ⟨v, h1, h2⟩ := showMag_shortest .f64 (by decide) (b := 0x3FB999999999999A) (by decide)
  rw [show showMag .f64 0x3FB999999999999A = "0.1".toList by decide +kernel] at h2
  exact ⟨v, h1, h2⟩

/-- `C103_unique`: a text with a superfluous zero is none. -/
example : PlainText "0.1".toList (1 / 10) ∧ ¬ PlainText "0.10".toList (1 / 10) := by
  have h : PlainText "0.1".toList (1 / 10) := by
    have := PlainText.point (ip := ['0']) (fp := ['1']) (by rw [JsonCodec.digits_iff]; decide)
      (fun _ => rfl) (by rw [JsonCodec.digits_iff]; decide) (by decide)
    simpa [digitsValue, Nat.ofDigitChars] using this
  exact ⟨h, fun h' => absurd (C103_unique h h') (by decide)⟩

/-- `C103_f32`: the sign. -/
example : letI := stdFloat
    FloatText.show64 (FloatText.widen 0xBDCCCCCD) = "-0.10000000149011612".toList := by
  decide +kernel

end Examples

end Htrpc
