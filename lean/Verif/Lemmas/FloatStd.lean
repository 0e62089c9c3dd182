import Verif.Model.FloatStd
import Verif.Lemmas.Text
import Mathlib.Data.Rat.Defs
import Mathlib.Algebra.Order.Field.Rat
import Mathlib.Tactic.Linarith
import Mathlib.Tactic.FieldSimp
import Mathlib.Tactic.Positivity
import Mathlib.Tactic.Ring

namespace Htrpc
namespace FloatFmt

theorem mag_lt_succ (f : FloatFmt) (b : Nat) : f.mag b < f.mag (b + 1) := by
  have hF : 0 < 2 ^ f.frac := Nat.two_pow_pos _
  generalize hFe : 2 ^ f.frac = F at hF
  have hb : b = F * (b / F) + b % F := (Nat.div_add_mod b F).symm
  have hm : b % F < F := Nat.mod_lt _ hF
  simp only [mag, hFe]
  generalize b / F = e at hb
  generalize b % F = m at hb hm
  subst hb
  by_cases h : m + 1 < F
  · have e1 : (F * e + m + 1) / F = e := by
      rw [Nat.add_assoc, Nat.mul_add_div hF, Nat.div_eq_of_lt h, Nat.add_zero]
    have e2 : (F * e + m + 1) % F = m + 1 := by
      rw [Nat.add_assoc, Nat.mul_add_mod, Nat.mod_eq_of_lt h]
    rw [e1, e2]
    split
    · omega
    · exact Nat.mul_lt_mul_of_pos_right (by omega) (Nat.two_pow_pos _)
  · have h' : m + 1 = F := by omega
    have e0 : F * e + m + 1 = F * (e + 1) := by rw [Nat.mul_add]; omega
    have e1 : (F * e + m + 1) / F = e + 1 := by rw [e0, Nat.mul_div_cancel_left _ hF]
    have e2 : (F * e + m + 1) % F = 0 := by rw [e0, Nat.mul_mod_right]
    rw [e1, e2]
    simp only [Nat.add_eq_zero_iff, Nat.one_ne_zero, and_false, if_false, Nat.add_zero,
      Nat.add_sub_cancel]
    split
    · subst e; simp; omega
    · obtain ⟨k, rfl⟩ : ∃ k, e = k + 1 := ⟨e - 1, by omega⟩
      rw [Nat.add_sub_cancel, Nat.pow_succ, Nat.mul_comm (2 ^ k) 2, ← Nat.mul_assoc]
      exact Nat.mul_lt_mul_of_pos_right (by omega) (Nat.two_pow_pos _)

theorem mag_lt (f : FloatFmt) {a b : Nat} (h : a < b) : f.mag a < f.mag b := by
  induction h with
  | refl => exact mag_lt_succ f a
  | step _ ih => exact ih.trans (mag_lt_succ f _)

theorem mag_lt_iff (f : FloatFmt) {a b : Nat} : f.mag a < f.mag b ↔ a < b := by
  refine ⟨fun h => ?_, mag_lt f⟩
  by_contra hn
  rcases Nat.lt_or_eq_of_le (Nat.not_lt.1 hn) with h' | h'
  · exact absurd (mag_lt f h') (by omega)
  · subst h'; omega

theorem mag_le_iff (f : FloatFmt) {a b : Nat} : f.mag a ≤ f.mag b ↔ a ≤ b := by
  have := mag_lt_iff f (a := b) (b := a)
  omega

theorem mag_inj (f : FloatFmt) {a b : Nat} (h : f.mag a = f.mag b) : a = b := by
  have h1 := mag_le_iff f (a := a) (b := b)
  have h2 := mag_le_iff f (a := b) (b := a)
  omega

theorem mag_zero (f : FloatFmt) : f.mag 0 = 0 := by simp [mag]

theorem search_spec (f : FloatFmt) (n d : Nat) (i b : Nat) (h : f.mag b * d ≤ n) :
    b ≤ f.search n d i b ∧ f.search n d i b < b + 2 ^ i ∧ f.mag (f.search n d i b) * d ≤ n ∧
      ∀ c, c < b + 2 ^ i → f.mag c * d ≤ n → c ≤ f.search n d i b := by
  induction i generalizing b with
  | zero => exact ⟨le_refl _, by simp [search], h, fun c hc _ => by simp [search] at *; omega⟩
  | succ i ih =>
    rw [search]
    split
    · rename_i h'
      obtain ⟨h1, h2, h3, h4⟩ := ih _ h'
      have := Nat.two_pow_pos i
      exact ⟨by omega, by rw [Nat.pow_succ]; omega, h3,
        fun c hc hcn => h4 c (by rw [Nat.pow_succ] at hc; omega) hcn⟩
    · rename_i h'
      obtain ⟨h1, h2, h3, h4⟩ := ih _ h
      have := Nat.two_pow_pos i
      refine ⟨h1, by rw [Nat.pow_succ]; omega, h3, fun c hc hcn => h4 c ?_ hcn⟩
      by_contra hcb
      refine h' (le_trans (Nat.mul_le_mul_right d ?_) hcn)
      exact (mag_le_iff f).2 (by omega)

theorem inf_lt (f : FloatFmt) : f.inf < 2 ^ (f.exp + f.frac) := by
  have h1 := Nat.two_pow_pos f.exp
  have h2 := Nat.two_pow_pos f.frac
  rw [inf, Nat.pow_add]
  exact Nat.mul_lt_mul_of_pos_right (by omega) h2

/-- The number below and the one above. -/
theorem search_cases (f : FloatFmt) (n d : Nat) :
    (Nat.min f.inf (f.search n d (f.exp + f.frac) 0) = f.inf ∧ f.mag f.inf * d ≤ n) ∨
    ∃ b, Nat.min f.inf (f.search n d (f.exp + f.frac) 0) = b ∧ b < f.inf ∧
      f.mag b * d ≤ n ∧ n < f.mag (b + 1) * d := by
  obtain ⟨-, h2, h3, h4⟩ := search_spec f n d (f.exp + f.frac) 0 (by simp [mag_zero])
  have hi := inf_lt f
  rw [Nat.zero_add] at h2 h4
  generalize f.search n d (f.exp + f.frac) 0 = r at *
  by_cases h : f.inf ≤ r
  · exact .inl ⟨Nat.min_eq_left h, le_trans (Nat.mul_le_mul_right d ((mag_le_iff f).2 h)) h3⟩
  · refine .inr ⟨r, Nat.min_eq_right (by omega), by omega, h3, ?_⟩
    by_contra hn
    have := h4 (r + 1) (by omega) (by omega)
    omega

theorem round_le (f : FloatFmt) (n d : Nat) : f.round n d ≤ f.inf := by
  rw [round]
  rcases search_cases f n d with ⟨h, -⟩ | ⟨b, h, hb, -⟩ <;> simp only [h]
  · simp
  · rw [if_neg (by omega)]
    split
    · omega
    · split
      · omega
      · split <;> omega

/-- How far `x` is from the number with the bits `b`. -/
def off (f : FloatFmt) (x : ℚ) (b : Nat) : ℚ := |x - f.mag b|

theorem off_above {f : FloatFmt} {x : ℚ} {b : Nat} (h : (f.mag b : ℚ) ≤ x) :
    f.off x b = x - f.mag b := abs_of_nonneg (by linarith)

theorem off_below {f : FloatFmt} {x : ℚ} {b : Nat} (h : x ≤ (f.mag b : ℚ)) :
    f.off x b = f.mag b - x := by
  rw [off, abs_sub_comm]
  exact abs_of_nonneg (by linarith)

theorem castLe {f : FloatFmt} {a b : Nat} (h : a ≤ b) : (f.mag a : ℚ) ≤ f.mag b := by
  exact_mod_cast (mag_le_iff f).2 h

theorem castLt {f : FloatFmt} {a b : Nat} (h : a < b) : (f.mag a : ℚ) < f.mag b := by
  exact_mod_cast (mag_lt_iff f).2 h

/-- The nearest number, the even one of two. -/
theorem round_nearest (f : FloatFmt) {n d : Nat} (hd : 0 < d) (c : Nat) (hc : c ≤ f.inf)
    (hne : c ≠ f.round n d) :
    f.off (n / d) (f.round n d) < f.off (n / d) c ∨
      f.off (n / d) (f.round n d) = f.off (n / d) c ∧ f.round n d % 2 = 0 := by
  have hd' : (0 : ℚ) < d := by exact_mod_cast hd
  have lift1 : ∀ b, f.mag b * d ≤ n → (f.mag b : ℚ) ≤ n / d := fun b h => by
    rw [le_div_iff₀ hd']; exact_mod_cast h
  have lift2 : ∀ b, n < f.mag b * d → (n / d : ℚ) < f.mag b := fun b h => by
    rw [div_lt_iff₀ hd']; exact_mod_cast h
  rw [round] at hne ⊢
  rcases search_cases f n d with ⟨h, hi⟩ | ⟨b, h, hb, hlo, hhi⟩ <;> simp only [h] at hne ⊢
  · rw [if_pos trivial] at hne ⊢
    left
    have h1 := lift1 _ hi
    have h2 := castLt (f := f) (lt_of_le_of_ne hc hne)
    rw [off_above h1, off_above (by linarith)]
    linarith
  · rw [if_neg (by omega)] at hne ⊢
    have h1 := lift1 _ hlo
    have h2 := lift2 _ hhi
    have e1 := off_above h1
    have e2 := off_below h2.le
    -- the other numbers are farther away than one of the two
    have far : c ≠ b → c ≠ b + 1 → f.off (n / d) b < f.off (n / d) c ∧ c < b ∨
        f.off (n / d) (b + 1) < f.off (n / d) c ∧ b + 1 < c := by
      intro n1 n2
      rcases Nat.lt_or_ge c b with h | h
      · left
        have := castLt (f := f) h
        rw [e1, off_above (by linarith)]
        exact ⟨by linarith, h⟩
      · right
        have h' : b + 1 < c := by omega
        have := castLt (f := f) h'
        rw [e2, off_below (by linarith)]
        exact ⟨by linarith, h'⟩
    have cmp1 : (n - f.mag b * d < f.mag (b + 1) * d - n) ↔
        f.off (n / d) b < f.off (n / d) (b + 1) := by
      rw [e1, e2]
      have : (n - f.mag b * d < f.mag (b + 1) * d - n) ↔ 2 * n < (f.mag b + f.mag (b + 1)) * d := by
        rw [Nat.add_mul]; omega
      rw [this, ← Nat.cast_lt (α := ℚ)]
      push_cast
      rw [show ((n : ℚ) / d - f.mag b < f.mag (b + 1) - n / d) ↔
        2 * (n / d : ℚ) < f.mag b + f.mag (b + 1) by constructor <;> intro h <;> linarith]
      rw [show (2 * (n / d : ℚ)) = (2 * n) / d by ring, div_lt_iff₀ hd']
    have cmp2 : (f.mag (b + 1) * d - n < n - f.mag b * d) ↔
        f.off (n / d) (b + 1) < f.off (n / d) b := by
      rw [e1, e2]
      have : (f.mag (b + 1) * d - n < n - f.mag b * d) ↔ (f.mag b + f.mag (b + 1)) * d < 2 * n := by
        rw [Nat.add_mul]; omega
      rw [this, ← Nat.cast_lt (α := ℚ)]
      push_cast
      rw [show ((f.mag (b + 1) : ℚ) - n / d < n / d - f.mag b) ↔
        f.mag b + f.mag (b + 1) < 2 * (n / d : ℚ) by constructor <;> intro h <;> linarith]
      rw [show (2 * (n / d : ℚ)) = (2 * n) / d by ring, lt_div_iff₀ hd']
    -- from one of the two to all others
    have all : ∀ r, (r = b ∧ f.off (n / d) b ≤ f.off (n / d) (b + 1)) ∨
        (r = b + 1 ∧ f.off (n / d) (b + 1) ≤ f.off (n / d) b) → c ≠ b → c ≠ b + 1 →
        f.off (n / d) r < f.off (n / d) c := by
      intro r hr n1 n2
      rcases far n1 n2 with ⟨hf, -⟩ | ⟨hf, -⟩ <;> rcases hr with ⟨rfl, hr⟩ | ⟨rfl, hr⟩ <;> linarith
    by_cases c1 : n - f.mag b * d < f.mag (b + 1) * d - n
    · rw [if_pos c1] at hne ⊢
      left
      by_cases n2 : c = b + 1
      · rw [n2]; exact cmp1.1 c1
      · exact all b (.inl ⟨rfl, (cmp1.1 c1).le⟩) hne n2
    · rw [if_neg c1] at hne ⊢
      by_cases c2 : f.mag (b + 1) * d - n < n - f.mag b * d
      · rw [if_pos c2] at hne ⊢
        left
        by_cases n1 : c = b
        · rw [n1]; exact cmp2.1 c2
        · exact all (b + 1) (.inr ⟨rfl, (cmp2.1 c2).le⟩) n1 hne
      · rw [if_neg c2] at hne ⊢
        have eq : f.off (n / d) b = f.off (n / d) (b + 1) :=
          le_antisymm (not_lt.1 fun h => c2 (cmp2.2 h)) (not_lt.1 fun h => c1 (cmp1.2 h))
        by_cases c3 : b % 2 = 0
        · rw [if_pos c3] at hne ⊢
          by_cases n2 : c = b + 1
          · rw [n2]; exact .inr ⟨eq, c3⟩
          · exact .inl (all b (.inl ⟨rfl, eq.le⟩) hne n2)
        · rw [if_neg c3] at hne ⊢
          by_cases n1 : c = b
          · rw [n1]; exact .inr ⟨eq.symm, by omega⟩
          · exact .inl (all (b + 1) (.inr ⟨rfl, eq.ge⟩) n1 hne)

theorem round_off_le (f : FloatFmt) {n d : Nat} (hd : 0 < d) {c : Nat} (hc : c ≤ f.inf) :
    f.off (n / d) (f.round n d) ≤ f.off (n / d) c := by
  by_cases h : c = f.round n d
  · rw [h]
  · rcases round_nearest f hd c hc h with h | ⟨h, -⟩
    · exact h.le
    · exact h.le

theorem round_eq (f : FloatFmt) {n d b : Nat} (hd : 0 < d) (hb : b ≤ f.inf)
    (h : ∀ c, c ≤ f.inf → c ≠ b → f.off (n / d) b < f.off (n / d) c) : f.round n d = b := by
  by_contra hne
  have h1 := h _ (round_le f n d) hne
  have h2 := round_off_le f (n := n) hd hb
  linarith

theorem off_pos {f : FloatFmt} {b c : Nat} (h : c ≠ b) : 0 < f.off (f.mag b) c := by
  rw [off, abs_pos, sub_ne_zero]
  intro he
  exact h (mag_inj f (by exact_mod_cast he.symm))

/-- Numbers of the format are not changed. -/
theorem round_exact (f : FloatFmt) {n d b : Nat} (hd : 0 < d) (hb : b ≤ f.inf)
    (h : (n / d : ℚ) = f.mag b) : f.round n d = b := by
  refine round_eq f hd hb fun c _ hne => ?_
  rw [h]
  have : f.off (f.mag b) b = 0 := by simp [off]
  rw [this]
  exact off_pos hne

theorem search_mul (f : FloatFmt) (n d : Nat) {k : Nat} (hk : 0 < k) (i b : Nat) :
    f.search (n * k) (d * k) i b = f.search n d i b := by
  induction i generalizing b with
  | zero => rfl
  | succ i ih =>
    rw [search, search]
    have : f.mag (b + 2 ^ i) * (d * k) ≤ n * k ↔ f.mag (b + 2 ^ i) * d ≤ n := by
      rw [← Nat.mul_assoc]
      exact Nat.mul_le_mul_right_iff hk
    simp only [this, ih]

theorem round_mul (f : FloatFmt) (n d : Nat) {k : Nat} (hk : 0 < k) :
    f.round (n * k) (d * k) = f.round n d := by
  rw [round, round, search_mul f n d hk]
  generalize Nat.min f.inf (f.search n d (f.exp + f.frac) 0) = b
  simp only [← Nat.mul_assoc, ← Nat.sub_mul, Nat.mul_lt_mul_right hk]

/-- Only the quotient matters. -/
theorem round_congr (f : FloatFmt) {n d n' d' : Nat} (hd : 0 < d) (hd' : 0 < d')
    (h : (n / d : ℚ) = n' / d') : f.round n d = f.round n' d' := by
  rw [← round_mul f n d hd', ← round_mul f n' d' hd]
  have h1 : (d : ℚ) ≠ 0 := by exact_mod_cast hd.ne'
  have h2 : (d' : ℚ) ≠ 0 := by exact_mod_cast hd'.ne'
  rw [div_eq_div_iff h1 h2] at h
  have h3 : n * d' = n' * d := by exact_mod_cast h
  rw [h3, Nat.mul_comm d d']

/-- The numbers have few digits. -/
theorem mag_digits (f : FloatFmt) (b : Nat) :
    ∃ m k, f.mag b = m * 2 ^ k ∧ m < 2 ^ (f.frac + 1) := by
  have hm : b % 2 ^ f.frac < 2 ^ f.frac := Nat.mod_lt _ (Nat.two_pow_pos _)
  rw [mag]
  split
  · exact ⟨_, 0, by simp; rfl, by rw [Nat.pow_succ]; omega⟩
  · exact ⟨_, _, rfl, by rw [Nat.pow_succ]; omega⟩

/-- So have the points halfway between two of them. -/
theorem mid_digits (f : FloatFmt) (b : Nat) :
    ∃ m k, f.mag b + f.mag (b + 1) = m * 2 ^ k ∧ m < 2 ^ (f.frac + 2) := by
  have hF : 0 < 2 ^ f.frac := Nat.two_pow_pos _
  have hP : 2 ^ (f.frac + 2) = 4 * 2 ^ f.frac := by rw [Nat.pow_add]; omega
  rw [hP]
  generalize hFe : 2 ^ f.frac = F at hF
  have hb : b = F * (b / F) + b % F := (Nat.div_add_mod b F).symm
  have hm : b % F < F := Nat.mod_lt _ hF
  simp only [mag, hFe]
  generalize b / F = e at hb
  generalize b % F = m at hb hm
  subst hb
  by_cases h : m + 1 < F
  · have e1 : (F * e + m + 1) / F = e := by
      rw [Nat.add_assoc, Nat.mul_add_div hF, Nat.div_eq_of_lt h, Nat.add_zero]
    have e2 : (F * e + m + 1) % F = m + 1 := by
      rw [Nat.add_assoc, Nat.mul_add_mod, Nat.mod_eq_of_lt h]
    rw [e1, e2]
    split
    · exact ⟨m + (m + 1), 0, by simp, by omega⟩
    · exact ⟨(F + m) + (F + (m + 1)), e - 1, by ring, by omega⟩
  · have h' : m + 1 = F := by omega
    have e0 : F * e + m + 1 = F * (e + 1) := by rw [Nat.mul_add]; omega
    have e1 : (F * e + m + 1) / F = e + 1 := by rw [e0, Nat.mul_div_cancel_left _ hF]
    have e2 : (F * e + m + 1) % F = 0 := by rw [e0, Nat.mul_mod_right]
    rw [e1, e2]
    simp only [Nat.add_eq_zero_iff, Nat.one_ne_zero, and_false, if_false, Nat.add_zero,
      Nat.add_sub_cancel]
    split
    · subst e
      exact ⟨m + F, 0, by simp, by omega⟩
    · obtain ⟨k, rfl⟩ : ∃ k, e = k + 1 := ⟨e - 1, by omega⟩
      refine ⟨(F + m) + F * 2, k, ?_, by omega⟩
      rw [Nat.add_sub_cancel, Nat.pow_succ]
      ring

/-- Every number with few digits belongs to the format, if exponents are not limited. -/
theorem mag_surj (f : FloatFmt) {m : Nat} (k : Nat) (h : m < 2 ^ (f.frac + 1)) :
    ∃ b, f.mag b = m * 2 ^ k := by
  induction k generalizing m with
  | zero =>
    have hF := Nat.two_pow_pos f.frac
    rw [Nat.pow_succ] at h
    refine ⟨m, ?_⟩
    rw [mag]
    split
    · rename_i h0
      rw [Nat.mod_eq_of_lt ((Nat.div_eq_zero_iff_lt hF).1 h0)]; simp
    · rename_i h0
      have h1 : m / 2 ^ f.frac = 1 := by
        have : m / 2 ^ f.frac < 2 := Nat.div_lt_of_lt_mul (by omega)
        exact Nat.le_antisymm (by omega) (Nat.pos_of_ne_zero h0)
      have := Nat.div_add_mod m (2 ^ f.frac)
      rw [h1] at this ⊢
      simp at this ⊢
      exact this
  | succ k ih =>
    by_cases h' : m < 2 ^ f.frac
    · obtain ⟨b, hb⟩ := ih (m := 2 * m) (by rw [Nat.pow_succ]; omega)
      exact ⟨b, by rw [hb, Nat.pow_succ]; ring⟩
    · have hF := Nat.two_pow_pos f.frac
      have hs : 2 ^ (f.frac + 1) = 2 ^ f.frac + 2 ^ f.frac := by rw [Nat.pow_succ]; omega
      refine ⟨2 ^ f.frac * (k + 2) + (m - 2 ^ f.frac), ?_⟩
      have hl : m - 2 ^ f.frac < 2 ^ f.frac := by omega
      rw [mag, Nat.mul_add_div hF, Nat.mul_add_mod, Nat.div_eq_of_lt hl, Nat.mod_eq_of_lt hl,
        if_neg (by omega), Nat.add_sub_cancel' (by omega)]
      rfl

/-- A number of a narrow format that is the nearest in a wide one is the nearest in the narrow one:
what is halfway between two numbers of the narrow format is a number of the wide one. -/
theorem round_narrow {f g : FloatFmt} {K : Nat} (hfrac : f.frac < g.frac)
    (hinf : f.mag f.inf * 2 ^ (K + 1) ≤ g.mag g.inf) {n d b b' : Nat} (hd : 0 < d) (hb : b < f.inf)
    (hbb : g.mag b' = f.mag b * 2 ^ (K + 1)) (h : g.round (n * 2 ^ (K + 1)) d = b') :
    f.round n d = b := by
  have hK : (0 : ℚ) < 2 ^ K := by positivity
  have near := fun {c} => round_off_le g (n := n * 2 ^ (K + 1)) hd (c := c)
  rw [h] at near
  have hx : ((n * 2 ^ (K + 1) : Nat) / d : ℚ) = (n / d) * 2 * 2 ^ K := by
    push_cast; rw [pow_succ]; ring
  rw [hx] at near
  generalize hxx : (n / d : ℚ) = x at near
  have hB : (g.mag b' : ℚ) = f.mag b * 2 * 2 ^ K := by rw [hbb]; push_cast; rw [pow_succ]; ring
  -- halfway to a neighbour
  have mid : ∀ a, a < f.inf → ∃ c, c ≤ g.inf ∧
      (g.mag c : ℚ) = (f.mag a + f.mag (a + 1)) * 2 ^ K := by
    intro a ha
    obtain ⟨m, k, e, hm⟩ := mid_digits f a
    obtain ⟨c, hc⟩ := mag_surj g (m := m) (k + K)
      (lt_of_lt_of_le hm (Nat.pow_le_pow_right (by omega) (by omega)))
    have hc' : g.mag c = (f.mag a + f.mag (a + 1)) * 2 ^ K := by rw [hc, e, pow_add]; ring
    refine ⟨c, ?_, by rw [hc']; push_cast; ring⟩
    rw [← mag_le_iff g, hc']
    refine le_trans ?_ hinf
    rw [Nat.pow_succ', ← Nat.mul_assoc]
    refine Nat.mul_le_mul_right _ ?_
    have h1 := (mag_le_iff f).2 (show a ≤ f.inf by omega)
    have h2 := (mag_le_iff f).2 (show a + 1 ≤ f.inf by omega)
    omega
  have up : 2 * x < f.mag b + f.mag (b + 1) := by
    by_contra hn
    obtain ⟨c, hc, e⟩ := mid b hb
    have h1 := near hc
    have h2 := castLt (f := f) (Nat.lt_succ_self b)
    have h3 : (f.mag b + f.mag (b + 1)) * 2 ^ K ≤ x * 2 * 2 ^ K :=
      mul_le_mul_of_nonneg_right (by linarith) hK.le
    have h4 : (f.mag b : ℚ) * 2 * 2 ^ K < (f.mag b + f.mag (b + 1)) * 2 ^ K :=
      mul_lt_mul_of_pos_right (by linarith) hK
    rw [off_above (by rw [hB]; linarith), off_above (by rw [e]; linarith), e, hB] at h1
    linarith
  have down : ∀ a, a + 1 = b → f.mag a + f.mag b < 2 * x := by
    intro a ha
    by_contra hn
    obtain ⟨c, hc, e⟩ := mid a (by omega)
    rw [ha] at e
    have h1 := near hc
    have h2 := castLt (f := f) (show a < b by omega)
    have h3 : x * 2 * 2 ^ K ≤ (f.mag a + f.mag b) * 2 ^ K :=
      mul_le_mul_of_nonneg_right (by linarith) hK.le
    have h4 : (f.mag a + f.mag b) * 2 ^ K < (f.mag b : ℚ) * 2 * 2 ^ K :=
      mul_lt_mul_of_pos_right (by linarith) hK
    rw [off_below (by rw [hB]; linarith), off_below (by rw [e]; linarith), e, hB] at h1
    linarith
  refine round_eq f hd hb.le fun c hc hne => ?_
  rw [hxx]
  rcases Nat.lt_or_gt_of_ne hne with h' | h'
  · have h1 := down (b - 1) (by omega)
    have h2 := castLe (f := f) (show c ≤ b - 1 by omega)
    have h3 := castLt (f := f) h'
    rw [off_above (b := c) (by linarith)]
    rcases le_total (f.mag b : ℚ) x with h4 | h4
    · rw [off_above h4]; linarith
    · rw [off_below h4]; linarith
  · have h2 := castLe (f := f) (show b + 1 ≤ c by omega)
    have h3 := castLt (f := f) h'
    rw [off_below (b := c) (by linarith)]
    rcases le_total (f.mag b : ℚ) x with h4 | h4
    · rw [off_above h4]; linarith
    · rw [off_below h4]; linarith

/-- Infinity is kept as well. -/
theorem round_narrow_inf {f g : FloatFmt} {K : Nat}
    (hinf : f.mag f.inf * 2 ^ (K + 1) < g.mag g.inf) {n d : Nat} (hd : 0 < d)
    (h : g.round (n * 2 ^ (K + 1)) d = g.inf) (hex : ∃ b, g.mag b = f.mag f.inf * 2 ^ (K + 1)) :
    f.round n d = f.inf := by
  have hd' : (0 : ℚ) < d := by exact_mod_cast hd
  obtain ⟨b, hb⟩ := hex
  have hbi : b < g.inf := (mag_lt_iff g).1 (by rw [hb]; exact hinf)
  have near := round_off_le g (n := n * 2 ^ (K + 1)) hd hbi.le
  rw [h] at near
  have h1 := castLt (f := g) hbi
  have h2 : (g.mag b : ℚ) ≤ (n * 2 ^ (K + 1) : Nat) / d := by
    by_contra hn
    rw [not_le] at hn
    rw [off_below (by linarith), off_below hn.le] at near
    linarith
  rw [hb, le_div_iff₀ hd'] at h2
  have h3 : f.mag f.inf * d ≤ n := by
    have : f.mag f.inf * 2 ^ (K + 1) * d ≤ n * 2 ^ (K + 1) := by exact_mod_cast h2
    rw [Nat.mul_right_comm] at this
    exact Nat.le_of_mul_le_mul_right this (Nat.two_pow_pos _)
  have h4 : (f.mag f.inf : ℚ) ≤ n / d := by
    rw [le_div_iff₀ hd']; exact_mod_cast h3
  refine round_eq f hd (le_refl _) fun c hc hne => ?_
  have h5 := castLt (f := f) (lt_of_le_of_ne hc hne)
  rw [off_above h4, off_above (by linarith)]
  linarith

end FloatFmt
end Htrpc
