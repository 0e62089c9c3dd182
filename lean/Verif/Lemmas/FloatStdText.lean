import Verif.Lemmas.FloatStd
import Mathlib.Data.Int.Cast.Lemmas
import Mathlib.Algebra.Order.Field.Power

namespace Htrpc
open FloatFmt
namespace FloatStd

/-- The number `d * 10 ^ e` in units of `1 / 2 ^ scale`. -/
theorem bits_dec (f : FloatFmt) (d : Nat) (e : Int) :
    ∃ n k, 0 < k ∧ f.bits (.dec d e) = f.round n k ∧
      (n / k : ℚ) = d * (10 : ℚ) ^ e * 2 ^ f.scale := by
  cases e with
  | ofNat k => exact ⟨_, 1, by omega, rfl, by push_cast; simp⟩
  | negSucc k =>
    refine ⟨_, 10 ^ (k + 1), by positivity, rfl, ?_⟩
    rw [zpow_negSucc]
    push_cast
    field_simp

theorem bits_congr (f : FloatFmt) {d d' : Nat} {e e' : Int}
    (h : d * (10 : ℚ) ^ e = d' * (10 : ℚ) ^ e') : f.bits (.dec d e) = f.bits (.dec d' e') := by
  obtain ⟨n, k, hk, e1, h1⟩ := bits_dec f d e
  obtain ⟨n', k', hk', e1', h1'⟩ := bits_dec f d' e'
  rw [e1, e1']
  exact round_congr f hk hk' (by rw [h1, h1', h])

theorem strip_value (fuel d : Nat) (e : Int) :
    ((strip fuel d e).1 : ℚ) * (10 : ℚ) ^ (strip fuel d e).2 = d * (10 : ℚ) ^ e := by
  induction fuel generalizing d e with
  | zero => rfl
  | succ fuel ih =>
    rw [strip]
    split
    · rename_i h
      rw [ih, zpow_add_one₀ (by norm_num)]
      have : d = d / 10 * 10 := by omega
      have h' : (d : ℚ) = (d / 10 : Nat) * 10 := by exact_mod_cast this
      rw [h']
      ring
    · rfl

theorem shortest_reads (f : FloatFmt) {b x : Nat} (h : f.bits (.dec x (0 - (f.scale : Int))) = b)
    (j : Nat) : f.bits (.dec (shortest f b x j).1 ((shortest f b x j).2 - (f.scale : Int))) = b := by
  induction j with
  | zero => exact h
  | succ j ih =>
    rw [shortest]
    dsimp only
    split
    · rename_i h'; exact h'.1
    · split
      · rename_i h'; exact h'
      · exact ih

theorem takeWhile_all {ds r : Str} (h : ∀ c ∈ ds, c.isDigit = true)
    (hr : ∀ c ∈ r.head?, c.isDigit = false) :
    (ds ++ r).takeWhile Char.isDigit = ds ∧ (ds ++ r).dropWhile Char.isDigit = r := by
  have h3 : r.takeWhile Char.isDigit = [] ∧ r.dropWhile Char.isDigit = r := by
    cases r with
    | nil => exact ⟨rfl, rfl⟩
    | cons c r =>
      have := hr c rfl
      simp [this]
  constructor
  · rw [List.takeWhile_append_of_pos h, h3.1, List.append_nil]
  · rw [List.dropWhile_append_of_pos h, h3.2]

theorem number_dec {s : Str} {l : FloatLit} (h : number s = some l) : ∃ d e, l = .dec d e := by
  simp only [number] at h
  rw [Option.ite_none_left_eq_some] at h
  obtain ⟨e, -, h⟩ := Option.map_eq_some_iff.1 h.2
  exact ⟨_, _, h.symm⟩

theorem number_int {ds : Str} (h : ∀ c ∈ ds, c.isDigit = true) (hne : ds ≠ []) :
    number ds = some (.dec (Nat.ofDigitChars 10 ds 0) 0) := by
  obtain ⟨h1, h2⟩ := takeWhile_all (r := []) h (by simp)
  rw [List.append_nil] at h1 h2
  simp only [number, h1, h2]
  simp [hne, fraction, ending]

theorem number_frac {ip fp : Str} (h : ∀ c ∈ ip, c.isDigit = true) (hne : ip ≠ [])
    (h' : ∀ c ∈ fp, c.isDigit = true) : number (ip ++ '.' :: fp) =
      some (.dec (Nat.ofDigitChars 10 (ip ++ fp) 0) (0 - (fp.length : Int))) := by
  obtain ⟨h1, h2⟩ := takeWhile_all (r := '.' :: fp) h (by simp)
  obtain ⟨h3, h4⟩ := takeWhile_all (r := []) h' (by simp)
  rw [List.append_nil] at h3 h4
  simp only [number, h1, h2, fraction, h3, h4]
  simp [hne, ending]

theorem number_decText (d : Nat) (e : Int) :
    ∃ d' e', number (decText d e) = some (.dec d' e') ∧ d' * (10 : ℚ) ^ e' = d * (10 : ℚ) ^ e := by
  have hd : ∀ c ∈ showNat d, c.isDigit = true := fun c hc => showNat_digits hc
  have hv : Nat.ofDigitChars 10 (showNat d) 0 = d := by
    rw [showNat, Nat.ofDigitChars_toDigits (by omega) (by omega)]
  have hz : ∀ n, ∀ c ∈ List.replicate n '0', c.isDigit = true := fun n c hc => by
    rw [(List.mem_replicate.1 hc).2]; decide
  cases e with
  | ofNat k =>
    refine ⟨_, _, number_int (ds := showNat d ++ List.replicate k '0') ?_ ?_, ?_⟩
    · intro c hc
      rcases List.mem_append.1 hc with hc | hc
      · exact hd c hc
      · exact hz k c hc
    · simp [showNat_ne_nil]
    · rw [Nat.ofDigitChars_append, hv, Nat.ofDigitChars_replicate_zero]
      push_cast
      simp [mul_comm]
  | negSucc k =>
    simp only [decText]
    generalize hds : List.replicate (k + 2 - (showNat d).length) '0' ++ showNat d = ds
    have hall : ∀ c ∈ ds, c.isDigit = true := by
      intro c hc
      rw [← hds] at hc
      rcases List.mem_append.1 hc with hc | hc
      · exact hz _ c hc
      · exact hd c hc
    have hlen : k + 2 ≤ ds.length := by rw [← hds]; simp; omega
    have hval : Nat.ofDigitChars 10 ds 0 = d := by
      rw [← hds, Nat.ofDigitChars_append, Nat.ofDigitChars_replicate_zero, Nat.mul_zero, hv]
    refine ⟨_, _, number_frac (fun c hc => hall c (List.mem_of_mem_take hc)) ?_
      (fun c hc => hall c (List.mem_of_mem_drop hc)), ?_⟩
    · intro h
      have := congrArg List.length h
      rw [List.length_take, List.length_nil] at this
      omega
    · rw [List.take_append_drop, hval, List.length_drop]
      have : ds.length - (ds.length - (k + 1)) = k + 1 := by omega
      rw [this]
      simp [Int.negSucc_eq]

theorem decText_chars (d : Nat) (e : Int) : ∀ c ∈ decText d e, c.isDigit = true ∨ c = '.' := by
  have hd : ∀ c ∈ showNat d, c.isDigit = true := fun c hc => showNat_digits hc
  have hz : ∀ n, ∀ c ∈ List.replicate n '0', c.isDigit = true := fun n c hc => by
    rw [(List.mem_replicate.1 hc).2]; decide
  intro c hc
  cases e with
  | ofNat k =>
    rcases List.mem_append.1 hc with hc | hc
    · exact .inl (hd c hc)
    · exact .inl (hz k c hc)
  | negSucc k =>
    simp only [decText] at hc
    generalize hds : List.replicate (k + 2 - (showNat d).length) '0' ++ showNat d = ds at hc
    have hall : ∀ c ∈ ds, c.isDigit = true := by
      intro c hc
      rw [← hds] at hc
      rcases List.mem_append.1 hc with hc | hc
      · exact hz _ c hc
      · exact hd c hc
    rcases List.mem_append.1 hc with hc | hc
    · exact .inl (hall c (List.mem_of_mem_take hc))
    · rcases List.mem_cons.1 hc with hc | hc
      · exact .inr hc
      · exact .inl (hall c (List.mem_of_mem_drop hc))

theorem decText_first (d : Nat) (e : Int) : ∃ c s, decText d e = c :: s ∧ c.isDigit = true := by
  cases e with
  | ofNat k =>
    obtain ⟨c, s, h⟩ := List.exists_cons_of_ne_nil (showNat_ne_nil d)
    exact ⟨c, s ++ List.replicate k '0', by simp [decText, h], showNat_digits (n := d) (by simp [h])⟩
  | negSucc k =>
    simp only [decText]
    generalize hds : List.replicate (k + 2 - (showNat d).length) '0' ++ showNat d = ds
    have hall : ∀ c ∈ ds, c.isDigit = true := by
      intro c hc
      rw [← hds] at hc
      rcases List.mem_append.1 hc with hc | hc
      · rw [(List.mem_replicate.1 hc).2]; decide
      · exact showNat_digits hc
    have hlen : k + 2 ≤ ds.length := by rw [← hds]; simp; omega
    cases ds with
    | nil => simp at hlen
    | cons c s =>
      refine ⟨c, s.take (s.length - (k + 1)) ++ '.' :: s.drop (s.length - (k + 1)), ?_, hall c (by simp)⟩
      have : (c :: s).length - (k + 1) = s.length - (k + 1) + 1 := by simp at hlen ⊢; omega
      rw [this]
      rfl

/-- The text of a number starts with a digit and denotes the number. -/
theorem showMag_spec (f : FloatFmt) {b : Nat} (hb : b < f.inf) :
    ∃ l, number (showMag f b) = some l ∧ f.bits l = b := by
  rw [showMag]
  split
  · rename_i h
    subst h
    refine ⟨.dec 0 0, by decide, ?_⟩
    obtain ⟨n, k, hk, e1, h1⟩ := bits_dec f 0 0
    rw [e1]
    exact round_exact f hk (by omega) (by rw [h1, mag_zero]; simp)
  · have hx : f.bits (.dec (f.mag b * 5 ^ f.scale) (0 - (f.scale : Int))) = b := by
      obtain ⟨n, k, hk, e1, h1⟩ := bits_dec f (f.mag b * 5 ^ f.scale) (0 - (f.scale : Int))
      rw [e1]
      refine round_exact f hk hb.le ?_
      rw [h1, zero_sub, zpow_neg, zpow_natCast]
      push_cast
      rw [show (10 : ℚ) ^ f.scale = 5 ^ f.scale * 2 ^ f.scale by rw [← mul_pow]; norm_num]
      field_simp
    have h1 := shortest_reads f hx ((showNat (f.mag b * 5 ^ f.scale)).length - 1)
    dsimp only
    generalize shortest f b (f.mag b * 5 ^ f.scale)
      ((showNat (f.mag b * 5 ^ f.scale)).length - 1) = r at h1
    obtain ⟨d, j⟩ := r
    dsimp only at h1 ⊢
    have h2 := strip_value d d ((j : Int) - f.scale)
    generalize strip d d ((j : Int) - f.scale) = r at h2
    obtain ⟨d', e'⟩ := r
    dsimp only at h2 ⊢
    obtain ⟨d'', e'', h3, h4⟩ := number_decText d' e'
    exact ⟨_, h3, by rw [bits_congr f (h4.trans h2), h1]⟩

theorem showMag_chars (f : FloatFmt) (b : Nat) : ∀ c ∈ showMag f b, c.isDigit = true ∨ c = '.' := by
  intro c hc
  rw [showMag] at hc
  split at hc
  · simp at hc; subst hc; decide
  · exact decText_chars _ _ c hc

theorem showMag_first (f : FloatFmt) (b : Nat) :
    ∃ c s, showMag f b = c :: s ∧ c.isDigit = true := by
  rw [showMag]
  split
  · exact ⟨'0', [], rfl, by decide⟩
  · exact decText_first _ _

theorem number_inf : number "inf".toList = none := by decide

/-- What is printed for a number denotes it. -/
theorem show_literal (f : FloatFmt) (x : Nat) (h : x % 2 ^ (f.exp + f.frac) ≤ f.inf) :
    ∃ c s l, literal (c :: s) = some l ∧ c ≠ '-' ∧ c ≠ '+' ∧
      f.bits l = x % 2 ^ (f.exp + f.frac) ∧ (l = .inf ↔ x % 2 ^ (f.exp + f.frac) = f.inf) ∧
      (l ≠ .nan) ∧
      FloatStd.show f x = if x / 2 ^ (f.exp + f.frac) % 2 = 1 then '-' :: c :: s else c :: s := by
  rw [FloatStd.show]
  generalize x % 2 ^ (f.exp + f.frac) = b at h
  dsimp only
  rw [if_neg (by omega)]
  by_cases hb : b = f.inf
  · refine ⟨'i', "nf".toList, .inf, by decide, by decide, by decide, hb.symm, by simp [hb],
      nofun, ?_⟩
    rw [if_pos hb]
    rfl
  · rw [if_neg hb]
    obtain ⟨c, s, h1, h2⟩ := showMag_first f b
    obtain ⟨l, h3, h4⟩ := showMag_spec f (b := b) (by omega)
    rw [h1] at h3 ⊢
    obtain ⟨d, e, rfl⟩ := number_dec h3
    refine ⟨c, s, _, by rw [literal, h3], ?_, ?_, h4, by simp [hb], nofun, rfl⟩
    · rintro rfl; exact absurd h2 (by decide)
    · rintro rfl; exact absurd h2 (by decide)

theorem parse_signed (f : FloatFmt) {c : Char} {s : Str} {l : FloatLit} (h : literal (c :: s) = some l)
    (h1 : c ≠ '-') (h2 : c ≠ '+') (P : Prop) [Decidable P] :
    parse f (if P then '-' :: c :: s else c :: s) = some (f.signed (decide P) (f.bits l)) := by
  split
  · rename_i hp
    simp [parse, h, hp]
  · rename_i hp
    rw [parse.eq_def]
    split
    · rename_i h'; cases h'; exact absurd rfl h1
    · rename_i h'; cases h'; exact absurd rfl h2
    · simp [h, hp]

/-- Numbers are read back. -/
theorem parse_show (f : FloatFmt) {x : Nat} (hx : x < 2 ^ (f.exp + f.frac + 1))
    (h : x % 2 ^ (f.exp + f.frac) ≤ f.inf) : parse f (FloatStd.show f x) = some x := by
  obtain ⟨c, s, l, h1, h2, h3, h4, -, -, h5⟩ := show_literal f x h
  rw [h5, parse_signed f h1 h2 h3, h4]
  have hp := Nat.two_pow_pos (f.exp + f.frac)
  have hdm := Nat.div_add_mod x (2 ^ (f.exp + f.frac))
  have hlt : x / 2 ^ (f.exp + f.frac) < 2 := Nat.div_lt_of_lt_mul (by rw [Nat.pow_succ] at hx; omega)
  rw [signed]
  generalize x / 2 ^ (f.exp + f.frac) = q at hdm hlt
  have : q = 0 ∨ q = 1 := by omega
  rcases this with rfl | rfl
  · simp at hdm ⊢; exact hdm
  · simp at hdm ⊢; exact hdm

/-- What is printed for a number of the wide format is read as the same number in the narrow one. -/
theorem parse_narrow {f g : FloatFmt} {K : Nat} (hfrac : f.frac < g.frac)
    (hK : g.scale = f.scale + (K + 1)) (hinf : f.mag f.inf * 2 ^ (K + 1) < g.mag g.inf)
    {x : Nat} (hx : x < 2 ^ (f.exp + f.frac + 1)) (h : x % 2 ^ (f.exp + f.frac) ≤ f.inf) :
    parse f (FloatStd.show g (convert f g x)) = some x := by
  have hp := Nat.two_pow_pos (f.exp + f.frac)
  have hdm := Nat.div_add_mod x (2 ^ (f.exp + f.frac))
  have hlt : x / 2 ^ (f.exp + f.frac) < 2 := Nat.div_lt_of_lt_mul (by rw [Nat.pow_succ] at hx; omega)
  have embed : ∀ b, b ≤ f.inf → ∃ b', b' < g.inf ∧ g.mag b' = f.mag b * 2 ^ (K + 1) := by
    intro b hb
    obtain ⟨m, k, e, hm⟩ := mag_digits f b
    obtain ⟨b', hb'⟩ := mag_surj g (m := m) (k + (K + 1))
      (lt_of_lt_of_le hm (Nat.pow_le_pow_right (by omega) (by omega)))
    have : g.mag b' = f.mag b * 2 ^ (K + 1) := by rw [hb', e, pow_add, Nat.mul_assoc]
    refine ⟨b', (mag_lt_iff g).1 ?_, this⟩
    rw [this]
    exact lt_of_le_of_lt (Nat.mul_le_mul_right _ ((mag_le_iff f).2 hb)) hinf
  rw [convert]
  try dsimp only
  rw [if_neg (by omega)]
  generalize hb : x % 2 ^ (f.exp + f.frac) = b at h hdm
  generalize x / 2 ^ (f.exp + f.frac) = q at hdm hlt
  have hq : q = 0 ∨ q = 1 := by omega
  -- the bits in the wide format
  generalize hB : (if b = f.inf then g.inf else g.round (f.mag b * 2 ^ g.scale) (2 ^ f.scale)) = B
  have hBle : B ≤ g.inf := by
    rw [← hB]
    split
    · omega
    · exact round_le g _ _
  have hBlt := lt_of_le_of_lt hBle (inf_lt g)
  have hGp := Nat.two_pow_pos (g.exp + g.frac)
  have hmod : g.signed (decide (q % 2 = 1)) B % 2 ^ (g.exp + g.frac) = B := by
    rw [signed]
    split
    · rw [Nat.add_mod_left, Nat.mod_eq_of_lt hBlt]
    · rw [Nat.mod_eq_of_lt hBlt]
  have hdiv : g.signed (decide (q % 2 = 1)) B / 2 ^ (g.exp + g.frac) % 2 = 1 ↔ q = 1 := by
    rw [signed]
    rcases hq with rfl | rfl
    · simp [Nat.div_eq_of_lt hBlt]
    · simp [Nat.add_div_left _ hGp, Nat.div_eq_of_lt hBlt]
  obtain ⟨c, s, l, h1, h2, h3, h4, h4', h4'', h5⟩ :=
    show_literal g (g.signed (decide (q % 2 = 1)) B) (by rw [hmod]; exact hBle)
  rw [hmod] at h4 h4'
  rw [h5]
  simp only [hdiv]
  rw [parse_signed f h1 h2 h3]
  have hbits : f.bits l = b := by
    cases l with
    | nan => exact absurd rfl h4''
    | inf =>
      have hBi := h4'.1 rfl
      rw [← hB] at hBi
      by_cases hbi : b = f.inf
      · exact hbi.symm
      · rw [if_neg hbi] at hBi
        obtain ⟨b', hb', hm⟩ := embed b h
        have : g.round (f.mag b * 2 ^ g.scale) (2 ^ f.scale) = b' := by
          refine round_exact g (Nat.two_pow_pos _) hb'.le ?_
          rw [hm, hK, pow_add]
          push_cast
          field_simp
        omega
    | dec d e =>
      obtain ⟨n, k, hk, e1, h6⟩ := bits_dec f d e
      obtain ⟨n', k', hk', e1', h6'⟩ := bits_dec g d e
      have hg : g.round (n * 2 ^ (K + 1)) k = B := by
        rw [← h4, e1']
        refine round_congr g hk hk' ?_
        rw [h6', hK, pow_add (2 : ℚ) f.scale, ← mul_assoc, ← h6]
        push_cast
        ring
      rw [e1]
      have hBne : B ≠ g.inf := fun hh => by simpa using h4'.2 hh
      have hbi : b ≠ f.inf := fun hh => by rw [if_pos hh] at hB; exact hBne hB.symm
      rw [if_neg hbi] at hB
      obtain ⟨b', hb', hm⟩ := embed b h
      have : g.round (f.mag b * 2 ^ g.scale) (2 ^ f.scale) = b' := by
        refine round_exact g (Nat.two_pow_pos _) hb'.le ?_
        rw [hm, hK, pow_add]
        push_cast
        field_simp
      rw [this] at hB
      exact round_narrow hfrac hinf.le hk (by omega) hm (by rw [hg, hB])
  rw [hbits, signed]
  rcases hq with rfl | rfl
  · simp at hdm ⊢; exact hdm
  · simp at hdm ⊢; exact hdm

end FloatStd
end Htrpc
