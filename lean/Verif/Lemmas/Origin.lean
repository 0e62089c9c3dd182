/-
The URL parser finds the path and the query of the specification.
-/
import Verif.Spec.Target
import Verif.Lemmas.Form

namespace Htrpc
open Spec

/-! ### Dot segments -/

theorem unescape_cons {c : Char} {s : Str} (hc : c ≠ '%') :
    unescape (c :: s) = (unescape s).map (c :: ·) := by
  match s with
  | [] => simp [unescape, hc]
  | [d] =>
    rw [unescape, unescape]
    by_cases hd : d = '%'
    · simp [hd]
    · simp [hc, hd]
  | a :: b :: s =>
    rw [unescape, if_neg hc]
    cases unescape (a :: b :: s) <;> rfl

theorem unescape_percent {s t : Str} (h : unescape ('%' :: s) = some t) :
    ∃ a b s' n t', s = a :: b :: s' ∧ codeOf a b = some n ∧ unescape s' = some t' ∧
      t = Char.ofNat n :: t' := by
  match s with
  | [] => simp [unescape] at h
  | [d] => simp [unescape] at h
  | a :: b :: s =>
    rw [unescape, if_pos rfl] at h
    cases hn : codeOf a b with
    | none => rw [hn] at h; cases h
    | some n =>
      cases ht : unescape s with
      | none => rw [hn, ht] at h; cases h
      | some t' =>
        rw [hn, ht] at h
        cases h
        exact ⟨a, b, s, n, t', rfl, hn, ht, rfl⟩

theorem unescape_nil {s : Str} (h : unescape s = some []) : s = [] := by
  match s with
  | [] => rfl
  | c :: s =>
    by_cases hc : c = '%'
    · subst hc
      obtain ⟨_, _, _, _, _, -, -, -, h⟩ := unescape_percent h
      cases h
    · rw [unescape_cons hc] at h
      cases hs : unescape s <;> rw [hs] at h <;> cases h

theorem hexVal_lt {c : Char} {n : Nat} (h : hexVal c = some n) : n < 16 := by
  simp only [hexVal] at h
  split at h
  · cases h; omega
  · split at h
    · cases h; omega
    · split at h
      · cases h; omega
      · cases h

theorem code_dot {a b : Char} {n : Nat} (h : codeOf a b = some n) (hn : Char.ofNat n = '.') :
    a = '2' ∧ (b = 'e' ∨ b = 'E') := by
  have hlt : n < 256 := by
    rw [codeOf] at h
    split at h
    · have := hexVal_lt (c := b) (by rw [hexVal_eq]; exact h); omega
    · rw [← hexVal_eq, ← hexVal_eq] at h
      cases ha : hexVal a with
      | none => rw [ha] at h; cases h
      | some x =>
        cases hb : hexVal b with
        | none => rw [ha, hb] at h; cases h
        | some y =>
          rw [ha, hb] at h
          have := hexVal_lt ha
          have := hexVal_lt hb
          cases h
          omega
  have h46 : n = 46 := by
    have := congrArg Char.toNat hn
    rw [charOfNat_toNat (valid_of_lt (by omega))] at this
    exact this
  subst h46
  rw [codeOf] at h
  split at h
  · have := hexVal_lt (c := b) (by rw [hexVal_eq]; exact h); omega
  · rw [← hexVal_eq, ← hexVal_eq] at h
    cases ha : hexVal a with
    | none => rw [ha] at h; cases h
    | some x =>
      cases hb : hexVal b with
      | none => rw [ha, hb] at h; cases h
      | some y =>
        rw [ha, hb] at h
        have hx := hexVal_lt ha
        have hy := hexVal_lt hb
        have hxy : 16 * x + y = 46 := Option.some.inj h
        obtain rfl : x = 2 := by omega
        obtain rfl : y = 14 := by omega
        have ha' : a.toNat = 50 := by
          simp only [hexVal] at ha
          split at ha
          · have := Option.some.inj ha; omega
          · split at ha
            · have := Option.some.inj ha; omega
            · split at ha
              · have := Option.some.inj ha; omega
              · cases ha
        have hb' : b.toNat = 69 ∨ b.toNat = 101 := by
          simp only [hexVal] at hb
          split at hb
          · have := Option.some.inj hb; omega
          · split at hb
            · have := Option.some.inj hb; omega
            · split at hb
              · have := Option.some.inj hb; omega
              · cases hb
        exact ⟨toNat_inj ha', hb'.symm.imp toNat_inj toNat_inj⟩

/-- How a dot can be written. -/
theorem unescape_dot {s t : Str} (h : unescape s = some ('.' :: t)) :
    ∃ s', (s = '.' :: s' ∨ s = '%' :: '2' :: 'e' :: s' ∨ s = '%' :: '2' :: 'E' :: s') ∧
      unescape s' = some t := by
  match s with
  | [] => simp [unescape] at h
  | c :: s =>
    by_cases hc : c = '%'
    · subst hc
      obtain ⟨a, b, s', n, t', rfl, hn, ht, he⟩ := unescape_percent h
      simp only [List.cons.injEq] at he
      obtain ⟨rfl, rfl | rfl⟩ := code_dot hn he.1.symm
      · exact ⟨s', .inr (.inl rfl), by rw [ht, he.2]⟩
      · exact ⟨s', .inr (.inr rfl), by rw [ht, he.2]⟩
    · rw [unescape_cons hc] at h
      cases hs : unescape s with
      | none => rw [hs] at h; cases h
      | some x =>
        rw [hs] at h
        simp only [Option.map_some, Option.some.injEq, List.cons.injEq] at h
        obtain ⟨rfl, rfl⟩ := h
        exact ⟨s, .inl rfl, hs⟩

theorem isDot_iff {s : Str} : isDot s = true ↔ Here s := by
  constructor
  · intro h
    simp only [isDot, Bool.or_eq_true, beq_iff_eq] at h
    rcases h with (rfl | rfl) | rfl <;> decide
  · intro h
    obtain ⟨s', h1, h2⟩ := unescape_dot h
    rw [unescape_nil h2] at h1
    rcases h1 with rfl | rfl | rfl <;> decide

theorem isDotDot_iff {s : Str} : isDotDot s = true ↔ Up s := by
  constructor
  · intro h
    simp only [isDotDot, Bool.or_eq_true, beq_iff_eq] at h
    rcases h with (((((((h | h) | h) | h) | h) | h) | h) | h) | h <;> subst h <;> decide
  · intro h
    obtain ⟨s', h1, h2⟩ := unescape_dot h
    obtain ⟨s'', h3, h4⟩ := unescape_dot h2
    rw [unescape_nil h4] at h3
    rcases h3 with rfl | rfl | rfl <;> rcases h1 with rfl | rfl | rfl <;> decide

/-- One segment on top of the finished ones. -/
def pushDot (out : List Str) (s : Str) : List Str :=
  if isDotDot s then out.dropLast else if isDot s then out else out ++ [s]

theorem normSegs_eq (out L : List Str) (hL : L ≠ []) :
    normSegs out L = (L.map fun r => pctEncode keepPath (utf8 r)).foldl pushDot out ++
      match (L.map fun r => pctEncode keepPath (utf8 r)).getLast? with
      | some s => if isDot s = true ∨ isDotDot s = true then [[]] else []
      | none => [] := by
  induction L generalizing out with
  | nil => exact absurd rfl hL
  | cons r L ih =>
    cases L with
    | nil =>
      simp only [normSegs, List.map_cons, List.map_nil, List.foldl_cons, List.foldl_nil,
        List.getLast?_singleton, pushDot]
      split
      · rename_i h; simp [h]
      · rename_i h
        split
        · rename_i h'; simp [h']
        · rename_i h'; simp [h, h']
    | cons r' L =>
      have hl : ((r :: r' :: L).map fun r => pctEncode keepPath (utf8 r)).getLast? =
          ((r' :: L).map fun r => pctEncode keepPath (utf8 r)).getLast? := by
        rw [List.map_cons, List.map_cons, List.getLast?_cons_cons]
      rw [hl, List.map_cons, List.foldl_cons, normSegs]
      simp only [pushDot]
      split
      · exact ih _ (by simp)
      · split
        · exact ih _ (by simp)
        · exact ih _ (by simp)
      · simp

theorem remaining_cons (n : Nat) (s : Str) (ss : List Str) : remaining n (s :: ss) =
    if Up s then remaining (n + 1) ss
    else if Here s then remaining n ss
    else
      match n with
      | 0 => s :: remaining 0 ss
      | n + 1 => remaining n ss := by
  cases n <;> rfl

/-- Resolving dot segments from the left or from the right is the same. -/
theorem foldl_pushDot (n : Nat) (L : List Str) :
    (L.foldl pushDot []).take ((L.foldl pushDot []).length - n) =
      (remaining n L.reverse).reverse := by
  induction L using snoc_induction generalizing n with
  | nil => simp [remaining]
  | snoc L s ih =>
    rw [List.foldl_append, List.foldl_cons, List.foldl_nil, List.reverse_append, List.reverse_cons,
      List.reverse_nil, List.nil_append, List.singleton_append, remaining_cons, pushDot]
    by_cases hu : Up s
    · rw [if_pos (isDotDot_iff.2 hu), if_pos hu, ← ih, List.dropLast_eq_take, List.take_take,
        List.length_take]
      congr 1
      omega
    · rw [if_neg (fun h => hu (isDotDot_iff.1 h)), if_neg hu]
      by_cases hh : Here s
      · rw [if_pos (isDot_iff.2 hh), if_pos hh, ih]
      · rw [if_neg (fun h => hh (isDot_iff.1 h)), if_neg hh]
        cases n with
        | zero =>
          have := ih 0
          rw [Nat.sub_zero, List.take_length] at this
          simp only [Nat.sub_zero, List.take_length, List.reverse_cons]
          rw [this]
        | succ n =>
          simp only
          rw [← ih, List.length_append, List.length_singleton,
            List.take_append_of_le_length (by omega)]
          congr 1
          omega

theorem normSegs_resolve (L : List Str) (hL : L ≠ []) :
    normSegs [] L = resolve (L.map fun r => pctEncode keepPath (utf8 r)) := by
  rw [normSegs_eq _ _ hL, resolve]
  have := foldl_pushDot 0 (L.map fun r => pctEncode keepPath (utf8 r))
  rw [Nat.sub_zero, List.take_length] at this
  rw [this]
  congr 1
  generalize (L.map fun r => pctEncode keepPath (utf8 r)).getLast? = x
  cases x with
  | none => rfl
  | some s =>
    dsimp only
    by_cases hs : Here s ∨ Up s
    · rw [if_pos hs, if_pos (hs.imp isDot_iff.2 isDotDot_iff.2)]
    · rw [if_neg hs, if_neg fun h => hs (h.imp isDot_iff.1 isDotDot_iff.1)]

/-! ### Escapes -/

theorem pctByte_eq (b : UInt8) : pctByte b = escapeByte b := by
  have hb := u8_lt b
  have h : ∀ n, n < 16 → hexDigit n = "0123456789ABCDEF".toList.getD n '0' := by decide
  rw [pctByte, escapeByte, h _ (by omega), h _ (by omega)]

theorem mem_utf8Char_high {c : Char} (hc : 0x80 ≤ c.toNat) {b : UInt8} (hb : b ∈ utf8Char c) :
    0x80 ≤ b.toNat := by
  rcases Nat.lt_or_ge b.toNat 0x80 with h | h
  · have := mem_utf8Char_ascii hb h
    rw [this, charOfByte_toNat] at hc
    omega
  · exact h

theorem pctEncode_written {keep : UInt8 → Bool} {plain : Char → Bool}
    (h1 : ∀ b, 0x80 ≤ b.toNat → keep b = false)
    (h2 : ∀ c : Char, c.toNat < 0x80 → keep (UInt8.ofNat c.toNat) = plain c)
    (h3 : ∀ c : Char, 0x80 ≤ c.toNat → plain c = false) (s : Str) :
    pctEncode keep (utf8 s) = writtenOut plain s := by
  induction s with
  | nil => rfl
  | cons c s ih =>
    rw [utf8_cons, pctEncode, List.flatMap_append]
    have ih' : (utf8 s).flatMap (fun b => if keep b then [Char.ofNat b.toNat] else pctByte b) =
      writtenOut plain s := ih
    rw [ih']
    show _ = (if plain c then [c] else (utf8 [c]).flatMap escapeByte) ++ writtenOut plain s
    congr 1
    rw [utf8_one]
    rcases Nat.lt_or_ge c.toNat 0x80 with h | h
    · rw [utf8Char_ascii h, List.flatMap_cons, List.flatMap_nil, List.append_nil, h2 c h,
        u8_toNat (by omega), Char.ofNat_toNat, List.flatMap_cons, List.flatMap_nil, List.append_nil,
        pctByte_eq]
    · rw [h3 c h, if_neg (by simp)]
      have hall := fun b hb => h1 b (mem_utf8Char_high h (b := b) hb)
      generalize utf8Char c = bs at hall
      induction bs with
      | nil => rfl
      | cons b bs ih =>
        rw [List.flatMap_cons, List.flatMap_cons, hall b List.mem_cons_self, if_neg (by simp),
          pctByte_eq, ih fun b hb => hall b (List.mem_cons_of_mem _ hb)]

theorem pctEncode_path (s : Str) : pctEncode keepPath (utf8 s) = writtenOut plainInPath s := by
  refine pctEncode_written ?_ ?_ ?_ s
  · intro b hb
    simp [keepPath, isGraphic]
    omega
  · intro c hc
    simp only [keepPath, isGraphic, plainInPath, u8_toNat (show c.toNat < 256 by omega),
      Char.ofNat_toNat]
    congr 2
  · intro c hc
    simp [plainInPath]
    omega

theorem pctEncode_query (s : Str) : pctEncode keepQuery (utf8 s) = writtenOut plainInQuery s := by
  refine pctEncode_written ?_ ?_ ?_ s
  · intro b hb
    simp [keepQuery, isGraphic]
    omega
  · intro c hc
    simp only [keepQuery, isGraphic, plainInQuery, u8_toNat (show c.toNat < 256 by omega),
      Char.ofNat_toNat]
    congr 2
  · intro c hc
    simp [plainInQuery]
    omega

/-! ### Targets -/

theorem parseScheme_slash (r : Str) : parseScheme ('/' :: r) = none := by
  rw [parseScheme, if_neg (by decide)]

theorem takeWhile_stop {p : Char → Bool} {a b : Str} (ha : ∀ c ∈ a, p c = true)
    (hb : ∀ c r, b = c :: r → p c = false) :
    (a ++ b).takeWhile p = a ∧ (a ++ b).dropWhile p = b := by
  induction a with
  | nil =>
    cases b with
    | nil => exact ⟨rfl, rfl⟩
    | cons c r => simp [hb c r rfl]
  | cons c a ih =>
    have := ih fun d hd => ha d (List.mem_cons_of_mem _ hd)
    simp [ha c List.mem_cons_self, this.1, this.2]

theorem strip_visible {t : Str} (h : ∀ c ∈ t, 0x20 < c.toNat) :
    (((t.dropWhile fun c => decide (c.toNat ≤ 0x20)).reverse.dropWhile
      fun c => decide (c.toNat ≤ 0x20)).reverse.filter fun c => !isTabNl c) = t := by
  have hd : ∀ u : Str, (∀ c ∈ u, 0x20 < c.toNat) →
      u.dropWhile (fun c => decide (c.toNat ≤ 0x20)) = u := by
    intro u hu
    cases u with
    | nil => rfl
    | cons c u =>
      have := hu c List.mem_cons_self
      rw [List.dropWhile_cons, if_neg (by simp; omega)]
  rw [hd t h, hd _ (by simpa using h), List.reverse_reverse]
  refine List.filter_eq_self.2 fun c hc => ?_
  have := h c hc
  cases hb : isTabNl c with
  | false => rfl
  | true =>
    simp only [isTabNl, Bool.or_eq_true, beq_iff_eq] at hb
    rcases hb with (rfl | rfl) | rfl <;> exact absurd this (by decide)

theorem pathQuery_origin {t p : Str} {q : Option Str} (h : Origin t p q) :
    ∃ r, t = '/' :: r ∧ (∀ c s, r = c :: s → isSlash c = false) ∧
      pathQuery true r = ⟨some (resolve ((splitBy (fun c => c == '/' || c == '\\') p).map
        (writtenOut plainInPath))), q.map (writtenOut plainInQuery)⟩ := by
  have hp : ∀ {p : Str}, InPath p → ∀ c ∈ p, decide (c ≠ '?' ∧ c ≠ '#') = true := by
    intro p hp c hc
    have h1 : c ≠ '?' := fun e => hp.1 (e ▸ hc)
    have h2 : c ≠ '#' := fun e => hp.2.1 (e ▸ hc)
    simp [h1, h2]
  have hsl : ∀ {p : Str}, InPath p → ∀ f : Str, (∀ c s, f = c :: s → isSlash c = false) →
      ∀ c s, p ++ f = c :: s → isSlash c = false := by
    intro p hp f hf c s he
    cases p with
    | nil => exact hf c s he
    | cons d p =>
      simp only [List.cons_append, List.cons.injEq] at he
      obtain ⟨rfl, -⟩ := he
      have := hp.2.2 d p rfl
      simp [isSlash, this]
  have hseg : ∀ p : Str, normSegs [] (splitBy (fun c => c == '/' || (true && c == '\\')) p) =
      resolve ((splitBy (fun c => c == '/' || c == '\\') p).map (writtenOut plainInPath)) := by
    intro p
    rw [normSegs_resolve _ (splitBy_nonempty _ _)]
    simp only [Bool.true_and, pctEncode_path]
  cases h with
  | @path p f hin hf =>
    refine ⟨p ++ f, rfl, hsl hin f ?_, ?_⟩
    · intro c s he
      rcases hf with rfl | ⟨g, rfl⟩
      · cases he
      · cases he; decide
    · have hst := takeWhile_stop (p := fun c => decide (c ≠ '?' ∧ c ≠ '#')) (b := f) (hp hin) (by
        intro c s he
        rcases hf with rfl | ⟨g, rfl⟩
        · cases he
        · cases he; decide)
      rw [pathQuery, hst.1, hst.2, hseg]
      rcases hf with rfl | ⟨g, rfl⟩ <;> rfl
  | @query p q f hin hq hf =>
    refine ⟨p ++ '?' :: (q ++ f), rfl, hsl hin _ ?_, ?_⟩
    · intro c s he
      cases he; decide
    · have hst := takeWhile_stop (p := fun c => decide (c ≠ '?' ∧ c ≠ '#')) (b := '?' :: (q ++ f))
        (hp hin) (by intro c s he; cases he; decide)
      have hst' := takeWhile_stop (p := fun c => decide (c ≠ '#')) (a := q) (b := f)
        (by intro c hc; simp; exact fun e => hq (e ▸ hc)) (by
        intro c s he
        rcases hf with rfl | ⟨g, rfl⟩
        · cases he
        · cases he; decide)
      rw [pathQuery, hst.1, hst.2, hseg]
      simp only [hst'.1, pctEncode_query, Option.map_some]

theorem parseTarget_origin (o : UrlOracle) {t p : Str} {q : Option Str}
    (hv : ∀ c ∈ t, 0x20 < c.toNat) (h : Origin t p q) :
    parseTarget o t = some ⟨some (resolve ((splitBy (fun c => c == '/' || c == '\\') p).map
        (writtenOut plainInPath))), q.map (writtenOut plainInQuery)⟩ := by
  obtain ⟨r, rfl, hr, hpq⟩ := pathQuery_origin h
  rw [parseTarget]
  simp only [strip_visible hv, parseScheme_slash]
  cases r with
  | nil => rw [← hpq]; rfl
  | cons d r =>
    rw [parseAgainstBase, if_pos (by decide)]
    rw [if_neg (by rw [hr d r rfl]; simp), hpq]

/-- Every text with exactly one slash at the beginning is in origin form. -/
theorem origin_exists {r : Str} (h : ∀ c s, r = c :: s → isSlash c = false) :
    ∃ p q, Origin ('/' :: r) p q := by
  have hcut : ∀ (stop : Char → Bool) (s : Str), ∃ a b, s = a ++ b ∧ (∀ c ∈ a, stop c = false) ∧
      ∀ c r, b = c :: r → stop c = true := by
    intro stop s
    induction s with
    | nil => exact ⟨[], [], rfl, by simp, nofun⟩
    | cons c s ih =>
      cases hc : stop c with
      | true => exact ⟨[], c :: s, rfl, by simp, by rintro _ _ ⟨⟩; exact hc⟩
      | false =>
        obtain ⟨a, b, rfl, h1, h2⟩ := ih
        exact ⟨c :: a, b, rfl, by simpa using ⟨hc, h1⟩, h2⟩
  obtain ⟨p, b, rfl, hp, hb⟩ := hcut (fun c => c == '?' || c == '#') r
  have hin : InPath p := by
    refine ⟨fun hc => ?_, fun hc => ?_, fun c s he => ?_⟩
    · have := hp _ hc; simp at this
    · have := hp _ hc; simp at this
    · subst he
      have := h c (s ++ b) rfl
      simpa [isSlash] using this
  match b, hb with
  | [], _ => exact ⟨p, none, .path hin (.inl rfl)⟩
  | c :: b, hb =>
    have hc := hb c b rfl
    simp only [Bool.or_eq_true, beq_iff_eq] at hc
    rcases hc with rfl | rfl
    · obtain ⟨q, f, rfl, hq, hf⟩ := hcut (fun c => c == '#') b
      refine ⟨p, some q, .query hin (fun hc => ?_) ?_⟩
      · have := hq _ hc; simp at this
      · match f, hf with
        | [], _ => exact .inl rfl
        | d :: f, hf =>
          have := hf d f rfl
          simp only [beq_iff_eq] at this
          exact .inr ⟨f, by rw [this]⟩
    · exact ⟨p, none, .path hin (.inr ⟨b, rfl⟩)⟩

/-! ### Parameters of the query as written -/

theorem written_cons (plain : Char → Bool) (c : Char) (s : Str) : writtenOut plain (c :: s) =
    (if plain c then [c] else (utf8 [c]).flatMap escapeByte) ++ writtenOut plain s := rfl

theorem escapeByte_eq (b : UInt8) (rest : Str) : escapeByte b ++ rest =
    '%' :: hexDigit (b.toNat / 16) :: hexDigit (b.toNat % 16) :: rest := by
  rw [← pctByte_eq]; rfl

/-- Escaped bytes are read as these bytes. -/
theorem formBytes_escapes {s : Str} {x : Bytes} (h : FormBytes s x) (bs : Bytes) :
    FormBytes (bs.flatMap escapeByte ++ s) (bs ++ x) := by
  induction bs with
  | nil => exact h
  | cons b bs ih =>
    have hb := u8_lt b
    rw [List.flatMap_cons, List.append_assoc, escapeByte_eq]
    have he : escaped (hexDigit (b.toNat / 16)) (hexDigit (b.toNat % 16)) = some b.toNat := by
      rw [escaped_eq, hexVal_hexDigit (by omega), hexVal_hexDigit (by omega)]
      simp only [Option.some.injEq]
      omega
    have := FormBytes.escape he ih
    rw [u8_ofNat_toNat] at this
    exact this

theorem plainInQuery_hex {c : Char} {n : Nat} (h : hexVal c = some n) : plainInQuery c = true := by
  rw [hexVal_eq] at h
  by_cases hc : c ∈ "0123456789abcdefABCDEF".toList
  · have all : ∀ x ∈ "0123456789abcdefABCDEF".toList, plainInQuery x = true := by decide
    exact all c hc
  · rw [← hexVal_eq] at h
    have : c.toNat ∈ (List.range 103) := by
      simp only [hexVal] at h
      rw [List.mem_range]
      split at h
      · omega
      · split at h
        · omega
        · split at h
          · omega
          · cases h
    have all : ∀ n ∈ List.range 103, hexVal (Char.ofNat n) ≠ none →
        plainInQuery (Char.ofNat n) = true := by decide
    have := all _ this
    rw [Char.ofNat_toNat] at this
    exact this (by rw [h]; simp)

/-- Escaping changes nothing in the bytes that are read. -/
theorem formBytes_written {s : Str} {x : Bytes} (h : FormBytes s x) :
    FormBytes (writtenOut plainInQuery s) x := by
  induction h with
  | nil => exact .nil
  | blank _ ih => rw [written_cons, if_pos (by decide)]; exact .blank ih
  | @escape a b n s bs he _ ih =>
    have he' := he
    rw [escaped_eq] at he'
    cases ha : hexVal a with
    | none => rw [ha] at he'; cases he'
    | some m =>
      cases hb : hexVal b with
      | none => rw [ha, hb] at he'; cases he'
      | some k =>
        rw [written_cons, if_pos (by decide), written_cons, if_pos (plainInQuery_hex ha),
          written_cons, if_pos (plainInQuery_hex hb)]
        exact .escape he ih
  | @char c s bs hc hno _ ih =>
    rw [written_cons]
    split
    · refine .char hc ?_ ih
      rintro a b s' n rfl he hn
      have hn' := hn
      rw [escaped_eq] at hn'
      cases ha : hexVal a with
      | none => rw [ha] at hn'; cases hn'
      | some m =>
        cases hb : hexVal b with
        | none => rw [ha, hb] at hn'; cases hn'
        | some k =>
          -- two hexadecimal digits at the beginning have not been escaped
          have hdig : ∀ {u : Str} {d : Char} {r : Str} {j : Nat}, writtenOut plainInQuery u = d :: r →
              hexVal d = some j → ∃ u', u = d :: u' ∧ writtenOut plainInQuery u' = r := by
            intro u d r j hu hj
            cases u with
            | nil => cases hu
            | cons e u =>
              rw [written_cons] at hu
              split at hu
              · simp only [List.singleton_append, List.cons.injEq] at hu
                obtain ⟨rfl, hu⟩ := hu
                exact ⟨u, rfl, hu⟩
              · exfalso
                rw [utf8_one] at hu
                cases hb : utf8Char e with
                | nil => exact utf8Char_ne_nil e hb
                | cons y ys =>
                  rw [hb, List.flatMap_cons, List.append_assoc, escapeByte_eq] at hu
                  simp only [List.cons.injEq] at hu
                  rw [← hu.1] at hj
                  cases hj
          obtain ⟨u, rfl, hu⟩ := hdig he ha
          obtain ⟨u', rfl, -⟩ := hdig hu hb
          exact hno a b u' n rfl rfl hn
    · exact formBytes_escapes ih _

theorem formText_written {s t : Str} : FormText (writtenOut plainInQuery s) t ↔ FormText s t := by
  have h : ∀ {t}, FormText s t → FormText (writtenOut plainInQuery s) t :=
    fun ⟨bs, h1, h2⟩ => ⟨bs, formBytes_written h1, h2⟩
  refine ⟨fun ht => ?_, h⟩
  have h1 := h (formText_iff.2 rfl)
  rw [formText_iff] at h1 ht
  rw [formText_iff, ← ht, h1]

theorem written_append (plain : Char → Bool) (a b : Str) :
    writtenOut plain (a ++ b) = writtenOut plain a ++ writtenOut plain b := by
  simp [writtenOut]

/-- A plain character is found in the escaped text exactly where it was. -/
theorem mem_written {c : Char} (hc : c ≠ '%') (ha : hexVal c = none) {s : Str}
    (h : c ∈ writtenOut plainInQuery s) : c ∈ s := by
  rw [writtenOut, List.mem_flatMap] at h
  obtain ⟨d, hd, h⟩ := h
  split at h
  · rw [List.mem_singleton.1 h]; exact hd
  · exfalso
    obtain ⟨b, -, h⟩ := List.mem_flatMap.1 h
    have hb := u8_lt b
    rw [← pctByte_eq, pctByte] at h
    simp only [List.mem_cons, List.not_mem_nil, or_false] at h
    rcases h with rfl | rfl | rfl
    · exact hc rfl
    · rw [hexVal_hexDigit (by omega)] at ha; cases ha
    · rw [hexVal_hexDigit (by omega)] at ha; cases ha

theorem pieces_written {q : Str} {L : List Str} (h : Pieces (· = '&') q L) :
    Pieces (· = '&') (writtenOut plainInQuery q) (L.map (writtenOut plainInQuery)) := by
  induction h with
  | @last s hs =>
    refine .last fun c hc e => ?_
    subst e
    exact hs _ (mem_written (by decide) (by decide) hc) rfl
  | @cons s c t ss hs hc _ ih =>
    subst hc
    rw [written_append, written_cons, if_pos (by decide)]
    refine .cons (fun c hc e => ?_) rfl ih
    subst e
    exact hs _ (mem_written (by decide) (by decide) hc) rfl

theorem written_nil {s : Str} : writtenOut plainInQuery s = [] ↔ s = [] := by
  constructor
  · intro h
    cases s with
    | nil => rfl
    | cons c s =>
      exfalso
      rw [written_cons] at h
      split at h
      · cases h
      · rw [utf8_one] at h
        cases hb : utf8Char c with
        | nil => exact utf8Char_ne_nil c hb
        | cons y ys => rw [hb, List.flatMap_cons, List.append_assoc, escapeByte_eq] at h; cases h
  · rintro rfl; rfl

theorem pieceParameters_written {L : List Str} {ps : List (Str × Str)} (h : PieceParameters L ps) :
    PieceParameters (L.map (writtenOut plainInQuery)) ps := by
  induction h with
  | nil => exact .nil
  | empty _ ih => exact .empty ih
  | cons hs hp _ ih =>
    refine .cons (fun e => hs (written_nil.1 e)) ?_ ih
    obtain ⟨k, v, hk, he, h1, h2⟩ := hp
    refine ⟨_, _, fun hc => hk (mem_written (by decide) (by decide) hc), ?_,
      formText_written.2 h1, formText_written.2 h2⟩
    rcases he with rfl | ⟨rfl, rfl⟩
    · left
      rw [written_append, written_cons, if_pos (by decide)]; rfl
    · exact .inr ⟨rfl, rfl⟩

/-- Escaping changes nothing in the parameters. -/
theorem parameters_written {q : Str} {ps : List (Str × Str)} (h : Parameters q ps) :
    formParse (writtenOut plainInQuery q) = ps := by
  obtain ⟨L, h1, h2⟩ := h
  exact parameters_iff.1 ⟨_, pieces_written h1, pieceParameters_written h2⟩

end Htrpc
