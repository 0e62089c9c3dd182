/-
JSON texts in bodies and headers (C81).
-/
import Verif.Spec.JsonText
import Verif.Lemmas.JsonText
import Verif.Props.Embed
import Verif.Props.Problem
import Verif.Props.Http

namespace Htrpc
open Spec JsonCodec Http ToyJson

/-! ### Which characters a text has -/

section Chars
variable [FloatText]

omit [FloatText] in
theorem hexChar_printable {n : Nat} (h : n < 16) : 33 ≤ (hexChar n).toNat ∧ (hexChar n).toNat < 127 := by
  revert h
  have : ∀ n : Fin 16, 33 ≤ (hexChar n).toNat ∧ (hexChar n).toNat < 127 := by decide
  exact fun h => this ⟨n, h⟩

omit [FloatText] in
theorem escape_chars {c d : Char} (h : d ∈ escape c) : 32 ≤ d.toNat ∧ (d = del → c = del) := by
  have lit {d : Char} (h : 32 ≤ d.toNat ∧ d.toNat < 127) : 32 ≤ d.toNat ∧ (d = del → c = del) := by
    refine ⟨h.1, ?_⟩
    rintro rfl
    exact absurd h.2 (by decide)
  unfold escape at h
  split at h
  · simp only [List.mem_cons, List.not_mem_nil, or_false] at h
    rcases h with rfl | rfl <;> exact lit (by decide)
  split at h
  · simp only [List.mem_cons, List.not_mem_nil, or_false] at h
    rcases h with rfl | rfl <;> exact lit (by decide)
  split at h
  · simp only [List.mem_cons, List.not_mem_nil, or_false] at h
    rcases h with rfl | rfl <;> exact lit (by decide)
  split at h
  · simp only [List.mem_cons, List.not_mem_nil, or_false] at h
    rcases h with rfl | rfl <;> exact lit (by decide)
  split at h
  · simp only [List.mem_cons, List.not_mem_nil, or_false] at h
    rcases h with rfl | rfl <;> exact lit (by decide)
  split at h
  · simp only [List.mem_cons, List.not_mem_nil, or_false] at h
    rcases h with rfl | rfl <;> exact lit (by decide)
  split at h
  · simp only [List.mem_cons, List.not_mem_nil, or_false] at h
    rcases h with rfl | rfl <;> exact lit (by decide)
  split at h
  · rename_i hc
    simp only [List.mem_cons, List.not_mem_nil, or_false] at h
    rcases h with rfl | rfl | rfl | rfl | rfl | rfl
    · exact lit (by decide)
    · exact lit (by decide)
    · exact lit (by decide)
    · exact lit (by decide)
    · have := hexChar_printable (n := c.toNat / 16) (by omega)
      exact lit (by omega)
    · have := hexChar_printable (n := c.toNat % 16) (by omega)
      exact lit (by omega)
  · rename_i hc
    simp only [List.mem_singleton] at h
    subst h
    exact ⟨by omega, id⟩

omit [FloatText] in
theorem quote_chars {s : Str} {d : Char} (h : d ∈ quote s) : 32 ≤ d.toNat ∧ (d = del → del ∈ s) := by
  simp only [quote, List.mem_cons, List.mem_append, List.mem_flatMap, List.not_mem_nil, or_false] at h
  rcases h with rfl | ⟨c, hc, h⟩ | rfl
  · exact ⟨by decide, fun h => absurd h (by decide)⟩
  · obtain ⟨h1, h2⟩ := escape_chars h
    exact ⟨h1, fun h => h2 h ▸ hc⟩
  · exact ⟨by decide, fun h => absurd h (by decide)⟩

omit [FloatText] in
theorem quote_del {s : Str} (h : del ∈ s) : del ∈ quote s := by
  simp only [quote, List.mem_cons, List.mem_append, List.mem_flatMap, List.not_mem_nil, or_false]
  exact .inr (.inl ⟨del, h, by decide⟩)

omit [FloatText] in
theorem showInt_printable {i : Int} {d : Char} (h : d ∈ showInt i) : 32 ≤ d.toNat ∧ d ≠ del := by
  have hd {d : Char} (hd : d.isDigit = true) : 32 ≤ d.toNat ∧ d ≠ del := by
    refine ⟨?_, ?_⟩
    · simp only [Char.isDigit, Bool.and_eq_true, decide_eq_true_eq] at hd
      have : ('0' : Char).val ≤ d.val := hd.1
      have := UInt32.le_iff_toNat_le.1 this
      have h48 : ('0' : Char).val.toNat = 48 := rfl
      show 32 ≤ d.val.toNat
      omega
    · rintro rfl
      exact absurd hd (by decide)
  cases i with
  | ofNat n => exact hd (showNat_digits h)
  | negSucc n =>
    rcases List.mem_cons.1 h with rfl | h
    · exact ⟨by decide, by decide⟩
    · exact hd (showNat_digits h)

omit [FloatText] in
theorem newline_false (n : Nat) : newline false n = [] := rfl

mutual
/-- Compact texts have no control characters but the deletes of the document. -/
theorem text_chars (n : Nat) {d : Char} : ∀ j : Json, j.plain = true → d ∈ text false n j →
    32 ≤ d.toNat ∧ (d = del → ∃ s ∈ strings j, del ∈ s)
  | .null, _, h => by
    have : ∀ d ∈ "null".toList, 32 ≤ d.toNat ∧ d ≠ del := by decide
    have := this d h
    exact ⟨this.1, fun h => absurd h this.2⟩
  | .bool b, _, h => by
    have : ∀ b : Bool, ∀ d ∈ (if b then "true".toList else "false".toList), 32 ≤ d.toNat ∧ d ≠ del := by decide
    have := this b d h
    exact ⟨this.1, fun h => absurd h this.2⟩
  | .num i, _, h => by
    have := showInt_printable (i := i) h
    exact ⟨this.1, fun h => absurd h this.2⟩
  | .float _, hj, _ => by simp [Json.plain] at hj
  | .str s, _, h => by
    rw [text] at h
    have := quote_chars h
    exact ⟨this.1, fun h => ⟨s, by simp [strings], this.2 h⟩⟩
  | .arr [], _, h => by
    have : ∀ d ∈ ['[', ']'], 32 ≤ d.toNat ∧ d ≠ del := by decide
    rw [text] at h
    have := this d h
    exact ⟨this.1, fun h => absurd h this.2⟩
  | .arr (x :: xs), hj, h => by
    simp only [Json.plain, Json.plainAll, Bool.and_eq_true] at hj
    simp only [text, newline_false, List.nil_append, List.mem_cons, List.mem_append,
      List.not_mem_nil, or_false] at h
    simp only [strings, stringsAll, List.mem_append]
    rcases h with rfl | h | h | rfl
    · exact ⟨by decide, fun h => absurd h (by decide)⟩
    · have := text_chars (n + 1) x hj.1 h
      exact ⟨this.1, fun h => (this.2 h).imp fun s hs => ⟨.inl hs.1, hs.2⟩⟩
    · have := texts_chars (n + 1) xs hj.2 h
      exact ⟨this.1, fun h => (this.2 h).imp fun s hs => ⟨.inr hs.1, hs.2⟩⟩
    · exact ⟨by decide, fun h => absurd h (by decide)⟩
  | .obj [], _, h => by
    have : ∀ d ∈ ['{', '}'], 32 ≤ d.toNat ∧ d ≠ del := by decide
    rw [text] at h
    have := this d h
    exact ⟨this.1, fun h => absurd h this.2⟩
  | .obj ((k, x) :: ms), hj, h => by
    simp only [Json.plain, Json.plainMembers, Bool.and_eq_true] at hj
    simp only [text, newline_false, List.nil_append, List.mem_cons, List.mem_append, colon,
      Bool.false_eq_true, if_false, List.not_mem_nil, or_false] at h
    simp only [strings, stringsOf, List.mem_cons, List.mem_append]
    rcases h with rfl | h | rfl | h | h | rfl
    · exact ⟨by decide, fun h => absurd h (by decide)⟩
    · have := quote_chars h
      exact ⟨this.1, fun h => ⟨k, .inl rfl, this.2 h⟩⟩
    · exact ⟨by decide, fun h => absurd h (by decide)⟩
    · have := text_chars (n + 1) x hj.1 h
      exact ⟨this.1, fun h => (this.2 h).imp fun s hs => ⟨.inr (.inl hs.1), hs.2⟩⟩
    · have := members_chars (n + 1) ms hj.2 h
      exact ⟨this.1, fun h => (this.2 h).imp fun s hs => ⟨.inr (.inr hs.1), hs.2⟩⟩
    · exact ⟨by decide, fun h => absurd h (by decide)⟩
theorem texts_chars (n : Nat) {d : Char} : ∀ xs : List Json, Json.plainAll xs = true →
    d ∈ texts false n xs → 32 ≤ d.toNat ∧ (d = del → ∃ s ∈ stringsAll xs, del ∈ s)
  | [], _, h => by rw [texts] at h; cases h
  | x :: xs, hj, h => by
    simp only [Json.plainAll, Bool.and_eq_true] at hj
    simp only [texts, newline_false, List.nil_append, List.mem_cons, List.mem_append] at h
    simp only [stringsAll, List.mem_append]
    rcases h with rfl | h | h
    · exact ⟨by decide, fun h => absurd h (by decide)⟩
    · have := text_chars n x hj.1 h
      exact ⟨this.1, fun h => (this.2 h).imp fun s hs => ⟨.inl hs.1, hs.2⟩⟩
    · have := texts_chars n xs hj.2 h
      exact ⟨this.1, fun h => (this.2 h).imp fun s hs => ⟨.inr hs.1, hs.2⟩⟩
theorem members_chars (n : Nat) {d : Char} : ∀ ms : List (Str × Json), Json.plainMembers ms = true →
    d ∈ JsonCodec.members false n ms → 32 ≤ d.toNat ∧ (d = del → ∃ s ∈ stringsOf ms, del ∈ s)
  | [], _, h => by rw [JsonCodec.members] at h; cases h
  | (k, x) :: ms, hj, h => by
    simp only [Json.plainMembers, Bool.and_eq_true] at hj
    simp only [JsonCodec.members, newline_false, List.nil_append, List.mem_cons, List.mem_append, colon,
      Bool.false_eq_true, if_false, List.not_mem_nil, or_false] at h
    simp only [stringsOf, List.mem_cons, List.mem_append]
    rcases h with rfl | h | rfl | h | h
    · exact ⟨by decide, fun h => absurd h (by decide)⟩
    · have := quote_chars h
      exact ⟨this.1, fun h => ⟨k, .inl rfl, this.2 h⟩⟩
    · exact ⟨by decide, fun h => absurd h (by decide)⟩
    · have := text_chars n x hj.1 h
      exact ⟨this.1, fun h => (this.2 h).imp fun s hs => ⟨.inr (.inl hs.1), hs.2⟩⟩
    · have := members_chars n ms hj.2 h
      exact ⟨this.1, fun h => (this.2 h).imp fun s hs => ⟨.inr (.inr hs.1), hs.2⟩⟩
end

mutual
/-- A delete of the document is one of the text. -/
theorem text_del (p : Bool) (n : Nat) {s : Str} (hs : del ∈ s) : ∀ j : Json, s ∈ strings j →
    del ∈ text p n j
  | .null, h | .bool _, h | .num _, h | .float _, h | .arr [], h | .obj [], h => by
    simp [strings, stringsAll, stringsOf] at h
  | .str t, h => by
    simp only [strings, List.mem_singleton] at h
    subst h
    rw [text]
    exact quote_del hs
  | .arr (x :: xs), h => by
    simp only [strings, stringsAll, List.mem_append] at h
    simp only [text, List.mem_cons, List.mem_append]
    rcases h with h | h
    · exact .inr (.inr (.inl (text_del p (n + 1) hs x h)))
    · exact .inr (.inr (.inr (.inl (texts_del p (n + 1) hs xs h))))
  | .obj ((k, x) :: ms), h => by
    simp only [strings, stringsOf, List.mem_cons, List.mem_append] at h
    simp only [text, List.mem_cons, List.mem_append]
    rcases h with rfl | h | h
    · exact .inr (.inr (.inl (quote_del hs)))
    · exact .inr (.inr (.inr (.inr (.inl (text_del p (n + 1) hs x h)))))
    · exact .inr (.inr (.inr (.inr (.inr (.inl (members_del p (n + 1) hs ms h))))))
theorem texts_del (p : Bool) (n : Nat) {s : Str} (hs : del ∈ s) : ∀ xs : List Json,
    s ∈ stringsAll xs → del ∈ texts p n xs
  | [], h => by simp [stringsAll] at h
  | x :: xs, h => by
    simp only [stringsAll, List.mem_append] at h
    simp only [texts, List.mem_cons, List.mem_append]
    rcases h with h | h
    · exact .inr (.inr (.inl (text_del p n hs x h)))
    · exact .inr (.inr (.inr (texts_del p n hs xs h)))
theorem members_del (p : Bool) (n : Nat) {s : Str} (hs : del ∈ s) : ∀ ms : List (Str × Json),
    s ∈ stringsOf ms → del ∈ JsonCodec.members p n ms
  | [], h => by simp [stringsOf] at h
  | (k, x) :: ms, h => by
    simp only [stringsOf, List.mem_cons, List.mem_append] at h
    simp only [JsonCodec.members, List.mem_cons, List.mem_append]
    rcases h with rfl | h | h
    · exact .inr (.inr (.inl (quote_del hs)))
    · exact .inr (.inr (.inr (.inr (.inl (text_del p n hs x h)))))
    · exact .inr (.inr (.inr (.inr (.inr (members_del p n hs ms h)))))
end

/-- Pretty texts of arrays and objects with anything in them have line breaks. -/
theorem text_break (n : Nat) {j : Json} (hj : j.plain = true) (h : ¬ OneLine j) :
    '\n' ∈ text true n j := by
  cases j with
  | null => exact absurd .null h
  | bool b => exact absurd (.bool b) h
  | num i => exact absurd (.num i) h
  | float x => simp [Json.plain] at hj
  | str s => exact absurd (.str s) h
  | arr xs =>
    cases xs with
    | nil => exact absurd .arr h
    | cons x xs => simp [text, newline]
  | obj ms =>
    cases ms with
    | nil => exact absurd .obj h
    | cons m ms =>
      obtain ⟨k, x⟩ := m
      simp [text, newline]

theorem text_oneLine (p : Bool) (n : Nat) {j : Json} (h : OneLine j) : text p n j = text false n j := by
  cases h <;> simp [text]

/-- How texts end. -/
theorem text_ends (p : Bool) (n : Nat) (j : Json) (hj : j.plain = true) :
    ∃ c t, text p n j = t ++ [c] ∧ isWs c = false := by
  have digits (m : Nat) : ∃ c t, showNat m = t ++ [c] ∧ isWs c = false := by
    have hne := showNat_ne_nil m
    refine ⟨(showNat m).getLast hne, (showNat m).dropLast, (List.dropLast_concat_getLast hne).symm, ?_⟩
    have hc := showNat_digits (List.getLast_mem hne)
    generalize (showNat m).getLast hne = c at hc
    have h1 : c ≠ ' ' := by rintro rfl; exact absurd hc (by decide)
    have h2 : c ≠ '\n' := by rintro rfl; exact absurd hc (by decide)
    have h3 : c ≠ '\t' := by rintro rfl; exact absurd hc (by decide)
    have h4 : c ≠ '\r' := by rintro rfl; exact absurd hc (by decide)
    simp [isWs, h1, h2, h3, h4]
  cases j with
  | null => exact ⟨'l', "nul".toList, rfl, by decide⟩
  | bool b =>
    cases b
    · exact ⟨'e', "fals".toList, rfl, by decide⟩
    · exact ⟨'e', "tru".toList, rfl, by decide⟩
  | num i =>
    cases i with
    | ofNat m => exact digits m
    | negSucc m =>
      obtain ⟨c, t, h1, h2⟩ := digits (m + 1)
      exact ⟨c, '-' :: t, by rw [text, showInt, h1]; rfl, h2⟩
  | float x => simp [Json.plain] at hj
  | str s => exact ⟨'"', '"' :: s.flatMap escape, by rw [text, quote]; rfl, by decide⟩
  | arr xs =>
    cases xs with
    | nil => exact ⟨']', ['['], by rw [text]; rfl, by decide⟩
    | cons x xs =>
      refine ⟨']', '[' :: (newline p (n + 1) ++ (text p (n + 1) x ++ (texts p (n + 1) xs ++
        newline p n))), ?_, by decide⟩
      simp [text]
  | obj ms =>
    cases ms with
    | nil => exact ⟨'}', ['{'], by rw [text]; rfl, by decide⟩
    | cons m ms =>
      obtain ⟨k, x⟩ := m
      refine ⟨'}', '{' :: (newline p (n + 1) ++ (quote k ++ (colon p ++ (text p (n + 1) x ++
        (JsonCodec.members p (n + 1) ms ++ newline p n))))), ?_, by decide⟩
      simp [text]

omit [FloatText] in
theorem mem_utf8_ascii {s : Str} {c : Char} (h : c ∈ s) (hc : c.toNat < 128) :
    UInt8.ofNat c.toNat ∈ utf8 s := by
  rw [utf8, List.mem_flatMap]
  exact ⟨c, h, by rw [utf8Char_ascii hc]; simp⟩

omit [FloatText] in
/-- The bytes of a text are such as headers may have if its characters are. -/
theorem utf8_field {s : Str} (h : ∀ c ∈ s, 32 ≤ c.toNat ∧ c ≠ del) : ∀ b ∈ utf8 s, ValueByte b := by
  intro b hb
  rw [utf8, List.mem_flatMap] at hb
  obtain ⟨c, hc, hb⟩ := hb
  right
  by_cases hlt : b.toNat < 128
  · have he := mem_utf8Char_ascii hb hlt
    have := h c hc
    have hn : c.toNat = b.toNat := by rw [he, charOfByte_toNat]
    have h127 : b.toNat ≠ 127 := fun h127 => this.2 (by rw [he, h127]; rfl)
    exact .inl (by omega)
  · exact .inr (by omega)

end Chars

/-! ### C81 -/

section
variable [FloatText]

/-- **C81.** What is embedded as JSON is recovered, for every type the values of which are
documents. -/
theorem C81_recovered {T : Type} (d : Documents T) (f g) : JsonRecovers (d.codecs f g) := by
  rintro p x s h
  cases h
  show (parse (render p (d.doc x))).bind d.ofDoc = some x
  rw [parse_render p _ (d.plain x) (d.shallow x)]
  exact d.ofDoc_doc x

/-- **C81.** Which texts can be carried by a header: without deletes, and in one line. -/
theorem C81_header_iff (p : Bool) (j : Json) (hj : j.plain = true) :
    SafeValue (utf8 (render p j)) ↔ (∀ s ∈ strings j, del ∉ s) ∧ (p = true → OneLine j) := by
  constructor
  · rintro ⟨h, -⟩
    refine ⟨fun s hs hd => ?_, ?_⟩
    · have := h _ (mem_utf8_ascii (text_del p 0 hd j hs) (by decide))
      exact absurd this (by decide)
    · rintro rfl
      apply Classical.byContradiction
      intro hn
      have := h _ (mem_utf8_ascii (text_break 0 hj hn) (by decide))
      exact absurd this (by decide)
  · rintro ⟨h1, h2⟩
    have e : render p j = text false 0 j := by
      cases p
      · rfl
      · exact text_oneLine true 0 (h2 rfl)
    rw [e]
    refine ⟨utf8_field fun c hc => ?_, ?_⟩
    · obtain ⟨h3, h4⟩ := text_chars 0 j hj hc
      refine ⟨h3, fun hd => ?_⟩
      obtain ⟨s, hs, hs'⟩ := h4 hd
      exact h1 s hs hs'
    · have blank {c : Char} (hc : isWs c = false) (b : UInt8) (hb : b ∈ utf8Char c) : b ≠ 32 ∧ b ≠ 9 := by
        constructor
        · rintro rfl
          have := mem_utf8Char_ascii hb (by decide)
          rw [this] at hc
          exact absurd hc (by decide)
        · rintro rfl
          have := mem_utf8Char_ascii hb (by decide)
          rw [this] at hc
          exact absurd hc (by decide)
      rintro b (hb | hb)
      · obtain ⟨c, t, ht, hc, -⟩ := text_begins false 0 j hj
        rw [ht, utf8_cons] at hb
        refine blank hc b ?_
        have hne := utf8Char_ne_nil c
        rw [List.head?_append, List.head?_eq_some_head hne, Option.some_or] at hb
        rw [← List.head?_eq_some_head hne] at hb
        exact List.mem_of_head? hb
      · obtain ⟨c, t, ht, hc⟩ := text_ends false 0 j hj
        rw [ht, utf8_append] at hb
        refine blank hc b ?_
        have hne := utf8Char_ne_nil c
        have e : utf8 [c] = utf8Char c := by simp [utf8]
        rw [e, List.getLast?_append, List.getLast?_eq_some_getLast hne, Option.some_or] at hb
        rw [← List.getLast?_eq_some_getLast hne] at hb
        exact List.mem_of_getLast? hb

end

section
variable {T : Type}

/-- Fields embedded with `htrpc::json` (or `htrpc::json_pretty`), and what is declared of them. -/
def embedded (pretty : Bool) (xs : List (Str × T)) : List (Str × Item T) :=
  xs.map fun x => (x.1, .json pretty x.2)

/-- See `embedded`. -/
def embeddedTy (pretty : Bool) (xs : List (Str × T)) : List (Str × ItemTy) :=
  xs.map fun x => (x.1, .json pretty)

theorem embedded_sound [LawfulFloatText] (d : Documents T) (f g) (p : Bool) (xs : List (Str × T)) :
    ∃ vs es, Item.toVals (d.codecs f g) (embedded p xs) = .ok vs ∧ HeaderFields vs es ∧
      HasTyFields vs (ItemTy.raws (embeddedTy p xs)) ∧
      ItemTy.finishAll (d.codecs f g) (embeddedTy p xs) vs = .ok (embedded p xs) ∧
      es = xs.map fun x => (x.1, utf8 (render p (d.doc x.2))) := by
  induction xs with
  | nil => exact ⟨[], [], rfl, .nil, .nil, rfl, rfl⟩
  | cons x xs ih =>
    obtain ⟨n, x⟩ := x
    obtain ⟨vs, es, h1, h2, h3, h4, h5⟩ := ih
    refine ⟨(n, .str (render p (d.doc x))) :: vs, (n, utf8 (render p (d.doc x))) :: es, ?_,
      .present (.plain (.str _)) h2, .cons (.str _) h3, ?_, by rw [h5]; rfl⟩
    · show Item.toVals _ ((n, .json p x) :: embedded p xs) = _
      rw [Item.toVals, h1]
      rfl
    · show ItemTy.finishAll _ ((n, .json p) :: embeddedTy p xs) _ = .ok ((n, .json p x) :: embedded p xs)
      rw [ItemTy.finishAll, h4, ItemTy.finish, C81_recovered d f g p x _ rfl]
      rfl

/-- **C81.** A request with fields embedded as JSON in its header is read by the server as the client
has sent it exactly if their texts have one line and no deletes.  Then the server recovers the
fields. -/
theorem C81_request_iff [LawfulFloatText] [MethodNames] (d : Documents T) (f g) (p : Bool)
    (xs : List (Str × T)) (hd : DistinctNames xs) (hl : ∀ x ∈ xs, LowerName x.1 ∧ SafeName (utf8 x.1))
    (hc : ¬ Declared xs "content-length".toList) :
    ∃ vs, Item.toVals (d.codecs f g) (embedded p xs) = .ok vs ∧
      ∀ (m : Method) (e : EntryPoint) (path query : Option Val) (body : Bytes) (r : Request),
        serRequest m e (.struct (requestFields path query (some (.struct vs)))) body = .ok r →
        deItems (d.codecs f g) (embeddedTy p xs) (fun t => deHeaders t r.headers) =
          .ok (embedded p xs) ∧
        ((∀ more, readHead (writeRequest r ++ more) = .done ⟨m, r.target, r.headers⟩ (body ++ more)) ↔
          ∀ x ∈ xs, (∀ s ∈ strings (d.doc x.2), del ∉ s) ∧ (p = true → OneLine (d.doc x.2))) := by
  obtain ⟨vs, es, h1, h2, h3, h4, h5⟩ := embedded_sound d f g p xs
  refine ⟨vs, h1, fun m e path query body r hr => ?_⟩
  have hn : (ItemTy.raws (embeddedTy p xs)).map Prod.fst = xs.map Prod.fst := by
    simp [ItemTy.raws, embeddedTy, Function.comp_def]
  have hp : HeaderPart (some (.struct vs)) (some (.struct (ItemTy.raws (embeddedTy p xs)))) := by
    refine .struct h2 h3 ?_ ?_ ?_
    · rw [DistinctNames, hn]; exact hd
    · intro y hy
      have : y.1 ∈ xs.map Prod.fst := hn ▸ List.mem_map.2 ⟨y, hy, rfl⟩
      obtain ⟨x, hx, he⟩ := List.mem_map.1 this
      rw [← he]
      exact (hl x hx).1
    · rw [Declared, hn]; exact hc
  obtain ⟨own, k1, k2⟩ := hp.sound body
  have hh : r.headers = own ++ [contentLength body] := by
    have hr' := hr
    rw [C23_in_order] at hr'
    split at hr'
    · cases hr'
    · rw [requestOf, k1] at hr'
      obtain ⟨a, -, hr'⟩ := Res.bind_eq_ok.1 hr'
      obtain ⟨b, -, hr'⟩ := Res.bind_eq_ok.1 hr'
      cases hr'
      rfl
  have hown : own = headersOf es := by
    rw [requestHeaders, serHeaders_struct (Spec.HeaderFields.sent h2)] at k1
    cases k1
    rfl
  constructor
  · rcases k2 [] [] (by simp [AsciiNames]) (by simp [AsciiNames]) (by simp [Foreign])
      (by simp [Foreign]) with ⟨h, -⟩ | ⟨ty, v, ht, hv, hde⟩
    · cases h
    · cases ht
      cases hv
      rw [List.nil_append, List.append_nil, ← hh] at hde
      rw [deItems, hde]
      exact h4
  · rw [C67_request_iff m e _ body r hr, hh, hown, h5]
    constructor
    · intro hs x hx
      have := (hs (utf8 x.1, utf8 (render p (d.doc x.2))) (by
        rw [headersOf, List.map_map]
        exact List.mem_append_left _ (List.mem_map.2 ⟨x, hx, rfl⟩))).2
      exact (C81_header_iff p _ (d.plain _)).1 this
    · intro hs y hy
      rcases List.mem_append.1 hy with hy | hy
      · rw [headersOf, List.map_map] at hy
        obtain ⟨x, hx, rfl⟩ := List.mem_map.1 hy
        exact ⟨(hl x hx).2, (C81_header_iff p _ (d.plain _)).2 (hs x hx)⟩
      · rw [List.mem_singleton.1 hy]
        exact contentLength_safe body

end

/-! ### Examples -/

section Examples

/-- Documents themselves as an embedded type, as far as they are supported. -/
def exDocuments : Documents { j : Json // j.plain = true ∧ j.depth ≤ 127 } where
  doc j := j.1
  ofDoc j := if h : j.plain = true ∧ j.depth ≤ 127 then some ⟨j, h⟩ else none
  ofDoc_doc j := by simp [j.2]
  plain j := j.2.1
  shallow j := j.2.2

/-- A document with a name, a string, a number and an empty array. -/
def exDoc : Json := .obj [("a\"\n".toList, .arr [.str "é\u0001".toList, .num (-17), .arr []])]

/-- Its texts. -/
example : letI := toyFloat
    render false exDoc = "{\"a\\\"\\n\":[\"é\\u0001\",-17,[]]}".toList ∧
    render true exDoc =
      "{\n  \"a\\\"\\n\": [\n    \"é\\u0001\",\n    -17,\n    []\n  ]\n}".toList := by
  decide

/-- White space and escapes that are never written are understood, and what is not JSON is not. -/
example : letI := toyFloat
    (parse " [ true , \"\\u00e9\\ud83d\\ude00\\/\" ] ".toList).map (render false) =
      some "[true,\"é😀/\"]".toList ∧
    (parse "[01]".toList).isNone ∧ (parse "[1,]".toList).isNone ∧ (parse "\"\n\"".toList).isNone ∧
    (parse "1 2".toList).isNone := by
  decide +kernel

/-- `C81`: the compact text fits into a header, the pretty one does not. -/
example : letI := toyFloat
    SafeValue (utf8 (render false exDoc)) ∧ ¬ SafeValue (utf8 (render true exDoc)) := by
  let := toyFloat
  have hp : exDoc.plain = true := rfl
  refine ⟨(C81_header_iff _ _ hp).2 ⟨by decide, by simp⟩, fun h => ?_⟩
  cases ((C81_header_iff _ _ hp).1 h).2 rfl

/-- `C34`, `C81`: the document of a problem, -/
def exProblemDoc : Json := .obj [("type".toList, .str "about:blank".toList),
  ("title".toList, .str "x".toList), ("status".toList, .num 404)]

example : letI := toyUrl; Problem.toJson (.aboutBlank ⟨"x".toList, 404⟩) = exProblemDoc := rfl

/-- and its text, which is the body of a response. -/
example : letI := toyFloat
    render true exProblemDoc =
      "{\n  \"type\": \"about:blank\",\n  \"title\": \"x\",\n  \"status\": 404\n}".toList := by
  decide +kernel

end Examples

end Htrpc
