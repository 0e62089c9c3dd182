import Verif.Model.JsonText
import Verif.Lemmas.Text

namespace Htrpc.JsonCodec

/-! ### Strings -/

theorem hex4_control : ∀ n : Fin 32,
    hex4 '0' '0' (hexChar (n / 16)) (hexChar (n % 16)) = some n.1 := by decide

theorem string_u {x y z w : Char} {r : Str} {n : Nat} (h : hex4 x y z w = some n)
    (hn : n < 0xD800) : string ('\\' :: 'u' :: x :: y :: z :: w :: r) = push (Char.ofNat n) (string r) := by
  conv => lhs; unfold string
  rw [if_neg (by decide), if_neg (by decide), if_pos rfl]
  simp only [h]
  rw [if_neg (by omega), if_neg (by omega)]

theorem string_escape (c : Char) (r : Str) : string (escape c ++ r) = push c (string r) := by
  have short (e : Char) (he : e ≠ 'u') : string ('\\' :: e :: r) =
      (match e :: r with
      | 'b' :: r => push (Char.ofNat 8) (string r)
      | 't' :: r => push (Char.ofNat 9) (string r)
      | 'n' :: r => push (Char.ofNat 10) (string r)
      | 'f' :: r => push (Char.ofNat 12) (string r)
      | 'r' :: r => push (Char.ofNat 13) (string r)
      | '"' :: r => push '"' (string r)
      | '\\' :: r => push '\\' (string r)
      | '/' :: r => push '/' (string r)
      | _ => none) := by
    conv => lhs; unfold string
    rw [if_neg (by decide), if_neg (by decide), if_pos rfl]
    split
    · rename_i heq
      cases heq
      exact absurd rfl he
    all_goals first | rfl | (rename_i heq; cases heq; rfl) | skip
    simp_all
  have named {n : Nat} (h : c.toNat = n) : c = Char.ofNat n := by rw [← h]; simp
  unfold escape
  split
  · rename_i h; subst h; exact short _ (by decide)
  split
  · rename_i h; subst h; exact short _ (by decide)
  split
  · rename_i h; rw [named h]; exact short _ (by decide)
  split
  · rename_i h; rw [named h]; exact short _ (by decide)
  split
  · rename_i h; rw [named h]; exact short _ (by decide)
  split
  · rename_i h; rw [named h]; exact short _ (by decide)
  split
  · rename_i h; rw [named h]; exact short _ (by decide)
  split
  · rename_i h
    have := string_u (r := r) (hex4_control ⟨c.toNat, h⟩) (by show c.toNat < _; omega)
    simpa using this
  · rename_i h1 h2 _ _ _ _ _ h3
    conv => lhs; rw [List.singleton_append]; unfold string
    rw [if_neg h1, if_neg h3, if_neg h2]

theorem string_quote (s r : Str) : string (s.flatMap escape ++ ('"' :: r)) = some (s, r) := by
  induction s with
  | nil => rw [List.flatMap_nil, List.nil_append, string.eq_def]; rfl
  | cons c s ih => rw [List.flatMap_cons, List.append_assoc, string_escape, ih]; rfl

/-! ### White space -/

theorem skipWs_cons {c : Char} {r : Str} (h : isWs c = false) : skipWs (c :: r) = c :: r := by
  simp [skipWs, h]

theorem skipWs_blanks (n : Nat) (r : Str) : skipWs (List.replicate n ' ' ++ r) = skipWs r := by
  induction n with
  | zero => rfl
  | succ n ih => rw [List.replicate_succ, List.cons_append, ← ih]; rfl

theorem skipWs_newline (p : Bool) (n : Nat) (r : Str) : skipWs (newline p n ++ r) = skipWs r := by
  cases p
  · rfl
  · exact skipWs_blanks _ _

theorem skipWs_colon (p : Bool) (r : Str) :
    skipWs (colon p ++ r) = colon p ++ r := by
  cases p <;> rfl

/-! ### Numbers -/

/-- What may follow a number. -/
def Ends (r : Str) : Prop := ∀ c ∈ r.head?, c.isDigit = false ∧ c ≠ '.' ∧ c ≠ 'e' ∧ c ≠ 'E'

theorem ends_nil : Ends [] := by simp [Ends]

theorem ends_newline {p : Bool} {n : Nat} {r : Str} (h : Ends r) : Ends (newline p n ++ r) := by
  cases p
  · exact h
  · intro c hc
    cases hc
    decide

theorem ends_texts [FloatText] {p : Bool} {n : Nat} {xs : List Json} {r : Str} (h : Ends r) :
    Ends (texts p n xs ++ r) := by
  cases xs with
  | nil => simpa [texts] using h
  | cons x xs =>
    intro c hc
    simp only [texts, List.cons_append, List.head?_cons, Option.mem_def, Option.some.injEq] at hc
    subst hc
    decide

theorem ends_members [FloatText] {p : Bool} {n : Nat} {ms : List (Str × Json)} {r : Str}
    (h : Ends r) : Ends (members p n ms ++ r) := by
  cases ms with
  | nil => simpa [members] using h
  | cons x xs =>
    obtain ⟨k, x⟩ := x
    intro c hc
    simp only [members, List.cons_append, List.head?_cons, Option.mem_def, Option.some.injEq] at hc
    subst hc
    decide

theorem digits_append {ds r : Str} (h : ∀ c ∈ ds, c.isDigit = true) (hr : Ends r) :
    digits (ds ++ r) = ds ∧ afterDigits (ds ++ r) = r := by
  induction ds with
  | nil =>
    cases r with
    | nil => exact ⟨rfl, rfl⟩
    | cons c r =>
      have := (hr c rfl).1
      simp [digits, afterDigits, this]
  | cons d ds ih =>
    have hd := h d (by simp)
    obtain ⟨h1, h2⟩ := ih fun c hc => h c (by simp [hc])
    simp only [digits, afterDigits, List.cons_append] at h1 h2 ⊢
    rw [List.takeWhile_cons_of_pos hd, List.dropWhile_cons_of_pos hd, h1, h2]
    exact ⟨rfl, rfl⟩

theorem fraction_none {r : Str} (hr : Ends r) : fraction r = some ([], r) := by
  cases r with
  | nil => rfl
  | cons c r =>
    obtain ⟨-, h1, h2, h3⟩ := hr c rfl
    unfold fraction
    split
    · rename_i heq
      cases heq
      exact absurd rfl h1
    · simp [exponent, h2, h3]

theorem showNat_head (n : Nat) : ∀ t, showNat n = '0' :: t → n = 0 := by
  induction n using Nat.strongRecOn with
  | ind n ih =>
    intro t h
    by_cases hn : n < 10
    · rw [showNat, Nat.toDigits_of_lt_base hn] at h
      match n, hn with
      | 0, _ => rfl
      | 1, _ | 2, _ | 3, _ | 4, _ | 5, _ | 6, _ | 7, _ | 8, _ | 9, _ => simp [Nat.digitChar] at h
    · rw [showNat, Nat.toDigits_of_base_le (by omega) (by omega)] at h
      cases hd : Nat.toDigits 10 (n / 10) with
      | nil => exact absurd hd Nat.toDigits_ne_nil
      | cons c s =>
        rw [hd] at h
        simp only [List.cons_append, List.cons.injEq] at h
        obtain ⟨rfl, -⟩ := h
        have := ih (n / 10) (by omega) s hd
        omega

theorem showNat_zero_first {n : Nat} (h : (showNat n).head? = some '0') : showNat n = ['0'] := by
  cases hs : showNat n with
  | nil => exact absurd hs (showNat_ne_nil n)
  | cons c t =>
    rw [hs] at h
    cases h
    have := showNat_head n t hs
    subst this
    rw [← hs]
    rfl

variable [FloatText]

theorem number_showNat (n : Nat) {r : Str} (hr : Ends r) (neg : Bool)
    (h : if neg then 0 < n ∧ n ≤ 2 ^ 63 else n < 2 ^ 64) :
    number neg (showNat n ++ r) = some (.num (if neg then -n else n), r) := by
  obtain ⟨h1, h2⟩ := digits_append (ds := showNat n) (r := r) (fun c hc => showNat_digits hc) hr
  unfold number
  simp only [h1, h2, fraction_none hr]
  rw [if_neg]
  · have : Nat.ofDigitChars 10 (showNat n) 0 = n := by
      rw [showNat, Nat.ofDigitChars_toDigits (by omega) (by omega)]
    simp only [Option.bind_eq_bind, Option.bind_some, this]
    cases neg
    · simp only [Bool.false_eq_true, if_false] at h
      simp [h]
    · simp only [if_true] at h
      simp [h]
  · rintro (h | ⟨h, h'⟩)
    · exact showNat_ne_nil n h
    · rw [showNat_zero_first h'] at h
      simp at h

/-! ### Documents -/

/-- How the text of a value begins. -/
theorem text_begins (p : Bool) (n : Nat) (j : Json) (hj : j.plain = true) :
    ∃ c t, text p n j = c :: t ∧ isWs c = false ∧ c ≠ ']' := by
  have digits (m : Nat) : ∃ c t, showNat m = c :: t ∧ isWs c = false ∧ c ≠ ']' := by
    cases hs : showNat m with
    | nil => exact absurd hs (showNat_ne_nil m)
    | cons c t =>
      have hc : c.isDigit = true := showNat_digits (n := m) (by simp [hs])
      refine ⟨c, t, rfl, ?_, ?_⟩
      · have h1 : c ≠ ' ' := by rintro rfl; exact absurd hc (by decide)
        have h2 : c ≠ '\n' := by rintro rfl; exact absurd hc (by decide)
        have h3 : c ≠ '\t' := by rintro rfl; exact absurd hc (by decide)
        have h4 : c ≠ '\r' := by rintro rfl; exact absurd hc (by decide)
        simp [isWs, h1, h2, h3, h4]
      · rintro rfl
        exact absurd hc (by decide)
  cases j with
  | null => exact ⟨'n', _, rfl, by decide, by decide⟩
  | bool b =>
    cases b
    · exact ⟨'f', _, rfl, by decide, by decide⟩
    · exact ⟨'t', _, rfl, by decide, by decide⟩
  | num i =>
    cases i with
    | ofNat m => exact digits m
    | negSucc m => exact ⟨'-', _, rfl, by decide, by decide⟩
  | float x => simp [Json.plain] at hj
  | str s => exact ⟨'"', _, by rw [text, quote], by decide, by decide⟩
  | arr xs =>
    cases xs with
    | nil => exact ⟨'[', _, by rw [text], by decide, by decide⟩
    | cons x xs => exact ⟨'[', _, by rw [text], by decide, by decide⟩
  | obj ms =>
    cases ms with
    | nil => exact ⟨'{', _, by rw [text], by decide, by decide⟩
    | cons m ms =>
      obtain ⟨k, x⟩ := m
      exact ⟨'{', _, by rw [text], by decide, by decide⟩

theorem skipWs_text {p : Bool} {n : Nat} {j : Json} (hj : j.plain = true) (r : Str) :
    skipWs (text p n j ++ r) = text p n j ++ r := by
  obtain ⟨c, t, h, hc, -⟩ := text_begins p n j hj
  rw [h]
  exact skipWs_cons hc

omit [FloatText] in
theorem ends_close {c : Char} {r : Str}
    (h : c.isDigit = false ∧ c ≠ '.' ∧ c ≠ 'e' ∧ c ≠ 'E') : Ends (c :: r) := by
  intro d hd
  cases hd
  exact h

theorem value_num (fuel d : Nat) {i : Int} (hj : (Json.num i).plain = true) {r : Str} (hr : Ends r) :
    value (fuel + 1) d (showInt i ++ r) = some (.num i, r) := by
  simp only [Json.plain, decide_eq_true_eq] at hj
  cases i with
  | negSucc m =>
    have := number_showNat (m + 1) hr true (by simp only [if_true]; omega)
    rw [showInt, List.cons_append, value.eq_def]
    simp only [if_false, if_true, Char.reduceEq]
    rw [this]
    rfl
  | ofNat m =>
    have := number_showNat m hr false (by
      simp only [Bool.false_eq_true, if_false]
      have := hj.2
      simp only [Int.ofNat_eq_natCast] at this
      omega)
    rw [showInt]
    cases hs : showNat m with
    | nil => exact absurd hs (showNat_ne_nil m)
    | cons c t =>
      have hc : c.isDigit = true := showNat_digits (n := m) (by simp [hs])
      have ne (e : Char) (he : e.isDigit = false) : c ≠ e := by
        rintro rfl
        rw [hc] at he
        cases he
      rw [hs] at this
      rw [List.cons_append, value.eq_def]
      simp only []
      rw [if_neg (ne _ (by decide)), if_neg (ne _ (by decide)),
        if_neg (ne _ (by decide)), if_neg (ne _ (by decide)), if_neg (ne _ (by decide)), if_pos hc]
      exact this

theorem member_text (p : Bool) (n d fuel : Nat) (r k : Str) (x : Json) (hx : x.plain = true)
    (h : value fuel d (text p n x ++ r) = some (x, r)) :
    member (fuel + 1) d ('"' :: (k.flatMap escape ++ ('"' :: (colon p ++ (text p n x ++ r))))) =
      some ((k, x), r) := by
  rw [member]
  simp only [string_quote, Option.bind_eq_bind, Option.bind_some, skipWs_colon]
  have h' (s : Str) : (colon p ++ s) = ':' :: (colon p ++ s).tail := by cases p <;> rfl
  have h'' : skipWs (colon p ++ (text p n x ++ r)).tail = text p n x ++ r := by
    cases p
    · exact skipWs_text hx _
    · exact skipWs_text hx _
  rw [h']
  simp only [h'', h, Option.bind_some]

mutual
/-- The text of a plain document is read as the document, whatever comes behind it. -/
theorem value_text (p : Bool) (n d fuel : Nat) (r : Str) (hr : Ends r) : ∀ j : Json,
    j.plain = true → j.depth ≤ d → (text p n j).length ≤ fuel →
      value fuel d (text p n j ++ r) = some (j, r)
  | .null, _, _, hf => by
    obtain ⟨fuel, rfl⟩ : ∃ k, fuel = k + 1 := ⟨fuel - 1, by simp [text] at hf; omega⟩
    simp [text, value.eq_def, expect]
  | .bool b, _, _, hf => by
    obtain ⟨fuel, rfl⟩ : ∃ k, fuel = k + 1 := ⟨fuel - 1, by cases b <;> simp [text] at hf <;> omega⟩
    cases b <;> simp [text, value.eq_def, expect]
  | .num i, hj, _, hf => by
    obtain ⟨c, t, h, -⟩ := text_begins p n (.num i) hj
    obtain ⟨fuel, rfl⟩ : ∃ k, fuel = k + 1 := ⟨fuel - 1, by rw [h] at hf; simp at hf; omega⟩
    exact value_num fuel d hj hr
  | .float _, hj, _, _ => by simp [Json.plain] at hj
  | .str s, _, _, hf => by
    obtain ⟨fuel, rfl⟩ : ∃ k, fuel = k + 1 := ⟨fuel - 1, by simp [text, quote] at hf; omega⟩
    have := string_quote s r
    simp [text, quote, value.eq_def, this]
  | .arr [], _, hd, hf => by
    obtain ⟨fuel, rfl⟩ : ∃ k, fuel = k + 1 := ⟨fuel - 1, by simp [text] at hf; omega⟩
    obtain ⟨d, rfl⟩ : ∃ k, d = k + 1 := ⟨d - 1, by simp [Json.depth] at hd; omega⟩
    simp [text, value.eq_def, skipWs_cons (show isWs ']' = false from rfl)]
  | .arr (x :: xs), hj, hd, hf => by
    simp only [Json.plain, Json.plainAll, Bool.and_eq_true] at hj
    simp only [Json.depth, Json.depthAll] at hd
    simp only [text, List.length_cons, List.length_append] at hf
    obtain ⟨fuel, rfl⟩ : ∃ k, fuel = k + 1 := ⟨fuel - 1, by omega⟩
    obtain ⟨d, rfl⟩ : ∃ k, d = k + 1 := ⟨d - 1, by omega⟩
    have hr' : Ends (newline p n ++ (']' :: r)) := ends_newline (ends_close (by decide))
    have h1 := value_text p (n + 1) d fuel _ (ends_texts (xs := xs) (p := p) (n := n + 1) hr') x hj.1
      (by omega) (by omega)
    have h2 := elements_texts p (n + 1) n d fuel r xs hj.2 (by omega) (by simp at hf; omega)
    simp only [text, List.cons_append, List.append_assoc, List.nil_append]
    rw [value.eq_def]
    simp only [if_false, if_true, Char.reduceEq, show ('[' : Char).isDigit = false from rfl,
      Bool.false_eq_true]
    rw [skipWs_newline, skipWs_text hj.1]
    obtain ⟨c, t, hc, -, hc2⟩ := text_begins p (n + 1) x hj.1
    split
    · rename_i heq
      rw [hc] at heq
      cases heq
      exact absurd rfl hc2
    · rw [h1]
      simp only [Option.bind_eq_bind, Option.bind_some, h2]
  | .obj [], _, hd, hf => by
    obtain ⟨fuel, rfl⟩ : ∃ k, fuel = k + 1 := ⟨fuel - 1, by simp [text] at hf; omega⟩
    obtain ⟨d, rfl⟩ : ∃ k, d = k + 1 := ⟨d - 1, by simp [Json.depth] at hd; omega⟩
    simp [text, value.eq_def, skipWs_cons (show isWs '}' = false from rfl),
      show ('{' : Char).isDigit = false from rfl]
  | .obj ((k, x) :: ms), hj, hd, hf => by
    simp only [Json.plain, Json.plainMembers, Bool.and_eq_true] at hj
    simp only [Json.depth, Json.depthMembers] at hd
    simp only [text, List.length_cons, List.length_append, quote] at hf
    obtain ⟨fuel, rfl⟩ : ∃ k, fuel = k + 2 := ⟨fuel - 2, by omega⟩
    obtain ⟨d, rfl⟩ : ∃ k, d = k + 1 := ⟨d - 1, by omega⟩
    have hr' : Ends (newline p n ++ ('}' :: r)) := ends_newline (ends_close (by decide))
    have h1 := value_text p (n + 1) d fuel _ (ends_members (ms := ms) (p := p) (n := n + 1) hr') x hj.1
      (by omega) (by omega)
    have h2 := entries_members p (n + 1) n d (fuel + 1) r ms hj.2 (by omega) (by simp at hf; omega)
    simp only [text, quote, List.cons_append, List.append_assoc, List.nil_append]
    rw [value.eq_def]
    simp only [if_false, if_true, Char.reduceEq, show ('{' : Char).isDigit = false from rfl,
      Bool.false_eq_true]
    rw [skipWs_newline, skipWs_cons (by decide)]
    split
    · rename_i heq
      simp at heq
    simp only [member_text p (n + 1) d fuel _ k x hj.1 h1, Option.bind_eq_bind, Option.bind_some, h2]
theorem elements_texts (p : Bool) (n m d fuel : Nat) (r : Str) : ∀ xs : List Json,
    Json.plainAll xs = true → Json.depthAll xs ≤ d → (texts p n xs).length + 1 ≤ fuel →
      elements fuel d (skipWs (texts p n xs ++ (newline p m ++ (']' :: r)))) = some (xs, r)
  | [], _, _, hf => by
    obtain ⟨fuel, rfl⟩ : ∃ k, fuel = k + 1 := ⟨fuel - 1, by omega⟩
    rw [texts, List.nil_append, skipWs_newline, skipWs_cons (by decide)]
    simp [elements]
  | x :: xs, hj, hd, hf => by
    simp only [Json.plainAll, Bool.and_eq_true] at hj
    simp only [Json.depthAll] at hd
    simp only [texts, List.length_cons, List.length_append] at hf
    obtain ⟨fuel, rfl⟩ : ∃ k, fuel = k + 1 := ⟨fuel - 1, by omega⟩
    have hr' : Ends (newline p m ++ (']' :: r)) := ends_newline (ends_close (by decide))
    have h1 := value_text p n d fuel _ (ends_texts (xs := xs) (p := p) (n := n) hr') x hj.1
      (by omega) (by omega)
    have h2 := elements_texts p n m d fuel r xs hj.2 (by omega) (by omega)
    simp only [texts, List.cons_append, List.append_assoc]
    rw [skipWs_cons (by decide), elements, skipWs_newline, skipWs_text hj.1]
    simp only [h1, Option.bind_eq_bind, Option.bind_some, h2]
theorem entries_members (p : Bool) (n m d fuel : Nat) (r : Str) : ∀ ms : List (Str × Json),
    Json.plainMembers ms = true → Json.depthMembers ms ≤ d → (members p n ms).length + 1 ≤ fuel →
      entries fuel d (skipWs (members p n ms ++ (newline p m ++ ('}' :: r)))) = some (ms, r)
  | [], _, _, hf => by
    obtain ⟨fuel, rfl⟩ : ∃ k, fuel = k + 1 := ⟨fuel - 1, by omega⟩
    rw [members, List.nil_append, skipWs_newline, skipWs_cons (by decide)]
    simp [entries]
  | (k, x) :: ms, hj, hd, hf => by
    simp only [Json.plainMembers, Bool.and_eq_true] at hj
    simp only [Json.depthMembers] at hd
    simp only [members, List.length_cons, List.length_append, quote] at hf
    obtain ⟨fuel, rfl⟩ : ∃ k, fuel = k + 2 := ⟨fuel - 2, by omega⟩
    have hr' : Ends (newline p m ++ ('}' :: r)) := ends_newline (ends_close (by decide))
    have h1 := value_text p n d fuel _ (ends_members (ms := ms) (p := p) (n := n) hr') x hj.1
      (by omega) (by omega)
    have h2 := entries_members p n m d (fuel + 1) r ms hj.2 (by omega) (by omega)
    simp only [members, quote, List.cons_append, List.append_assoc]
    rw [skipWs_cons (by decide), entries, skipWs_newline, skipWs_cons (by decide)]
    simp only [List.nil_append, member_text p n d fuel _ k x hj.1 h1, Option.bind_eq_bind, Option.bind_some, h2]
end

/-- What is written is read back. -/
theorem parse_render (p : Bool) (j : Json) (hj : j.plain = true) (hd : j.depth ≤ 127) :
    parse (render p j) = some j := by
  have h := value_text p 0 127 (2 * (render p j).length + 1) [] ends_nil j hj hd
    (by rw [render]; omega)
  have hs := skipWs_text (p := p) (n := 0) hj []
  rw [List.append_nil] at h hs
  rw [parse]
  show (match value _ 127 (skipWs (text p 0 j)) with
    | some (j, r) => if skipWs r = [] then some j else none
    | none => none) = some j
  rw [hs, h]
  rfl

/-- The contract is met. -/
@[instance_reducible] def jsonText : JsonText where
  render j := utf8 (render true j)
  parse b := (fromUtf8 b).bind parse
  parse_render j hj hd := by rw [fromUtf8_utf8]; exact parse_render true j hj hd

end Htrpc.JsonCodec
