/-
Reading HTTP messages that were written.
-/
import Verif.Spec.Http
import Verif.Lemmas.Utf8
import Verif.Lemmas.Text
import Verif.Lemmas.Header

namespace Htrpc.Http
open Spec

theorem readLines_append {cur bs : Bytes} {ls : List Bytes} {rest : Bytes} (more : Bytes)
    (h : readLines cur bs = some (ls, rest)) :
    readLines cur (bs ++ more) = some (ls, rest ++ more) := by
  fun_induction readLines cur bs generalizing ls rest with
  | case1 => cases h
  | case2 => cases h
  | case3 a b r hab =>
    obtain ⟨rfl, rfl⟩ := hab
    cases h
    simp [readLines]
  | case4 cur a b r hab hc ih =>
    obtain ⟨rfl, rfl⟩ := hab
    obtain ⟨x, hx, hy⟩ := Option.map_eq_some_iff.1 h
    cases hy
    have := ih hx
    simp [readLines, hc, this]
  | case5 cur a b r hab ih =>
    simp only [List.cons_append, readLines, if_neg hab]
    exact ih h

/-- A line without carriage return. -/
theorem readLines_line (cur l r : Bytes) (h : ∀ b ∈ l, b ≠ 13) :
    readLines cur (l ++ crlf ++ r) =
      if cur ++ l = [] then some ([], r)
      else (readLines [] r).map fun x => ((cur ++ l) :: x.1, x.2) := by
  induction l generalizing cur with
  | nil => simp [crlf, readLines]
  | cons a l ih =>
    have ha : a ≠ 13 := h a List.mem_cons_self
    have hne : ∃ b t, l ++ crlf ++ r = b :: t := by
      cases l with
      | nil => exact ⟨13, 10 :: r, rfl⟩
      | cons b t => exact ⟨b, t ++ crlf ++ r, rfl⟩
    obtain ⟨b, t, ht⟩ := hne
    have ih := ih (cur ++ [a]) fun b hb => h b (List.mem_cons_of_mem _ hb)
    rw [List.cons_append, List.cons_append, ht, readLines, if_neg (fun hx => ha hx.1), ← ht, ih]
    simp

/-- A statement about all bytes can be decided. -/
theorem all_bytes {P : UInt8 → Prop} (h : ∀ n : Fin 256, P (UInt8.ofNat n)) (b : UInt8) : P b := by
  have := h ⟨b.toNat, b.toNat_lt⟩
  rwa [UInt8.ofNat_toNat] at this

theorem nameByte_iff (b : UInt8) : NameByte b ↔ isToken b = true :=
  all_bytes (P := fun b => NameByte b ↔ isToken b = true) (by decide +kernel) b

theorem valueByte_iff (b : UInt8) : ValueByte b ↔ isField b = true :=
  all_bytes (P := fun b => ValueByte b ↔ isField b = true) (by decide +kernel) b

theorem isToken_facts {b : UInt8} (h : NameByte b) :
    b ≠ 58 ∧ b ≠ 13 ∧ b ≠ 32 ∧ 0x21 ≤ b.toNat ∧ b.toNat < 0x7F := by
  rw [nameByte_iff] at h
  have hg : isGraphic b = true := by
    simp only [isToken, Bool.and_eq_true] at h
    exact h.1
  simp only [isGraphic, Bool.and_eq_true, decide_eq_true_eq] at hg
  refine ⟨?_, ?_, ?_, hg⟩
  · rintro rfl; exact absurd h (by decide)
  · rintro rfl; exact absurd hg (by decide)
  · rintro rfl; exact absurd hg (by decide)

theorem dropWhile_blank {v : Bytes} (h : ∀ b, v.head? = some b → b ≠ 32 ∧ b ≠ 9) :
    v.dropWhile isBlank = v := by
  cases v with
  | nil => rfl
  | cons b v =>
    have := h b rfl
    rw [List.dropWhile_cons_of_neg]
    simp [isBlank, this]

theorem trim_safe {v : Bytes} (h : SafeValue v) : trim v = v := by
  have h1 : v.dropWhile isBlank = v := dropWhile_blank fun b hb => h.2 b (.inl hb)
  have h2 : v.reverse.dropWhile isBlank = v.reverse := by
    refine dropWhile_blank fun b hb => h.2 b (.inr ?_)
    rwa [List.head?_reverse] at hb
  rw [trim, h1, h2, List.reverse_reverse]

/-- The blank behind the colon. -/
theorem trim_blank (v : Bytes) : trim (32 :: v) = trim v := by
  simp [trim, isBlank]

theorem readHeader_write {h : Header} (hs : SafeName h.1 ∧ SafeValue h.2) :
    readHeader (h.1 ++ [58, 32] ++ h.2) = some h := by
  obtain ⟨n, v⟩ := h
  obtain ⟨⟨hn, ht⟩, hv⟩ := hs
  have hp : ∀ b ∈ n, (decide (b ≠ 58)) = true := fun b hb => by
    simpa using (isToken_facts (ht b hb)).1
  have h1 : (n ++ [58, 32] ++ v).dropWhile (fun b => decide (b ≠ 58)) = 58 :: 32 :: v := by
    rw [List.append_assoc, List.dropWhile_append_of_pos hp]
    simp
  have h2 : (n ++ [58, 32] ++ v).takeWhile (fun b => decide (b ≠ 58)) = n := by
    rw [List.append_assoc, List.takeWhile_append_of_pos hp]
    simp
  rw [readHeader]
  simp only [h1, h2, trim_blank, trim_safe hv]
  rw [if_pos ⟨hn, List.all_eq_true.2 fun b hb => (nameByte_iff b).1 (ht b hb),
    List.all_eq_true.2 fun b hb => (valueByte_iff b).1 (hv.1 b hb)⟩]

theorem readHeader_no_cr {h : Header} (hs : SafeName h.1 ∧ SafeValue h.2) :
    ∀ b ∈ h.1 ++ [58, 32] ++ h.2, b ≠ 13 := by
  intro b hb
  simp only [List.mem_append, List.mem_cons, List.not_mem_nil, or_false] at hb
  rcases hb with (hb | rfl | rfl) | hb
  · exact (isToken_facts (hs.1.2 b hb)).2.1
  · decide
  · decide
  · rintro rfl
    exact absurd (hs.2.1 13 hb) (by decide)

/-- The lines of a head. -/
theorem readLines_headers (hs : List Header) (h : SafeHeaders hs) (more : Bytes) :
    readLines [] (writeHeaders hs ++ more) = some (hs.map fun h => h.1 ++ [58, 32] ++ h.2, more) := by
  induction hs with
  | nil => simp [writeHeaders, crlf, readLines]
  | cons x hs ih =>
    have hx := h x List.mem_cons_self
    have ih := ih fun y hy => h y (List.mem_cons_of_mem _ hy)
    have e : writeHeaders (x :: hs) ++ more =
        (x.1 ++ [58, 32] ++ x.2) ++ crlf ++ (writeHeaders hs ++ more) := by
      simp [writeHeaders, writeHeader]
    rw [e, readLines_line _ _ _ (readHeader_no_cr hx), if_neg (by simp), ih]
    simp

theorem readHeaders_write (hs : List Header) (h : SafeHeaders hs) :
    readHeaders (hs.map fun h => h.1 ++ [58, 32] ++ h.2) = some hs := by
  induction hs with
  | nil => rfl
  | cons x hs ih =>
    simp only [List.map_cons, readHeaders, readHeader_write (h x List.mem_cons_self),
      ih fun y hy => h y (List.mem_cons_of_mem _ hy)]
    rfl

/-- The characters of a target. -/
theorem target_chars {t : Str} (h : SafeTarget t) :
    t ≠ [] ∧ ∀ c ∈ t, 0x21 ≤ c.toNat ∧ c.toNat < 0x7F := by
  cases h with
  | path hp =>
    refine ⟨by simp, fun c hc => ?_⟩
    rcases List.mem_cons.1 hc with rfl | hc
    · decide
    · exact ⟨(hp c hc).1, (hp c hc).2.1⟩
  | query hp hq =>
    refine ⟨by simp, fun c hc => ?_⟩
    rcases List.mem_append.1 hc with hc | hc
    · rcases List.mem_cons.1 hc with rfl | hc
      · decide
      · exact ⟨(hp c hc).1, (hp c hc).2.1⟩
    · rcases List.mem_cons.1 hc with rfl | hc
      · decide
      · exact ⟨(hq c hc).1, (hq c hc).2.1⟩

theorem utf8_graphic {t : Str} (h : ∀ c ∈ t, 0x21 ≤ c.toNat ∧ c.toNat < 0x7F) :
    (∀ b ∈ utf8 t, isGraphic b = true) ∧ (utf8 t).map (fun b => Char.ofNat b.toNat) = t := by
  have he := utf8_ascii fun c hc => Nat.lt_trans (h c hc).2 (by decide : 0x7F < 0x80)
  rw [he]
  constructor
  · intro b hb
    obtain ⟨c, hc, rfl⟩ := List.mem_map.1 hb
    have := h c hc
    simp only [isGraphic, Bool.and_eq_true, decide_eq_true_eq]
    rw [u8_toNat (by omega)]
    exact this
  · rw [List.map_map]
    conv => rhs; rw [← List.map_id t]
    refine List.map_congr_left fun c hc => ?_
    have := h c hc
    simp only [Function.comp]
    rw [u8_toNat (by omega)]
    exact toNat_inj (charOfNat_toNat (valid_of_lt (by omega)))

theorem isGraphic_facts {b : UInt8} (h : isGraphic b = true) : b ≠ 32 ∧ b ≠ 13 := by
  constructor <;> (rintro rfl; exact absurd h (by decide))

/-- A part of a line, up to a blank. -/
theorem word {a r : Bytes} (h : ∀ b ∈ a, b ≠ 32) :
    (a ++ 32 :: r).takeWhile (fun b => decide (b ≠ 32)) = a ∧
      (a ++ 32 :: r).dropWhile (fun b => decide (b ≠ 32)) = 32 :: r := by
  have hp : ∀ b ∈ a, (decide (b ≠ 32)) = true := fun b hb => by simpa using h b hb
  constructor
  · rw [List.takeWhile_append_of_pos hp]; simp
  · rw [List.dropWhile_append_of_pos hp]; simp

section
variable [MethodNames]

theorem readRequestLine_write (m : Method) {t : Str} (h : SafeTarget t) :
    readRequestLine (MethodNames.name m ++ 32 :: utf8 t ++ 32 :: version) = some (m, t) := by
  obtain ⟨hne, hc⟩ := target_chars h
  obtain ⟨hg, hm⟩ := utf8_graphic hc
  have hu : utf8 t ≠ [] := by
    intro h0
    rw [h0] at hm
    exact hne hm.symm
  have h1 := word (a := MethodNames.name m) (r := utf8 t ++ 32 :: version) fun b hb =>
    (isGraphic_facts (MethodNames.graphic m b hb)).1
  have h2 := word (a := utf8 t) (r := version) fun b hb => (isGraphic_facts (hg b hb)).1
  rw [List.append_assoc, List.cons_append, readRequestLine]
  simp only [h1, h2]
  rw [if_pos ⟨trivial, hu, List.all_eq_true.2 hg⟩, MethodNames.ofName_name, hm]
  rfl

theorem readHead_write (m : Method) {t : Str} (ht : SafeTarget t) {hs : List Header}
    (h : SafeHeaders hs) (more : Bytes) :
    readHead (writeHead m t hs ++ more) = .done ⟨m, t, hs⟩ more := by
  obtain ⟨hg, -⟩ := utf8_graphic (target_chars ht).2
  have hl : readLines [] (writeHead m t hs ++ more) =
      some ((MethodNames.name m ++ 32 :: utf8 t ++ 32 :: version) ::
        hs.map (fun h => h.1 ++ [58, 32] ++ h.2), more) := by
    rw [writeHead, List.append_assoc, readLines_line, if_neg (by simp), readLines_headers hs h]
    · simp
    · intro b hb
      simp only [List.mem_append, List.mem_cons] at hb
      rcases hb with (hb | rfl | hb) | rfl | hb
      · exact (isGraphic_facts (MethodNames.graphic m b hb)).2
      · decide
      · exact (isGraphic_facts (hg b hb)).2
      · decide
      · rintro rfl
        exact absurd hb (by decide)
  rw [readHead, hl]
  simp only [readRequestLine_write m ht, readHeaders_write hs h]

end

/-! ### Bodies -/

theorem framed_headers {hs : List Header} {body : Bytes} (hf : Framed hs body)
    (ha : AsciiNames hs) : header? "transfer-encoding" hs = none ∧
      header? "content-length" hs = some (contentLength body).2 := by
  obtain ⟨h1, h2, h3⟩ := hf
  have hname : ∀ h ∈ hs, ∀ n : String, (∀ c ∈ n.toList, c.toNat < 0x80) →
      (lowerName h.1 = utf8 n.toList ↔ nameText h.1 = n.toList) := by
    intro h hh n hn
    rw [lowerName_utf8 (ha h hh)]
    exact ⟨fun e => utf8_injective e, fun e => by rw [e]⟩
  have hte : header? "transfer-encoding" hs = none := by
    rw [header?, Option.map_eq_none_iff, List.find?_eq_none]
    intro h hh
    simp only [decide_eq_true_eq]
    rw [hname h hh _ (by decide)]
    exact h3 h hh
  have hcl : header? "content-length" hs = some (contentLength body).2 := by
    have hx : (hs.find? fun h => lowerName h.1 = utf8 "content-length".toList) =
        some (contentLength body) := by
      cases hfd : hs.find? fun h => lowerName h.1 = utf8 "content-length".toList with
      | none =>
        rw [List.find?_eq_none] at hfd
        exact absurd (show decide (lowerName contentLengthName = utf8 "content-length".toList) = true
          by decide) (hfd _ h1)
      | some x =>
        have hm := List.mem_of_find?_eq_some hfd
        have hp := List.find?_some hfd
        simp only [decide_eq_true_eq] at hp
        rw [hname x hm _ (by decide)] at hp
        rw [h2 x hm hp]
    rw [header?, hx]
    rfl
  exact ⟨hte, hcl⟩

theorem readBody_framed {hs : List Header} {body : Bytes} (hf : Framed hs body)
    (ha : AsciiNames hs) :
    ∃ f, readBody hs = some f ∧ ∀ more, f (body ++ more) = .done body more := by
  obtain ⟨hte, hcl⟩ := framed_headers hf ha
  refine ⟨_, by simp only [readBody, hte, hcl, contentLength, fromUtf8_utf8, Option.bind_some,
    parseDigits_showNat]; rfl, fun more => ?_⟩
  simp

theorem fixedLength_framed {hs : List Header} {body : Bytes} (hf : Framed hs body)
    (ha : AsciiNames hs) : fixedLength hs = some body.length := by
  obtain ⟨hte, hcl⟩ := framed_headers hf ha
  simp only [fixedLength, hte, hcl, contentLength, fromUtf8_utf8, Option.bind_some,
    parseDigits_showNat]
  rfl

/-! ### Responses -/

theorem showNat_graphic {c : Nat} : ∀ b ∈ utf8 (showNat c), isGraphic b = true := by
  refine (utf8_graphic fun x hx => ?_).1
  have := showNat_digits hx
  simp only [Char.isDigit, Bool.and_eq_true, decide_eq_true_eq] at this
  have h1 : (48 : Nat) ≤ x.val.toNat := this.1
  have h2 : x.val.toNat ≤ 57 := this.2
  show 0x21 ≤ x.val.toNat ∧ x.val.toNat < 0x7F
  omega

theorem status_digits (s : Status) : (utf8 (showNat s.code)).length = 3 := by
  cases s <;> decide +kernel

theorem readStatusLine_write {c : Nat} (hc : (utf8 (showNat c)).length = 3) {phrase : Bytes}
    (hp : ∀ b ∈ phrase, ValueByte b) :
    readStatusLine (version ++ 32 :: utf8 (showNat c) ++ 32 :: phrase) = some c := by
  have h1 := word (a := version) (r := utf8 (showNat c) ++ 32 :: phrase) (by decide)
  have h2 := word (a := utf8 (showNat c)) (r := phrase) fun b hb =>
    (isGraphic_facts (showNat_graphic b hb)).1
  rw [List.append_assoc, List.cons_append, readStatusLine]
  simp only [h1, h2]
  have hall : (utf8 (showNat c) ++ 32 :: phrase).all isField = true := by
    rw [List.all_eq_true]
    intro b hb
    simp only [List.mem_append, List.mem_cons] at hb
    rcases hb with hb | rfl | hb
    · have := showNat_graphic b hb
      simp only [isGraphic, Bool.and_eq_true, decide_eq_true_eq] at this
      simp only [isField, Bool.or_eq_true, Bool.and_eq_true, decide_eq_true_eq]
      exact .inr (by omega)
    · decide
    · exact (valueByte_iff b).1 (hp b hb)
  rw [if_pos ⟨trivial, hc, hall⟩, fromUtf8_utf8, Option.bind_some, parseDigits_showNat]

theorem readResponseHead_write {phrase : Bytes} (hp : ∀ b ∈ phrase, ValueByte b) {r : Response}
    (h : SafeHeaders r.headers) (more : Bytes) :
    readResponseHead (writeResponse phrase r ++ more) =
      .done (r.status.code, r.headers) (r.body ++ more) := by
  have e : writeResponse phrase r ++ more =
      (version ++ 32 :: utf8 (showNat r.status.code) ++ 32 :: phrase) ++ crlf ++
        (writeHeaders r.headers ++ (r.body ++ more)) := by
    simp [writeResponse]
  have hl : readLines [] (writeResponse phrase r ++ more) =
      some ((version ++ 32 :: utf8 (showNat r.status.code) ++ 32 :: phrase) ::
        r.headers.map (fun h => h.1 ++ [58, 32] ++ h.2), r.body ++ more) := by
    rw [e, readLines_line, if_neg (by simp), readLines_headers _ h]
    · simp
    · intro b hb
      simp only [List.mem_append, List.mem_cons] at hb
      rcases hb with (hb | rfl | hb) | rfl | hb
      · rintro rfl
        exact absurd hb (by decide)
      · decide
      · exact (isGraphic_facts (showNat_graphic b hb)).2
      · decide
      · rintro rfl
        exact absurd (hp _ hb) (by decide)
  rw [readResponseHead, hl]
  simp only [readStatusLine_write (status_digits _) hp, readHeaders_write _ h]

/-! ### The contract -/

theorem readHead_append [MethodNames] (bs : Bytes) (h : ReqHead) (rest more : Bytes)
    (hd : readHead bs = .done h rest) : readHead (bs ++ more) = .done h (rest ++ more) := by
  unfold readHead at hd
  split at hd
  · cases hd
  · cases hd
  · rename_i l ls r hr
    rw [readHead, readLines_append more hr]
    split at hd
    · rename_i m t hs h1 h2
      cases hd
      simp only [h1, h2]
    · cases hd

theorem readHead_bad [MethodNames] (bs more : Bytes) (hd : readHead bs = .bad) :
    readHead (bs ++ more) = .bad := by
  unfold readHead at hd
  split at hd
  · cases hd
  · rename_i r hr
    rw [readHead, readLines_append more hr]
  · rename_i l ls r hr
    rw [readHead, readLines_append more hr]
    split at hd
    · cases hd
    · rename_i h1
      dsimp only
      split
      · rename_i m t hs h2 h3
        exact absurd h3 (h1 m t hs h2)
      · rfl

/-- HTTP is a lawful transport. -/
@[instance_reducible] def httpWire [MethodNames] : Wire where
  head := readHead
  body := readBody
  head_nil := rfl
  head_append := readHead_append
  body_append := by
    intro hs f bs b rest more hf hb
    unfold readBody at hf
    split at hf
    · cases hf
    · split at hf
      · cases hf
        cases hb
        rfl
      · obtain ⟨n, -, rfl⟩ := Option.map_eq_some_iff.1 hf
        simp only at hb ⊢
        split at hb
        · rename_i hk
          simp only [Parsed.done.injEq] at hb
          rw [if_pos (by simp; omega), List.take_append_of_le_length hk,
            List.drop_append_of_le_length hk, hb.1, hb.2]
        · cases hb
  head_bad := readHead_bad
  body_bad := by
    intro hs f bs more hf hb
    unfold readBody at hf
    split at hf
    · cases hf
    · split at hf
      · cases hf; cases hb
      · obtain ⟨n, -, rfl⟩ := Option.map_eq_some_iff.1 hf
        simp only at hb
        split at hb <;> cases hb
  body_rest := by
    intro hs f bs b rest hf hb
    unfold readBody at hf
    split at hf
    · cases hf
    · split at hf
      · cases hf
        cases hb
        exact List.suffix_refl _
      · obtain ⟨n, -, rfl⟩ := Option.map_eq_some_iff.1 hf
        simp only at hb
        split at hb
        · simp only [Parsed.done.injEq] at hb
          rw [← hb.2]
          exact List.drop_suffix _ _
        · cases hb

/-! ### Headers that were read -/

theorem trim_ends (v : Bytes) (b : UInt8) (h : (trim v).head? = some b ∨ (trim v).getLast? = some b) :
    b ≠ 32 ∧ b ≠ 9 := by
  have key : ∀ (w : Bytes) (b : UInt8), (w.dropWhile isBlank).head? = some b → b ≠ 32 ∧ b ≠ 9 := by
    intro w b hb
    have := List.head?_dropWhile_not isBlank w
    rw [hb] at this
    simp only [isBlank, Bool.or_eq_false_iff, beq_eq_false_iff_ne] at this
    exact this
  rcases h with h | h
  · rw [trim, List.head?_reverse] at h
    -- the first byte of what remains is the first byte of the list without leading blanks
    generalize hw : v.dropWhile isBlank = w at h
    cases w with
    | nil => simp at h
    | cons a w =>
      have ha := key v a (by rw [hw]; rfl)
      have hne : isBlank a = false := by simp [isBlank, ha]
      have : ((a :: w).reverse.dropWhile isBlank).getLast? = some a := by
        rw [List.reverse_cons, List.dropWhile_append]
        split
        · simp [List.dropWhile, hne]
        · simp
      rw [this] at h
      cases h
      exact ha
  · rw [trim, List.getLast?_reverse] at h
    exact key _ b h

theorem readHeader_safe {line : Bytes} {h : Header} (hr : readHeader line = some h) :
    SafeName h.1 ∧ SafeValue h.2 := by
  rw [readHeader] at hr
  split at hr
  · cases hr
  · dsimp only at hr
    split at hr
    · rename_i hc
      cases hr
      exact ⟨⟨hc.1, fun b hb => (nameByte_iff b).2 (List.all_eq_true.1 hc.2.1 b hb)⟩,
        fun b hb => (valueByte_iff b).2 (List.all_eq_true.1 hc.2.2 b hb), trim_ends _⟩
    · cases hr

theorem readHeaders_safe {ls : List Bytes} {hs : List Header} (hr : readHeaders ls = some hs) :
    SafeHeaders hs := by
  induction ls generalizing hs with
  | nil => cases hr; intro x hx; cases hx
  | cons l ls ih =>
    rw [readHeaders] at hr
    cases h1 : readHeader l with
    | none => rw [h1] at hr; cases hr
    | some h =>
      cases h2 : readHeaders ls with
      | none => rw [h1, h2] at hr; cases hr
      | some hs' =>
        rw [h1, h2] at hr
        cases hr
        intro x hx
        rcases List.mem_cons.1 hx with rfl | hx
        · exact readHeader_safe h1
        · exact ih h2 x hx

theorem readHead_safe [MethodNames] {bs rest : Bytes} {h : ReqHead} (hr : readHead bs = .done h rest) :
    SafeHeaders h.headers := by
  rw [readHead] at hr
  split at hr
  · cases hr
  · cases hr
  · split at hr
    · rename_i h2
      cases hr
      exact readHeaders_safe h2
    · cases hr

theorem readResponseHead_safe {bs rest : Bytes} {c : Nat} {hs : List Header}
    (hr : readResponseHead bs = .done (c, hs) rest) : SafeHeaders hs := by
  rw [readResponseHead] at hr
  split at hr
  · cases hr
  · cases hr
  · split at hr
    · rename_i h2
      cases hr
      exact readHeaders_safe h2
    · cases hr

end Htrpc.Http
