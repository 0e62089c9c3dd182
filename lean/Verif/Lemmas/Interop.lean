import Verif.Spec.Interop
import Verif.Lemmas.Http
import Verif.Lemmas.Lossy
import Verif.Props.Decode

namespace Htrpc
open Spec Http

/-! ### Texts -/

theorem utf8_fromUtf8Aux {k : Nat} {bs : Bytes} {s : Str} (h : fromUtf8Aux k bs = some s) :
    utf8 s = bs := by
  induction k generalizing bs s with
  | zero =>
    cases bs with
    | nil => cases h; rfl
    | cons b bs => cases h
  | succ k ih =>
    cases bs with
    | nil => cases h; rfl
    | cons b bs =>
      rw [fromUtf8Aux] at h
      split at h
      · rename_i c rest hn
        obtain ⟨t, ht, rfl⟩ := Option.map_eq_some_iff.1 h
        rw [utf8_cons, ih ht, utf8Next_some hn]
      · cases h

/-- Only UTF-8 is read as text. -/
theorem fromUtf8_iff {bs : Bytes} {s : Str} : fromUtf8 bs = some s ↔ bs = utf8 s :=
  ⟨fun h => (utf8_fromUtf8Aux h).symm, fun h => by rw [h, fromUtf8_utf8]⟩

/-! ### Lines -/

/-- What was taken apart into lines. -/
theorem readLines_whole {cur bs : Bytes} {ls : List Bytes} {rest : Bytes}
    (h : readLines cur bs = some (ls, rest)) :
    (cur = [] ∨ ls ≠ []) ∧ cur ++ bs = ls.flatMap (· ++ crlf) ++ crlf ++ rest := by
  fun_induction readLines cur bs generalizing ls rest with
  | case1 => cases h
  | case2 => cases h
  | case3 a b r hab =>
    obtain ⟨rfl, rfl⟩ := hab
    cases h
    simp [crlf]
  | case4 cur a b r hab hc ih =>
    obtain ⟨rfl, rfl⟩ := hab
    obtain ⟨x, hx, hy⟩ := Option.map_eq_some_iff.1 h
    cases hy
    have := (ih hx).2
    rw [List.nil_append] at this
    simp [this, crlf]
  | case5 cur a b r hab ih =>
    have := (ih h).2
    refine ⟨.inr ?_, by simpa using this⟩
    rcases (ih h).1 with h | h
    · simp at h
    · exact h

/-! ### Headers -/

theorem dropWhile_blanks {a v : Bytes} (h : Blanks a) :
    (a ++ v).dropWhile isBlank = v.dropWhile isBlank := by
  induction a with
  | nil => rfl
  | cons x a ih =>
    have hx : isBlank x = true := by
      rcases h x List.mem_cons_self with rfl | rfl <;> rfl
    rw [List.cons_append, List.dropWhile_cons, if_pos hx]
    exact ih fun b hb => h b (List.mem_cons_of_mem _ hb)

theorem blanks_reverse {a : Bytes} (h : Blanks a) : Blanks a.reverse := fun b hb =>
  h b (List.mem_reverse.1 hb)

theorem trim_padded {a v b : Bytes} (ha : Blanks a) (hv : SafeValue v) (hb : Blanks b) :
    trim (a ++ v ++ b) = v := by
  rw [trim, List.append_assoc, dropWhile_blanks ha]
  cases v with
  | nil =>
    have : b.dropWhile isBlank = [] := by
      have := dropWhile_blanks (v := []) hb
      rwa [List.append_nil] at this
    simp [this]
  | cons x v =>
    have hx := hv.2 x (.inl rfl)
    have hnb : isBlank x = false := by simp [isBlank, hx]
    rw [List.cons_append, List.dropWhile_cons, hnb]
    simp only [Bool.false_eq_true, if_false]
    rw [← List.cons_append, List.reverse_append, dropWhile_blanks (blanks_reverse hb)]
    have : trim (x :: v) = x :: v := trim_safe hv
    rw [trim, List.dropWhile_cons, hnb] at this
    simpa using this

theorem readHeader_padded {n v a b : Bytes} (hn : SafeName n) (hv : SafeValue v) (ha : Blanks a)
    (hb : Blanks b) : readHeader (n ++ [58] ++ a ++ v ++ b) = some (n, v) := by
  have e : n ++ [58] ++ a ++ v ++ b = n ++ 58 :: (a ++ v ++ b) := by simp
  have hnc : ∀ x ∈ n, (decide (x ≠ 58)) = true := by
    intro x hx
    have := isToken_facts (hn.2 x hx)
    simp only [decide_eq_true_eq]
    rintro rfl
    exact absurd (hn.2 _ hx) (by decide)
  have h1 : (n ++ 58 :: (a ++ v ++ b)).dropWhile (· ≠ 58) = 58 :: (a ++ v ++ b) := by
    rw [List.dropWhile_append_of_pos hnc]; rfl
  have h2 : (n ++ 58 :: (a ++ v ++ b)).takeWhile (· ≠ 58) = n := by
    rw [List.takeWhile_append_of_pos hnc]
    simp [List.takeWhile]
  rw [e, readHeader, h1]
  simp only [h2, trim_padded ha hv hb]
  rw [if_pos ⟨hn.1, List.all_eq_true.2 fun b hb => (nameByte_iff b).1 (hn.2 b hb),
    List.all_eq_true.2 fun b hb => (valueByte_iff b).1 (hv.1 b hb)⟩]

/-- The lines of a text of headers. -/
theorem Spec.HeaderText.lines {hs : List Header} {bs : Bytes} (h : HeaderText hs bs) :
    ∃ ls, readHeaders ls = some hs ∧
      ∀ more, readLines [] (bs ++ crlf ++ more) = some (ls, more) := by
  induction h with
  | nil => exact ⟨[], rfl, fun more => by simp [readLines, crlf]⟩
  | @cons n v a b hs bs hn hv ha hb _ ih =>
    obtain ⟨ls, h1, h2⟩ := ih
    refine ⟨(n ++ [58] ++ a ++ v ++ b) :: ls, ?_, fun more => ?_⟩
    · rw [readHeaders, readHeader_padded hn hv ha hb, h1]; rfl
    · have e : n ++ [58] ++ a ++ v ++ b ++ [13, 10] ++ bs ++ crlf ++ more =
          (n ++ [58] ++ a ++ v ++ b) ++ crlf ++ (bs ++ crlf ++ more) := by simp [crlf]
      have hbl : ∀ {a : Bytes}, Blanks a → ∀ x ∈ a, x ≠ 13 := by
        intro a ha x hx
        rcases ha x hx with rfl | rfl <;> decide
      rw [e, readLines_line, h2]
      · simp
      · intro x hx
        simp only [List.mem_append, List.mem_singleton] at hx
        rcases hx with (((hx | rfl) | hx) | hx) | hx
        · rintro rfl; exact absurd (hn.2 _ hx) (by decide)
        · decide
        · exact hbl ha x hx
        · rintro rfl; exact absurd (hv.1 _ hx) (by decide)
        · exact hbl hb x hx

theorem trim_parts (v : Bytes) : ∃ a b, Blanks a ∧ Blanks b ∧ v = a ++ trim v ++ b := by
  have key : ∀ v : Bytes, ∃ a, Blanks a ∧ v = a ++ v.dropWhile isBlank := by
    intro v
    refine ⟨v.takeWhile isBlank, fun x hx => ?_, (List.takeWhile_append_dropWhile).symm⟩
    have := (List.all_eq_true.1 (List.all_takeWhile (p := isBlank) (l := v))) x hx
    simpa [isBlank] using this
  obtain ⟨a, ha, e1⟩ := key v
  obtain ⟨b, hb, e2⟩ := key (v.dropWhile isBlank).reverse
  refine ⟨a, b.reverse, ha, blanks_reverse hb, ?_⟩
  have e3 := congrArg List.reverse e2
  rw [List.reverse_reverse, List.reverse_append] at e3
  rw [trim, List.append_assoc, ← e3]
  exact e1

theorem readHeader_text {line : Bytes} {h : Header} (hr : readHeader line = some h) :
    ∃ a b, Blanks a ∧ Blanks b ∧ line = h.1 ++ [58] ++ a ++ h.2 ++ b := by
  rw [readHeader] at hr
  split at hr
  · cases hr
  · rename_i x v hd
    dsimp only at hr
    split at hr
    · cases hr
      obtain ⟨a, b, ha, hb, e⟩ := trim_parts v
      refine ⟨a, b, ha, hb, ?_⟩
      have hx : x = 58 := by
        have := List.head?_dropWhile_not (fun b : UInt8 => decide (b ≠ 58)) line
        rw [hd] at this
        simpa using this
      have := List.takeWhile_append_dropWhile (p := fun b : UInt8 => decide (b ≠ 58)) (l := line)
      rw [hd, hx] at this
      have e' : line = line.takeWhile (fun b : UInt8 => decide (b ≠ 58)) ++ 58 :: (a ++ trim v ++ b) := by
        rw [← e, this]
      simpa using e'
    · cases hr

theorem readHeaders_text {ls : List Bytes} {hs : List Header} (hr : readHeaders ls = some hs) :
    HeaderText hs (ls.flatMap (· ++ crlf)) := by
  induction ls generalizing hs with
  | nil => cases hr; exact .nil
  | cons l ls ih =>
    rw [readHeaders] at hr
    cases h1 : readHeader l with
    | none => rw [h1] at hr; cases hr
    | some h =>
      cases h2 : readHeaders ls with
      | none => rw [h1, h2] at hr; cases hr
      | some hs' =>
        rw [h1, h2] at hr
        cases hr
        obtain ⟨a, b, ha, hb, e⟩ := readHeader_text h1
        have hsafe := readHeader_safe h1
        have := HeaderText.cons hsafe.1 hsafe.2 ha hb (ih h2)
        rw [List.flatMap_cons, e]
        exact this

/-! ### Bodies -/

theorem header?_iff {hs : List Header} (ha : AsciiNames hs) (n : String) :
    (header? n hs = none ↔ ∀ h ∈ hs, nameText h.1 ≠ n.toList) ∧
    ∀ v, header? n hs = some v ↔ ∃ a k b, hs = a ++ (k, v) :: b ∧
      (∀ h ∈ a, nameText h.1 ≠ n.toList) ∧ nameText k = n.toList := by
  have hname : ∀ h ∈ hs, (lowerName h.1 = utf8 n.toList ↔ nameText h.1 = n.toList) := by
    intro h hh
    rw [lowerName_utf8 (ha h hh)]
    exact ⟨fun e => utf8_injective e, fun e => by rw [e]⟩
  constructor
  · rw [header?, Option.map_eq_none_iff, List.find?_eq_none]
    constructor
    · intro h x hx e
      exact h x hx (by simpa using (hname x hx).2 e)
    · intro h x hx e
      exact h x hx ((hname x hx).1 (by simpa using e))
  · intro v
    rw [header?, Option.map_eq_some_iff]
    constructor
    · rintro ⟨⟨k, v⟩, h1, rfl⟩
      obtain ⟨h2, a, b, h3, h4⟩ := List.find?_eq_some_iff_append.1 h1
      refine ⟨a, k, b, h3, fun x hx e => ?_, (hname (k, v) (by simp [h3])).1 (by simpa using h2)⟩
      have := h4 x hx
      simp only [Bool.not_eq_eq_eq_not, Bool.not_true, decide_eq_false_iff_not] at this
      exact this ((hname x (by simp [h3, hx])).2 e)
    · rintro ⟨a, k, b, h3, h4, h5⟩
      refine ⟨(k, v), List.find?_eq_some_iff_append.2 ⟨?_, a, b, h3, fun x hx => ?_⟩, rfl⟩
      · simpa using (hname (k, v) (by simp [h3])).2 h5
      · simp only [Bool.not_eq_eq_eq_not, Bool.not_true, decide_eq_false_iff_not]
        exact fun e => h4 x hx ((hname x (by simp [h3, hx])).1 e)

/-- The body that is read has the announced length. -/
theorem readBody_iff {hs : List Header} (ha : AsciiNames hs) :
    (∀ n, BodyLength hs n → ∃ f, readBody hs = some f ∧
      ∀ bs, f bs = if n ≤ bs.length then .done (bs.take n) (bs.drop n) else .more) ∧
    ∀ f, readBody hs = some f → ∃ n, BodyLength hs n := by
  obtain ⟨t1, t2⟩ := header?_iff ha "transfer-encoding"
  obtain ⟨c1, c2⟩ := header?_iff ha "content-length"
  constructor
  · intro n hn
    cases hn with
    | absent h1 h2 =>
      refine ⟨_, by simp only [readBody, t1.2 h1, c1.2 h2]; rfl, fun bs => by simp⟩
    | @given a k ds b h1 h2 h3 h4 h5 =>
      have hc := (c2 (utf8 ds)).2 ⟨a, k, b, h2, h3, h4⟩
      refine ⟨_, ?_, fun bs => rfl⟩
      simp only [readBody, t1.2 h1, hc, fromUtf8_utf8, Option.bind_some,
        (parseDigits_iff ds _).2 ⟨h5, rfl⟩]
      rfl
  · intro f hf
    unfold readBody at hf
    split at hf
    · cases hf
    · rename_i ht
      have ht := t1.1 (by simpa using ht)
      split at hf
      · rename_i hc
        exact ⟨0, .absent ht (c1.1 hc)⟩
      · rename_i v hc
        obtain ⟨a, k, b, h3, h4, h5⟩ := (c2 v).1 hc
        obtain ⟨n, h6, -⟩ := Option.map_eq_some_iff.1 hf
        obtain ⟨ds, h7, h8⟩ := Option.bind_eq_some_iff.1 h6
        obtain ⟨h9, rfl⟩ := (parseDigits_iff ds n).1 h8
        have hv : v = utf8 ds := fromUtf8_iff.1 h7
        subst hv
        exact ⟨_, .given ht h3 h4 h5 h9⟩

end Htrpc
