import Verif.Lemmas.Url
import Verif.Spec.Path
import Verif.Model.PathSer

namespace Htrpc
open Spec

theorem encodeSegment_eq (s : Str) : encodeSegment s = pctEncode keepSegment (utf8 (strip s)) := rfl

theorem pctDecode_encodeSegment (s : Str) : pctDecode (encodeSegment s) = utf8 (strip s) := by
  have := pctDecode_pctEncode goodKeep_segment (utf8 (strip s)) []
  simpa [encodeSegment_eq, pctDecode] using this

theorem percentDecode_encodeSegment (s : Str) :
    percentDecode (encodeSegment s) = some (latin1 (utf8 (strip s))) :=
  percentDecode_pctEncode goodKeep_segment _

theorem encodeSegment_injective {s t : Str} (h : encodeSegment s = encodeSegment t) :
    strip s = strip t := by
  have := congrArg pctDecode h
  rw [pctDecode_encodeSegment, pctDecode_encodeSegment] at this
  exact utf8_injective this

theorem strip_of_encode {s X d : Str} (hX : pctDecode X = utf8 d) (h : encodeSegment s = X) :
    strip s = d := by
  have := pctDecode_encodeSegment s
  rw [h, hX] at this
  exact (utf8_injective this).symm

theorem encode_eq_nil {s : Str} (h : encodeSegment s = []) : strip s = [] :=
  strip_of_encode rfl h

theorem not_isDot {s : Str} (h : ¬ Dots s) : isDot (encodeSegment s) = false := by
  by_contra hc
  simp only [Bool.not_eq_false, isDot, Bool.or_eq_true, beq_iff_eq] at hc
  apply h
  left
  rcases hc with (hc | hc) | hc <;> exact strip_of_encode (by decide) hc

theorem not_isDotDot {s : Str} (h : ¬ Dots s) : isDotDot (encodeSegment s) = false := by
  by_contra hc
  simp only [Bool.not_eq_false, isDotDot, Bool.or_eq_true, beq_iff_eq] at hc
  apply h
  right
  rcases hc with (((((((hc | hc) | hc) | hc) | hc) | hc) | hc) | hc) | hc <;>
    exact strip_of_encode (by decide) hc

/-- Pushing an ordinary segment. -/
theorem pushSegment_eq {path s : Str} (h : ¬ Dots s) :
    pushSegment path s =
      (if path.length = 1 then path else path ++ ['/']) ++ encodeSegment s := by
  have h1 : ¬ (s = ".".toList ∨ s = "..".toList) := by
    rintro (rfl | rfl)
    · exact h (.inl rfl)
    · exact h (.inr rfl)
  have h2 := not_isDot h
  have h3 := not_isDotDot h
  have h4 : encodeSegment s ≠ "..".toList := by
    intro e; rw [e] at h3; exact absurd h3 (by decide)
  have h5 : encodeSegment s ≠ ".".toList := by
    intro e; rw [e] at h2; exact absurd h2 (by decide)
  rw [pushSegment, if_neg h1]
  simp only [if_neg h4, if_neg h5]

theorem push_all {path : Str} {L : List Str} (hp : 1 < path.length) (h : ∀ s ∈ L, ¬ Dots s) :
    L.foldl pushSegment path = path ++ L.flatMap fun s => '/' :: encodeSegment s := by
  induction L generalizing path with
  | nil => simp
  | cons s L ih =>
    rw [List.foldl_cons, pushSegment_eq (h s (List.mem_cons_self ..)), if_neg (by omega), ih]
    · simp
    · simp; omega
    · exact fun t ht => h t (List.mem_cons_of_mem _ ht)

/-- The path text of a list of segments that a URL can carry. -/
theorem push_carried {L : List Str} (h : Carried L) :
    ∃ s L', L = s :: L' ∧ (L' = [] ∨ encodeSegment s ≠ []) ∧
      L.foldl pushSegment ['/'] =
        '/' :: (encodeSegment s ++ L'.flatMap fun s => '/' :: encodeSegment s) := by
  obtain ⟨h1, h2, h3⟩ := h
  cases L with
  | nil => exact absurd rfl h1
  | cons s L' =>
    have hs := h2 s (List.mem_cons_self ..)
    refine ⟨s, L', rfl, ?_, ?_⟩
    · rcases h3 with h3 | ⟨t, ht, h3⟩
      · left; simpa using h3
      · right
        simp at ht
        subst ht
        exact fun e => h3 (encode_eq_nil e)
    · rw [List.foldl_cons, pushSegment_eq hs]
      rcases h3 with h3 | ⟨t, ht, h3⟩
      · have : L' = [] := by simpa using h3
        subst this
        simp
      · simp at ht
        subst ht
        have hne : encodeSegment s ≠ [] := fun e => h3 (encode_eq_nil e)
        have := List.length_pos_iff.2 hne
        rw [push_all (by simp; omega) fun t ht => h2 t (List.mem_cons_of_mem _ ht)]
        simp

/-- `path_segments` of a carried path. -/
theorem pathSegments_push {L : List Str} (h : Carried L) :
    pathSegments (L.foldl pushSegment ['/']) = some (L.map encodeSegment) := by
  obtain ⟨s, L', rfl, -, he⟩ := push_carried h
  rw [he, pathSegments]
  have hj := splitBy_join (p := (· == '/')) (c := '/') rfl (s := encodeSegment s)
    (L := L'.map encodeSegment)
    (fun c hc => by simpa using (segChar_encodeSegment hc).2.2.1)
    (fun t ht c hc => by
      obtain ⟨u, -, rfl⟩ := List.mem_map.1 ht
      simpa using (segChar_encodeSegment hc).2.2.1)
  rw [List.flatMap_map] at hj
  rw [hj]
  rfl

theorem normSegs_encode {L out : List Str} (h : ∀ s ∈ L, ¬ Dots s) :
    normSegs out (L.map encodeSegment) = out ++ L.map encodeSegment := by
  have henc : ∀ s, pctEncode keepPath (utf8 (encodeSegment s)) = encodeSegment s := fun s =>
    pctEncode_id fun c hc => ⟨(segChar_encodeSegment hc).1, (segChar_encodeSegment hc).2.1⟩
  induction L generalizing out with
  | nil => simp [normSegs]
  | cons s L ih =>
    have hs := h s (List.mem_cons_self ..)
    cases L with
    | nil => simp [normSegs, henc, not_isDot hs, not_isDotDot hs]
    | cons t L =>
      have := ih (out := out ++ [encodeSegment s]) fun t ht => h t (List.mem_cons_of_mem _ ht)
      simp only [List.map_cons] at this ⊢
      simp [normSegs, henc, not_isDot hs, not_isDotDot hs, this]

/-- A character of query text written by the form serializer. -/
def QueryChar (c : Char) : Prop :=
  c.toNat < 0x80 ∧ 0x21 ≤ c.toNat ∧ c ≠ '#' ∧ keepQuery (UInt8.ofNat c.toNat) = true ∧
    isTabNl c = false

theorem dropWhile_of_head {α : Type} {p : α → Bool} {l : List α} (h : ∀ a ∈ l, p a = false) :
    l.dropWhile p = l := by
  cases l with
  | nil => rfl
  | cons a l => rw [List.dropWhile_cons_of_neg]; simp [h a]

theorem takeWhile_all {α : Type} {p : α → Bool} {l : List α} (h : ∀ a ∈ l, p a = true) :
    l.takeWhile p = l := by
  induction l with
  | nil => rfl
  | cons a l ih =>
    rw [List.takeWhile_cons_of_pos (h a (List.mem_cons_self ..)),
      ih fun b hb => h b (List.mem_cons_of_mem _ hb)]

theorem dropWhile_all {α : Type} {p : α → Bool} {l : List α} (h : ∀ a ∈ l, p a = true) :
    l.dropWhile p = [] := by
  induction l with
  | nil => rfl
  | cons a l ih =>
    rw [List.dropWhile_cons_of_pos (h a (List.mem_cons_self ..)),
      ih fun b hb => h b (List.mem_cons_of_mem _ hb)]

/-- Path text and query text as one request target. -/
def joinTarget (path : Str) (query : Option Str) : Str :=
  match query with
  | none => path
  | some q => path ++ '?' :: q

/-- The server recovers segments and query from the target of a carried path. -/
theorem parseTarget_push (o : UrlOracle) {L : List Str} (h : Carried L) (query : Option Str)
    (hq : ∀ q ∈ query, ∀ c ∈ q, QueryChar c) :
    parseTarget o (joinTarget (L.foldl pushSegment ['/']) query) =
      some ⟨some (L.map encodeSegment), query⟩ := by
  obtain ⟨s, L', rfl, hne, he⟩ := push_carried h
  rw [he]
  -- characters
  have hbody : ∀ c ∈ encodeSegment s ++ L'.flatMap (fun s => '/' :: encodeSegment s),
      c = '/' ∨ SegChar c := by
    intro c hc
    rcases List.mem_append.1 hc with hc | hc
    · exact .inr (segChar_encodeSegment hc)
    · obtain ⟨t, -, ht⟩ := List.mem_flatMap.1 hc
      rcases List.mem_cons.1 ht with rfl | ht
      · exact .inl rfl
      · exact .inr (segChar_encodeSegment ht)
  generalize hB : encodeSegment s ++ L'.flatMap (fun s => '/' :: encodeSegment s) = B at *
  have hBc : ∀ c ∈ B, c ≠ '?' ∧ c ≠ '#' ∧ 0x21 ≤ c.toNat ∧ isTabNl c = false := by
    intro c hc
    rcases hbody c hc with rfl | h
    · decide
    · exact h.facts
  have hhead : ∀ c ∈ B.head?, isSlash c = false := by
    intro c hc
    have hsc : SegChar c := by
      cases hen : encodeSegment s with
      | nil =>
        rcases hne with rfl | hne
        · rw [hen] at hB
          simp at hB
          subst hB
          simp at hc
        · exact absurd hen hne
      | cons a e =>
        rw [hen] at hB
        simp only [List.cons_append] at hB
        subst hB
        simp at hc
        subst hc
        exact segChar_encodeSegment (s := s) (by simp [hen])
    simp [isSlash, hsc.2.2.1, hsc.2.2.2]
  let T : Str := match query with
    | none => []
    | some q => '?' :: q
  have hT : joinTarget ('/' :: B) query = '/' :: (B ++ T) := by
    cases query <;> simp [joinTarget, T]
  rw [hT]
  have hTc : ∀ c ∈ T, 0x21 ≤ c.toNat ∧ isTabNl c = false := by
    intro c hc
    cases query with
    | none => simp [T] at hc
    | some q =>
      rcases List.mem_cons.1 hc with rfl | hc
      · decide
      · have := hq q rfl c hc
        exact ⟨this.2.1, this.2.2.2.2⟩
  have hall : ∀ c ∈ '/' :: (B ++ T), 0x21 ≤ c.toNat ∧ isTabNl c = false := by
    intro c hc
    rcases List.mem_cons.1 hc with rfl | hc
    · decide
    · rcases List.mem_append.1 hc with hc | hc
      · exact ⟨(hBc c hc).2.2.1, (hBc c hc).2.2.2⟩
      · exact hTc c hc
  rw [parseTarget]
  rw [dropWhile_of_head (l := '/' :: (B ++ T)) (by
      intro c hc; have := (hall c hc).1; simp; omega),
    dropWhile_of_head (by
      intro c hc; have := (hall c (List.mem_reverse.1 hc)).1; simp; omega),
    List.reverse_reverse]
  have hf : ('/' :: (B ++ T)).filter (fun c => !isTabNl c) = '/' :: (B ++ T) :=
    List.filter_eq_self.2 fun c hc => by simp [(hall c hc).2]
  simp only [hf]
  have hsch : parseScheme ('/' :: (B ++ T)) = none := rfl
  rw [hsch]
  have hbase : parseAgainstBase o ('/' :: (B ++ T)) = some (pathQuery true (B ++ T)) := by
    simp only [parseAgainstBase]
    rw [if_pos (by decide)]
    cases hBT : B ++ T with
    | nil => rfl
    | cons d r =>
      have hd : isSlash d = false := by
        cases B with
        | nil =>
          cases query with
          | none => simp [T] at hBT
          | some q => simp [T] at hBT; rw [← hBT.1]; decide
        | cons b B =>
          simp at hBT
          exact hhead d (by simp [hBT.1])
      simp [hd]
  simp only [hbase]
  have htw : (B ++ T).takeWhile (fun c => decide (c ≠ '?' ∧ c ≠ '#')) = B := by
    rw [List.takeWhile_append_of_pos]
    · have : T.takeWhile (fun c => decide (c ≠ '?' ∧ c ≠ '#')) = [] := by
        cases query <;> simp [T]
      rw [this, List.append_nil]
    · intro c hc; simp [(hBc c hc).1, (hBc c hc).2.1]
  have hdw : (B ++ T).dropWhile (fun c => decide (c ≠ '?' ∧ c ≠ '#')) = T := by
    rw [List.dropWhile_append_of_pos]
    · cases query <;> simp [T]
    · intro c hc; simp [(hBc c hc).1, (hBc c hc).2.1]
  simp only [pathQuery, htw, hdw]
  have hsp : splitBy (fun c => c == '/' || (true && c == '\\')) B =
      (s :: L').map encodeSegment := by
    rw [← hB]
    have hno : ∀ t, ∀ c ∈ encodeSegment t, (c == '/' || (true && c == '\\')) = false := by
      intro t c hc
      have := segChar_encodeSegment hc
      simp [this.2.2.1, this.2.2.2]
    have hj := splitBy_join (p := fun c => c == '/' || (true && c == '\\')) (c := '/') rfl
      (s := encodeSegment s) (L := L'.map encodeSegment) (hno s)
      (fun t ht c hc => by
        obtain ⟨u, -, rfl⟩ := List.mem_map.1 ht
        exact hno u c hc)
    rw [List.flatMap_map] at hj
    rw [hj]
    rfl
  rw [hsp, normSegs_encode h.2.1, List.nil_append]
  congr 2
  cases query with
  | none => rfl
  | some q =>
    have hqq := hq q rfl
    simp only [T]
    rw [takeWhile_all (by intro c hc; simpa using (hqq c hc).2.2.1),
      pctEncode_id fun c hc => ⟨(hqq c hc).1, (hqq c hc).2.2.2.1⟩]

end Htrpc
