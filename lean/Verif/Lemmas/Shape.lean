/-
When a URL path keeps the shape of the segments pushed to it.
-/
import Verif.Lemmas.PathCodec

namespace Htrpc
open Spec

/-- Induction from the end of a list. -/
theorem snoc_induction {α : Type} {P : List α → Prop} (nil : P [])
    (snoc : ∀ l a, P l → P (l ++ [a])) (l : List α) : P l := by
  have : ∀ r : List α, P r.reverse := fun r => by
    induction r with
    | nil => exact nil
    | cons a r ih => rw [List.reverse_cons]; exact snoc _ _ ih
  simpa using this l.reverse

/-- The segments of a path behind its initial slash, where the path `/` has none. -/
def pieces (path : Str) : List Str :=
  if path = ['/'] then [] else splitBy (· == '/') path.tail

theorem splitBy_append_sep {p : Char → Bool} {c : Char} (hc : p c = true) (a b : Str) :
    splitBy p (a ++ c :: b) = splitBy p a ++ splitBy p b := by
  induction a with
  | nil => simp [splitBy, hc]
  | cons x a ih =>
    simp only [List.cons_append, splitBy, ih]
    split
    · rfl
    · cases h : splitBy p a with
      | nil => exact absurd h (by cases a <;> simp only [splitBy] <;> (repeat' split) <;> simp)
      | cons y ys => rfl

theorem splitBy_nonempty (p : Char → Bool) (s : Str) : splitBy p s ≠ [] := by
  cases s <;> simp only [splitBy] <;> (repeat' split) <;> simp

theorem noSlash_encode (s : Str) : ∀ c ∈ encodeSegment s, (c == '/') = false := by
  intro c hc
  simpa using (segChar_encodeSegment hc).2.2.1

/-- A path is cut at its last slash. -/
theorem lastSlash (t : Str) : ∃ a b, '/' :: t = a ++ '/' :: b ∧ '/' ∉ b := by
  induction t using snoc_induction with
  | nil => exact ⟨[], [], rfl, by simp⟩
  | snoc t c ih =>
    obtain ⟨a, b, h, hb⟩ := ih
    by_cases hc : c = '/'
    · subst hc
      exact ⟨'/' :: t, [], by simp, by simp⟩
    · refine ⟨a, b ++ [c], ?_, ?_⟩
      · rw [← List.cons_append, h]; simp
      · simp [hb, Ne.symm hc]

theorem upToLastSlash_eq {a b : Str} (hb : '/' ∉ b) : upToLastSlash (a ++ '/' :: b) = a ++ ['/'] := by
  have h : ∀ (r r' : Str), '/' ∉ r → (r ++ '/' :: r').dropWhile (· ≠ '/') = '/' :: r' := by
    intro r r' hr
    induction r with
    | nil => simp
    | cons x r ih =>
      simp only [List.mem_cons, not_or] at hr
      simpa [Ne.symm hr.1] using ih hr.2
  rw [upToLastSlash, List.reverse_append, List.reverse_cons, List.append_assoc,
    List.singleton_append, h _ _ (by simpa using hb)]
  simp

/-- A push either appends one segment, the text of the argument or nothing for a hidden `.`, or
does not add a segment. -/
theorem push_cases (t s : Str) :
    ∃ t', pushSegment ('/' :: t) s = '/' :: t' ∧
      ((¬ Dots s ∧ pieces ('/' :: t') = pieces ('/' :: t) ++ [encodeSegment s] ∧
          (t = [] → strip s ≠ [])) ∨
        (Dots s ∧ pieces ('/' :: t') = pieces ('/' :: t) ++ [[]]) ∨
        ((pieces ('/' :: t')).length ≤ (pieces ('/' :: t)).length ∧
          (Dots s ∨ (t = [] ∧ strip s = [])))) := by
  by_cases hd : Dots s
  · by_cases hl : s = ".".toList ∨ s = "..".toList
    · exact ⟨t, by rw [pushSegment, if_pos hl], .inr (.inr ⟨Nat.le.refl, .inl hd⟩)⟩
    · rw [pushSegment, if_neg hl]
      have he : encodeSegment s = ".".toList ∨ encodeSegment s = "..".toList := by
        rcases hd with hd | hd <;> rw [encodeSegment_eq, hd]
        · exact .inl (by decide)
        · exact .inr (by decide)
      cases t with
      | nil =>
        refine ⟨[], ?_, .inr (.inr ⟨Nat.le.refl, .inl hd⟩)⟩
        rcases he with he | he <;> simp [he]
      | cons x t =>
        rcases he with he | he
        · refine ⟨x :: t ++ ['/'], by simp [he], .inr (.inl ⟨hd, ?_⟩)⟩
          have := splitBy_append_sep (p := (· == '/')) (c := '/') rfl (x :: t) []
          simpa [pieces, splitBy] using this
        · obtain ⟨a, b, hab, hb⟩ := lastSlash (x :: t)
          have hu : upToLastSlash ('/' :: x :: t) = a ++ ['/'] := by
            rw [hab, upToLastSlash_eq hb]
          cases a with
          | nil =>
            refine ⟨[], ?_, .inr (.inr ⟨by simp [pieces], .inl hd⟩)⟩
            have : (x :: (t ++ ['/'])).dropLast = x :: t := List.dropLast_concat (l₁ := x :: t)
            simp only [he]
            simpa [this] using hu
          | cons y a =>
            have hy : y = '/' := by simpa using (congrArg List.head? hab).symm
            subst hy
            have ht : x :: t = a ++ '/' :: b := by simpa using hab
            refine ⟨a ++ ['/'], ?_, .inr (.inr ⟨?_, .inl hd⟩)⟩
            · have : (x :: (t ++ ['/'])).dropLast = x :: t := List.dropLast_concat (l₁ := x :: t)
              simp only [he]
              simpa [this] using hu
            · have h1 := splitBy_append_sep (p := (· == '/')) (c := '/') rfl a []
              have h2 := splitBy_append_sep (p := (· == '/')) (c := '/') rfl a b
              have h3 := List.length_pos_iff.2 (splitBy_nonempty (· == '/') b)
              rw [pieces, pieces, if_neg (by simp), if_neg (by simp), List.tail_cons,
                List.tail_cons, ht, h1, h2]
              simp [splitBy]
              omega
  · rw [pushSegment_eq hd]
    have hn := splitBy_none (noSlash_encode s)
    cases t with
    | nil =>
      refine ⟨encodeSegment s, by simp, ?_⟩
      by_cases hs : strip s = []
      · refine .inr (.inr ⟨?_, .inr ⟨rfl, hs⟩⟩)
        rw [encodeSegment_eq, hs]
        exact Nat.le.refl
      · refine .inl ⟨hd, ?_, fun _ => hs⟩
        have : encodeSegment s ≠ [] := fun e => hs (encode_eq_nil e)
        simp [pieces, this, hn]
    | cons x t =>
      refine ⟨x :: t ++ '/' :: encodeSegment s, by simp, .inl ⟨hd, ?_, nofun⟩⟩
      have := splitBy_append_sep (p := (· == '/')) (c := '/') rfl (x :: t) (encodeSegment s)
      rw [hn] at this
      simpa [pieces] using this

theorem utf8_eq_nil {s : Str} (h : utf8 s = []) : s = [] := utf8_injective (h.trans rfl)

/-- What was pushed can be read off the pieces only if a URL can carry it. -/
theorem pieces_push (L : List Str) :
    ∃ t, L.foldl pushSegment ['/'] = '/' :: t ∧ (pieces ('/' :: t)).length ≤ L.length ∧
      ((pieces ('/' :: t)).map pctDecode = L.map (fun s => utf8 (strip s)) →
        (∀ s ∈ L, ¬ Dots s) ∧ ∀ s ∈ L.head?, strip s ≠ []) := by
  induction L using snoc_induction with
  | nil => exact ⟨[], rfl, Nat.le.refl, fun _ => ⟨by simp, by simp⟩⟩
  | snoc L s ih =>
    obtain ⟨t, h1, h2, h3⟩ := ih
    obtain ⟨t', h4, h5⟩ := push_cases t s
    refine ⟨t', by rw [List.foldl_append, h1]; exact h4, ?_, ?_⟩
    · rcases h5 with ⟨-, h5, -⟩ | ⟨-, h5⟩ | ⟨h5, -⟩
      · rw [h5]; simpa using h2
      · rw [h5]; simpa using h2
      · simp; omega
    · intro he
      rcases h5 with ⟨hd, h5, h6⟩ | ⟨hd, h5⟩ | ⟨h5, -⟩
      · rw [h5, List.map_append, List.map_append] at he
        obtain ⟨he, -⟩ := List.append_inj' he rfl
        obtain ⟨h7, h8⟩ := h3 he
        refine ⟨fun u hu => ?_, fun u hu => ?_⟩
        · rcases List.mem_append.1 hu with hu | hu
          · exact h7 u hu
          · rw [List.mem_singleton.1 hu]; exact hd
        · cases L with
          | nil =>
            have : t = [] := by simpa using h1.symm
            simp at hu
            subst hu
            exact h6 this
          | cons y L => exact h8 u (by simpa using hu)
      · rw [h5, List.map_append, List.map_append] at he
        obtain ⟨-, he⟩ := List.append_inj' he rfl
        have : strip s = [] := utf8_eq_nil (by simpa [pctDecode] using he.symm)
        rcases hd with hd | hd <;> simp [this] at hd
      · have := congrArg List.length he
        simp at this
        omega

/-- The segments of the path decode to what was pushed exactly if a URL can carry it. -/
theorem shape_iff (L : List Str) :
    ∃ segs, pathSegments (L.foldl pushSegment ['/']) = some segs ∧
      (segs.map pctDecode = L.map (fun s => utf8 (strip s)) ↔ Carried L) := by
  obtain ⟨t, h1, -, h3⟩ := pieces_push L
  refine ⟨splitBy (· == '/') t, by rw [h1]; rfl, ?_, ?_⟩
  · intro h
    by_cases ht : t = []
    · subst ht
      have hlen := congrArg List.length h
      obtain ⟨s, rfl⟩ : ∃ s, L = [s] := List.length_eq_one_iff.1 (by simpa [splitBy] using hlen.symm)
      have hs : strip s = [] := utf8_eq_nil (by simpa [splitBy, pctDecode] using h.symm)
      refine ⟨by simp, ?_, .inl rfl⟩
      intro u hu hd
      rw [List.mem_singleton.1 hu] at hd
      rcases hd with hd | hd <;> simp [hs] at hd
    · rw [pieces, if_neg (by simpa using ht), List.tail_cons] at h3
      obtain ⟨h4, h5⟩ := h3 h
      cases L with
      | nil => exact absurd (by simpa using h1.symm) ht
      | cons s L => exact ⟨by simp, h4, .inr ⟨s, rfl, h5 s rfl⟩⟩
  · intro h
    have := pathSegments_push h
    rw [h1] at this
    have hs : splitBy (· == '/') t = L.map encodeSegment := Option.some.inj this
    rw [hs, List.map_map]
    exact List.map_congr_left fun s _ => pctDecode_encodeSegment s

end Htrpc
