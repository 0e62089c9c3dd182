/-
The parser of queries finds the parameters of the specification.
-/
import Verif.Lemmas.Lossy
import Verif.Lemmas.Query
import Verif.Lemmas.Shape

namespace Htrpc
open Spec

/-! ### Escapes -/

/-- `+` is a blank. -/
def plus (c : Char) : Char := if c = '+' then ' ' else c

theorem escaped_eq (a b : Char) : escaped a b = match hexVal a, hexVal b with
    | some m, some n => some (m * 16 + n)
    | _, _ => none := by
  rw [escaped, ← hexVal_eq, ← hexVal_eq]
  cases hexVal a with
  | none => rfl
  | some m =>
    cases hexVal b with
    | none => rfl
    | some n =>
      show some (16 * m + n) = some (m * 16 + n)
      rw [Nat.mul_comm]

theorem hexVal_plus (c : Char) : hexVal (plus c) = hexVal c := by
  rw [plus]
  split
  · rename_i h; subst h; decide
  · rfl

theorem pctDecode_percent {cs : Str} (h : ∀ a b s' n, cs = a :: b :: s' → escaped a b ≠ some n) :
    pctDecode ('%' :: cs) = utf8Char '%' ++ pctDecode cs := by
  match cs with
  | [] => rw [pctDecode.eq_def]; rfl
  | [_] => rw [pctDecode.eq_def]; rfl
  | a :: b :: s =>
    have h' := h a b s
    rw [escaped_eq] at h'
    rw [pctDecode]
    split
    · rename_i ha hb
      rw [ha, hb] at h'
      exact absurd rfl (h' _ rfl)
    · rfl

theorem plus_inj {c d : Char} (h : plus c = plus d) (hc : c ≠ '+') (hd : d ≠ '+') : c = d := by
  rwa [plus, plus, if_neg hc, if_neg hd] at h

theorem formBytes_pctDecode (s : Str) : FormBytes s (pctDecode (s.map plus)) := by
  suffices h : ∀ k s, s.length ≤ k → FormBytes s (pctDecode (s.map plus)) from h _ s (Nat.le_refl _)
  intro k
  induction k with
  | zero =>
    intro s h
    rw [List.eq_nil_of_length_eq_zero (Nat.le_zero.1 h)]
    rw [List.map_nil, pctDecode]
    exact .nil
  | succ k ih =>
    intro s h
    match s with
    | [] => rw [List.map_nil, pctDecode]; exact .nil
    | c :: s =>
      have hs : s.length ≤ k := by simpa using h
      by_cases hc : c = '+'
      · subst hc
        rw [List.map_cons, show plus '+' = ' ' from rfl, pctDecode_other (by decide)]
        exact .blank (ih s hs)
      · have hpc : plus c = c := by rw [plus, if_neg hc]
        rw [List.map_cons, hpc]
        by_cases hp : c = '%'
        · subst hp
          by_cases he : ∃ a b s' n, s = a :: b :: s' ∧ escaped a b = some n
          · obtain ⟨a, b, s', n, rfl, hn⟩ := he
            have hn' := hn
            rw [escaped_eq] at hn'
            rw [List.map_cons, List.map_cons]
            cases ha : hexVal a with
            | none => rw [ha] at hn'; cases hn'
            | some x =>
              cases hb : hexVal b with
              | none => rw [ha, hb] at hn'; cases hn'
              | some y =>
                rw [ha, hb] at hn'
                rw [pctDecode_escape (by rw [hexVal_plus]; exact ha) (by rw [hexVal_plus]; exact hb),
                  Option.some.inj hn']
                exact .escape hn (ih s' (by simp at hs; omega))
          · have hno : ∀ a b s' n, s = a :: b :: s' → escaped a b ≠ some n :=
              fun a b s' n h1 h2 => he ⟨a, b, s', n, h1, h2⟩
            rw [pctDecode_percent, ← utf8_one]
            · exact .char (by decide) (fun a b s' n _ h1 => hno a b s' n h1) (ih s hs)
            · intro a b s' n hm
              match s, hm with
              | x :: y :: z, hm =>
                simp only [List.map_cons, List.cons.injEq] at hm
                obtain ⟨rfl, rfl, -⟩ := hm
                rw [escaped_eq, hexVal_plus, hexVal_plus, ← escaped_eq]
                exact hno x y z n rfl
        · rw [pctDecode_other hp, ← utf8_one]
          exact .char hc (fun _ _ _ _ h => absurd h hp) (ih s hs)

theorem Spec.FormBytes.unique {s : Str} {x y : Bytes} (h : FormBytes s x) (h' : FormBytes s y) :
    x = y := by
  induction h generalizing y with
  | nil => cases h'; rfl
  | blank _ ih =>
    generalize hs : '+' :: _ = t at h'
    cases h' with
    | nil => cases hs
    | blank h' => cases hs; rw [ih h']
    | escape => simp at hs
    | char hc => cases hs; exact absurd rfl hc
  | @escape a b n s bs he _ ih =>
    generalize hs : '%' :: a :: b :: s = t at h'
    cases h' with
    | nil => cases hs
    | blank h' => simp at hs
    | escape he' h' =>
      cases hs
      rw [he] at he'
      cases he'
      rw [ih h']
    | char hc hno =>
      cases hs
      exact absurd he (hno a b s n rfl rfl)
  | @char c s bs hc hno _ ih =>
    generalize hs : c :: s = t at h'
    cases h' with
    | nil => cases hs
    | blank h' => cases hs; exact absurd rfl hc
    | @escape a b n _ _ he' h' =>
      cases hs
      exact absurd he' (hno a b _ n rfl rfl)
    | char _ _ h' =>
      cases hs
      rw [ih h']

theorem formDecode_eq (s : Str) : formDecode s = utf8Lossy (pctDecode (s.map plus)) := rfl

theorem formText_iff {s t : Str} : FormText s t ↔ formDecode s = t := by
  rw [formDecode_eq]
  constructor
  · rintro ⟨bs, h1, h2⟩
    rw [← h1.unique (formBytes_pctDecode s)]
    exact lossy_iff.1 h2
  · intro h
    exact ⟨_, formBytes_pctDecode s, lossy_iff.2 h⟩

/-! ### Pieces -/

theorem pieces_splitBy {p : Char → Bool} {sep : Char → Prop} (hp : ∀ c, sep c ↔ p c = true)
    (s : Str) : Pieces sep s (splitBy p s) := by
  induction s with
  | nil => exact .last (by simp)
  | cons c s ih =>
    rw [splitBy]
    split
    · rename_i hc
      exact .cons (s := []) (by simp) ((hp c).2 hc) ih
    · rename_i hc
      have hc' : ¬ sep c := fun h => hc ((hp c).1 h)
      generalize splitBy p s = L at ih
      cases ih with
      | last h =>
        exact .last (by simpa using ⟨hc', h⟩)
      | @cons s' d t ss h hd ht =>
        exact .cons (s := c :: s') (by simpa using ⟨hc', h⟩) hd ht

theorem pieces_iff {p : Char → Bool} {sep : Char → Prop} (hp : ∀ c, sep c ↔ p c = true)
    {s : Str} {L : List Str} : Pieces sep s L ↔ splitBy p s = L := by
  have hno : ∀ {s : Str}, (∀ c ∈ s, ¬ sep c) → ∀ c ∈ s, p c = false := by
    intro s h c hc
    cases hpc : p c with
    | false => rfl
    | true => exact absurd ((hp c).2 hpc) (h c hc)
  constructor
  · intro h
    induction h with
    | last h => exact splitBy_none (hno h)
    | cons h hd _ ih => rw [splitBy_sep (hno h) ((hp _).1 hd), ih]
  · rintro rfl
    exact pieces_splitBy hp s

/-! ### Parameters -/

theorem cut_no {sep : Char} {s : Str} (h : sep ∉ s) : cut sep s = (s, []) := by
  induction s with
  | nil => rfl
  | cons c s ih =>
    simp only [List.mem_cons, not_or] at h
    rw [cut, if_neg (Ne.symm h.1), ih h.2]

theorem cut_cases (sep : Char) (s : Str) : sep ∉ (cut sep s).1 ∧
    (s = (cut sep s).1 ++ sep :: (cut sep s).2 ∨ s = (cut sep s).1 ∧ (cut sep s).2 = []) := by
  induction s with
  | nil => exact ⟨by simp [cut], .inr ⟨rfl, rfl⟩⟩
  | cons c s ih =>
    rw [cut]
    split
    · rename_i h
      subst h
      exact ⟨by simp, .inl rfl⟩
    · rename_i h
      refine ⟨by simpa using ⟨Ne.symm h, ih.1⟩, ?_⟩
      rcases ih.2 with h2 | ⟨h2, h3⟩
      · left
        simp only [List.cons_append, List.cons.injEq, true_and]
        exact h2
      · right
        simp only [List.cons.injEq, true_and]
        exact ⟨h2, h3⟩

theorem isParameter_iff {s : Str} {p : Str × Str} :
    IsParameter s p ↔ (formDecode (cut '=' s).1, formDecode (cut '=' s).2) = p := by
  constructor
  · rintro ⟨k, v, hk, hs, h1, h2⟩
    have hc : cut '=' s = (k, v) := by
      rcases hs with rfl | ⟨rfl, rfl⟩
      · exact cut_sep fun c hc h => hk (h ▸ hc)
      · exact cut_no hk
    rw [hc, formText_iff.1 h1, formText_iff.1 h2]
  · rintro rfl
    exact ⟨_, _, (cut_cases '=' s).1, (cut_cases '=' s).2, formText_iff.2 rfl, formText_iff.2 rfl⟩

theorem pieceParameters_iff {ss : List Str} {ps : List (Str × Str)} :
    PieceParameters ss ps ↔ ((ss.filter (· ≠ [])).map fun p =>
      (formDecode (cut '=' p).1, formDecode (cut '=' p).2)) = ps := by
  constructor
  · intro h
    induction h with
    | nil => rfl
    | empty _ ih => rw [List.filter_cons_of_neg (by simp)]; exact ih
    | cons hs hp _ ih =>
      rw [List.filter_cons_of_pos (by simpa using hs), List.map_cons, ih, isParameter_iff.1 hp]
  · rintro rfl
    induction ss with
    | nil => exact .nil
    | cons s ss ih =>
      by_cases hs : s = []
      · subst hs
        rw [List.filter_cons_of_neg (by simp)]
        exact .empty ih
      · rw [List.filter_cons_of_pos (by simpa using hs), List.map_cons]
        exact .cons hs (isParameter_iff.2 rfl) ih

/-- The parser finds exactly the parameters. -/
theorem parameters_iff {q : Str} {ps : List (Str × Str)} : Parameters q ps ↔ formParse q = ps := by
  rw [formParse]
  constructor
  · rintro ⟨L, h1, h2⟩
    rw [(pieces_iff (p := (· == '&')) (by simp)).1 h1]
    exact pieceParameters_iff.1 h2
  · intro h
    exact ⟨_, pieces_splitBy (by simp) q, pieceParameters_iff.2 h⟩

end Htrpc
