/-
Every pushed path is the path of a list of segments that a URL can carry.
-/
import Verif.Lemmas.Shape

namespace Htrpc
open Spec

/-- Two lists of the same length, related element by element. -/
inductive Pairs {α β : Type} (R : α → β → Prop) : List α → List β → Prop where
  | nil : Pairs R [] []
  | cons {a b as bs} : R a b → Pairs R as bs → Pairs R (a :: as) (b :: bs)

theorem Pairs.snoc {α β : Type} {R : α → β → Prop} {as : List α} {bs : List β} {a : α} {b : β}
    (h : Pairs R as bs) (hr : R a b) : Pairs R (as ++ [a]) (bs ++ [b]) := by
  induction h with
  | nil => exact .cons hr .nil
  | cons h _ ih => exact .cons h ih

/-- What a segment becomes if none gets lost: dot segments can become empty, others do not change. -/
def Kept (m s : Str) : Prop := encodeSegment m = if Dots s then [] else encodeSegment s

theorem not_dots_nil : ¬ Dots [] := by decide

theorem push_carried_ne {M : List Str} (h : Carried M) (hne : M.foldl pushSegment ['/'] ≠ ['/']) :
    ∃ s ∈ M.head?, strip s ≠ [] := by
  obtain ⟨h1, h2, h3⟩ := h
  rcases h3 with h3 | h3
  · obtain ⟨s, rfl⟩ := List.length_eq_one_iff.1 h3
    refine ⟨s, rfl, fun hs => hne ?_⟩
    rw [List.foldl_cons, List.foldl_nil, pushSegment_eq (h2 s (by simp)), encodeSegment_eq, hs]
    rfl
  · exact h3

/-- The text of a carried path ends with its last segment. -/
theorem push_carried_last {M : List Str} {s : Str} (h : Carried (M ++ [s])) :
    ∃ a, (M ++ [s]).foldl pushSegment ['/'] = a ++ '/' :: encodeSegment s ∧
      (M ≠ [] → a = M.foldl pushSegment ['/']) ∧ (M = [] → a = []) := by
  have hs := h.2.1 s (by simp)
  rw [List.foldl_append, List.foldl_cons, List.foldl_nil, pushSegment_eq hs]
  cases M with
  | nil => exact ⟨[], rfl, by simp, by simp⟩
  | cons m M =>
    have hc : Carried (m :: M) := by
      obtain ⟨-, h2, h3⟩ := h
      refine ⟨by simp, fun x hx => h2 x (List.mem_append_left _ hx), ?_⟩
      rcases h3 with h3 | h3
      · simp at h3
      · exact .inr (by simpa using h3)
    have hm : strip m ≠ [] := by
      obtain ⟨-, -, h3⟩ := h
      rcases h3 with h3 | ⟨x, hx, h3⟩
      · simp at h3
      · simp at hx; subst hx; exact h3
    have hl : ((m :: M).foldl pushSegment ['/']).length ≠ 1 := by
      obtain ⟨s', L', he, -, hp⟩ := push_carried hc
      cases he
      rw [hp]
      have := List.length_pos_iff.2 (fun e => hm (encode_eq_nil e) : encodeSegment m ≠ [])
      simp only [List.length_cons, List.length_append]; omega
    refine ⟨_, ?_, fun _ => rfl, by simp⟩
    rw [if_neg hl]
    simp

/-- Every pushed path is the path of a list that a URL can carry. If the list is as long as the
list of pushed segments, it has the same segments except for dot segments, which are empty. -/
theorem push_normal (L : List Str) :
    ∃ M, Carried M ∧ L.foldl pushSegment ['/'] = M.foldl pushSegment ['/'] ∧
      (L.foldl pushSegment ['/'] ≠ ['/'] → M.length ≤ L.length ∧
        (M.length = L.length → Pairs Kept M L)) := by
  induction L using snoc_induction with
  | nil => exact ⟨[[]], ⟨by simp, by simp [not_dots_nil], .inl rfl⟩, by decide, by simp⟩
  | snoc L s ih =>
    obtain ⟨M, hc, he, hp⟩ := ih
    have hfold : (L ++ [s]).foldl pushSegment ['/'] = pushSegment (M.foldl pushSegment ['/']) s := by
      rw [List.foldl_append, he]; rfl
    rw [hfold]
    rw [he] at hp
    by_cases hl : s = ".".toList ∨ s = "..".toList
    · rw [pushSegment, if_pos hl]
      refine ⟨M, hc, rfl, fun h => ?_⟩
      have := (hp h).1
      exact ⟨by simp; omega, fun h' => by simp at h'; omega⟩
    by_cases hroot : M.foldl pushSegment ['/'] = ['/']
    · -- pushed to the root
      rw [hroot]
      by_cases hd : Dots s
      · have he' : encodeSegment s = ".".toList ∨ encodeSegment s = "..".toList := by
          rcases hd with hd | hd <;> rw [encodeSegment_eq, hd]
          · exact .inl (by decide)
          · exact .inr (by decide)
        have : pushSegment ['/'] s = ['/'] := by
          rw [pushSegment, if_neg hl]
          rcases he' with he' | he' <;> simp [he']
        exact ⟨M, hc, by rw [this, hroot], fun h => absurd this h⟩
      · refine ⟨[s], ⟨by simp, by simpa using hd, .inl rfl⟩, rfl, fun _ => ⟨by simp, fun h => ?_⟩⟩
        have : L = [] := by simpa using h
        subst this
        exact .cons (if_neg hd).symm .nil
    · obtain ⟨hlen, hk⟩ := hp hroot
      have hhead := push_carried_ne hc hroot
      have hne : M ≠ [] := hc.1
      have hhead' : ∀ x : Str, ∃ y ∈ (M ++ [x]).head?, strip y ≠ [] := fun x => by
        obtain ⟨y, hy, h⟩ := hhead
        exact ⟨y, by cases M with | nil => exact absurd rfl hne | cons => simpa using hy, h⟩
      have hcarry : ∀ x, ¬ Dots x → Carried (M ++ [x]) := fun x hx =>
        ⟨by simp, fun y hy => by
          rcases List.mem_append.1 hy with hy | hy
          · exact hc.2.1 y hy
          · rw [List.mem_singleton.1 hy]; exact hx, .inr (hhead' x)⟩
      have hlen1 : (M.foldl pushSegment ['/']).length ≠ 1 := by
        obtain ⟨s', L', hML, -, hpath⟩ := push_carried hc
        rw [hpath] at hroot ⊢
        intro h
        rw [List.length_cons] at h
        exact hroot (by rw [List.length_eq_zero_iff.1 (Nat.succ.inj h)])
      by_cases hd : Dots s
      · have he' : encodeSegment s = ".".toList ∨ encodeSegment s = "..".toList := by
          rcases hd with hd | hd <;> rw [encodeSegment_eq, hd]
          · exact .inl (by decide)
          · exact .inr (by decide)
        rcases he' with he' | he'
        · -- an empty segment
          refine ⟨M ++ [[]], hcarry _ not_dots_nil, ?_, fun _ => ⟨by simpa using hlen, fun h => ?_⟩⟩
          · rw [List.foldl_append, List.foldl_cons, List.foldl_nil, pushSegment, if_neg hl,
              pushSegment_eq not_dots_nil]
            simp only [he', if_neg hlen1]
            simp [show encodeSegment [] = [] by rfl]
          · exact (hk (by simpa using h)).snoc (if_pos hd).symm
        · -- the last segment is emptied
          obtain ⟨M0, m, rfl⟩ : ∃ M0 m, M = M0 ++ [m] :=
            ⟨M.dropLast, M.getLast hne, (List.dropLast_concat_getLast hne).symm⟩
          have hc' : Carried (M0 ++ [[]]) := by
            refine ⟨by simp, fun y hy => ?_, ?_⟩
            · rcases List.mem_append.1 hy with hy | hy
              · exact hc.2.1 y (List.mem_append_left _ hy)
              · rw [List.mem_singleton.1 hy]; exact not_dots_nil
            · cases M0 with
              | nil => exact .inl rfl
              | cons x M0 => exact .inr (by simpa using hhead)
          refine ⟨M0 ++ [[]], hc', ?_, fun _ => ⟨by simp at hlen ⊢; omega, fun h => ?_⟩⟩
          · obtain ⟨a, ha, ha1, ha2⟩ := push_carried_last hc
            obtain ⟨b, hb, hb1, hb2⟩ := push_carried_last hc'
            have hab : a = b := by
              cases M0 with
              | nil => rw [ha2 rfl, hb2 rfl]
              | cons x M0 => rw [ha1 (by simp), hb1 (by simp)]
            rw [hb, pushSegment, if_neg hl]
            have hsl : '/' ∉ encodeSegment m := fun h =>
              absurd (noSlash_encode m _ h) (by decide)
            rw [ha] at hlen1 ⊢
            have hl2 : ¬ (a ++ '/' :: encodeSegment m ++ ['/']).length = 1 := by simp; omega
            simp only [he', if_neg hlen1, if_pos, if_neg hl2, List.dropLast_concat]
            rw [upToLastSlash_eq hsl, hab]
            rfl
          · simp at h hlen; omega
      · refine ⟨M ++ [s], hcarry s hd, ?_, fun _ => ⟨by simpa using hlen, fun h => ?_⟩⟩
        · rw [List.foldl_append]; rfl
        · exact (hk (by simpa using h)).snoc (if_neg hd).symm

/-- Whatever was pushed, the server finds the segments of the path text and the query. -/
theorem parseTarget_pushed (o : UrlOracle) (L : List Str) (query : Option Str)
    (hq : ∀ q ∈ query, ∀ c ∈ q, QueryChar c) :
    ∃ segs, pathSegments (L.foldl pushSegment ['/']) = some segs ∧
      parseTarget o (joinTarget (L.foldl pushSegment ['/']) query) = some ⟨some segs, query⟩ ∧
      (segs.length = L.length →
        Pairs (fun g s => g = if Dots s then [] else encodeSegment s) segs L) := by
  obtain ⟨M, hc, he, hp⟩ := push_normal L
  refine ⟨_, by rw [he]; exact pathSegments_push hc, by rw [he]; exact parseTarget_push o hc query hq,
    fun h => ?_⟩
  rw [List.length_map] at h
  by_cases hr : L.foldl pushSegment ['/'] = ['/']
  · have hs := pathSegments_push hc
    rw [← he, hr] at hs
    have hs' : M.map encodeSegment = [[]] := (Option.some.inj hs).symm
    obtain ⟨m, rfl⟩ : ∃ m, M = [m] := List.length_eq_one_iff.1 (by simpa using congrArg List.length hs')
    obtain ⟨s, rfl⟩ : ∃ s, L = [s] := List.length_eq_one_iff.1 (by simpa using h.symm)
    refine .cons ?_ .nil
    have hm : encodeSegment m = [] := by simpa using hs'
    by_cases hd : Dots s
    · rw [if_pos hd]; exact hm
    rw [if_neg hd]
    have : pushSegment ['/'] s = ['/'] := hr
    rw [pushSegment_eq hd] at this
    have h0 : encodeSegment s = [] := by simpa using this
    rw [h0]
    exact hm
  · have := (hp hr).2 h
    clear hp hr h he hc
    induction this with
    | nil => exact .nil
    | cons h _ ih => exact .cons h ih

end Htrpc
