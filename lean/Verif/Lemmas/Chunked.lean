/-
The reader of bodies in chunks (Verif/Model/Chunked.lean) reads exactly the texts of
Verif/Spec/Chunked.lean.
-/
import Verif.Lemmas.Interop
import Mathlib.Data.List.Induction
import Verif.Spec.Chunked

namespace Htrpc
open Spec Http

/-! ### Lines -/

theorem readLine_append {cur bs l rest : Bytes} (more : Bytes)
    (h : readLine cur bs = some (l, rest)) : readLine cur (bs ++ more) = some (l, rest ++ more) := by
  fun_induction readLine cur bs with
  | case1 => cases h
  | case2 => cases h
  | case3 cur a b r hab => cases h; simp only [List.cons_append, readLine, if_pos hab]
  | case4 cur a b r hab ih =>
    have := ih h
    simp only [List.cons_append, readLine, if_neg hab] at this ⊢
    exact this

theorem readLine_line (cur l r : Bytes) (h : ∀ b ∈ l, b ≠ 13) :
    readLine cur (l ++ crlf ++ r) = some (cur ++ l, r) := by
  induction l generalizing cur with
  | nil => simp [crlf, readLine]
  | cons a l ih =>
    have ha := h a List.mem_cons_self
    have := ih (cur ++ [a]) fun b hb => h b (List.mem_cons_of_mem _ hb)
    rw [show cur ++ a :: l = cur ++ [a] ++ l by simp, ← this]
    cases l with
    | nil => simp [crlf, readLine, ha]
    | cons b l => simp [readLine, ha]

theorem readLine_whole {cur bs l rest : Bytes} (h : readLine cur bs = some (l, rest)) :
    cur ++ bs = l ++ crlf ++ rest := by
  fun_induction readLine cur bs with
  | case1 => cases h
  | case2 => cases h
  | case3 cur a b r hab =>
    obtain ⟨rfl, rfl⟩ := hab
    cases h
    simp [crlf]
  | case4 cur a b r hab ih =>
    have := ih h
    simpa using this

/-! ### Sizes -/

theorem hexByte_iff (b : UInt8) (k : Nat) : hexByte b = some k ↔ HexDigit b k := by
  have hb := b.toNat_lt
  rw [hexByte, hexVal, charOfByte_toNat]
  constructor
  · intro h
    split at h
    · cases h; exact .digit (by omega) (by omega)
    · split at h
      · cases h
        rw [show b.toNat - 55 = 10 + (b.toNat - 65) by omega]
        exact .upper (by omega) (by omega)
      · split at h
        · cases h
          rw [show b.toNat - 87 = 10 + (b.toNat - 97) by omega]
          exact .lower (by omega) (by omega)
        · cases h
  · intro h
    cases h with
    | digit h1 h2 => rw [if_pos (by omega)]; congr 1; omega
    | upper h1 h2 => rw [if_neg (by omega), if_pos (by omega)]; congr 1; omega
    | lower h1 h2 => rw [if_neg (by omega), if_neg (by omega), if_pos (by omega)]; congr 1; omega

/-- The step of `chunkSize`. -/
abbrev hexStep (n : Option Nat) (b : UInt8) : Option Nat := n.bind fun n => (hexByte b).map (16 * n + ·)

theorem hexNumber_fold {ds : Bytes} {n : Nat} (h : HexNumber ds n) : ds.foldl hexStep (some 0) = some n := by
  induction h with
  | one h => simp [hexStep, (hexByte_iff _ _).2 h]
  | more _ h ih => rw [List.foldl_append, ih]; simp [hexStep, (hexByte_iff _ _).2 h]

theorem fold_hexNumber {ds : Bytes} {n : Nat} (hne : ds ≠ []) (h : ds.foldl hexStep (some 0) = some n) :
    HexNumber ds n := by
  induction ds using List.reverseRecOn generalizing n with
  | nil => exact absurd rfl hne
  | append_singleton ds b ih =>
    rw [List.foldl_append] at h
    obtain ⟨m, h1, h2⟩ := Option.bind_eq_some_iff.1 h
    obtain ⟨k, h3, rfl⟩ := Option.map_eq_some_iff.1 h2
    by_cases hd : ds = []
    · subst hd
      cases h1
      simpa using HexNumber.one ((hexByte_iff _ _).1 h3)
    · exact .more (ih hd h1) ((hexByte_iff _ _).1 h3)

theorem hexDigit_byte {b : UInt8} {k : Nat} (h : HexDigit b k) : b ≠ 13 ∧ b ≠ 59 := by
  have hb : 48 ≤ b.toNat ∧ b.toNat ≠ 59 := by cases h <;> omega
  constructor <;> rintro rfl <;> revert hb <;> decide

theorem hexNumber_bytes {ds : Bytes} {n : Nat} (h : HexNumber ds n) :
    ds ≠ [] ∧ ∀ b ∈ ds, b ≠ 13 ∧ b ≠ 59 := by
  induction h with
  | one h => exact ⟨by simp, fun b hb => by cases List.mem_singleton.1 hb; exact hexDigit_byte h⟩
  | more _ h ih =>
    refine ⟨by simp, fun b hb => ?_⟩
    rcases List.mem_append.1 hb with hb | hb
    · exact ih.2 b hb
    · cases List.mem_singleton.1 hb; exact hexDigit_byte h

theorem chunkSize_iff (l : Bytes) (n : Nat) : chunkSize l = some n ↔ SizeLine n l := by
  constructor
  · intro h
    rw [chunkSize] at h
    split at h
    · rename_i hc
      have hnum := fold_hexNumber hc.1 h
      have hsplit := List.takeWhile_append_dropWhile (p := fun b : UInt8 => decide (b ≠ 59)) (l := l)
      have hd := List.head?_dropWhile_not (fun b : UInt8 => decide (b ≠ 59)) l
      generalize l.takeWhile (fun b : UInt8 => decide (b ≠ 59)) = ds at *
      generalize l.dropWhile (fun b : UInt8 => decide (b ≠ 59)) = x at *
      subst hsplit
      cases x with
      | nil => rw [List.append_nil]; exact .bare hnum
      | cons b x =>
        have hb : b = 59 := by simpa using hd
        subst hb
        rw [show ds ++ 59 :: x = ds ++ [59] ++ x by simp]
        refine .extended hnum fun b hb => (valueByte_iff b).2 ?_
        exact List.all_eq_true.1 hc.2 b (List.mem_cons_of_mem _ hb)
    · cases h
  · intro h
    have key : ∀ ds x : Bytes, HexNumber ds n → (x = [] ∨ ∃ y, x = 59 :: y) →
        x.all isField = true → chunkSize (ds ++ x) = some n := by
      intro ds x hnum hx hall
      obtain ⟨h1, h2⟩ := hexNumber_bytes hnum
      have hp : ∀ b ∈ ds, decide (b ≠ 59) = true := fun b hb => by simpa using (h2 b hb).2
      have ht : (ds ++ x).takeWhile (fun b : UInt8 => decide (b ≠ 59)) = ds := by
        rw [List.takeWhile_append_of_pos hp]
        rcases hx with rfl | ⟨y, rfl⟩ <;> simp
      have hd : (ds ++ x).dropWhile (fun b : UInt8 => decide (b ≠ 59)) = x := by
        rw [List.dropWhile_append_of_pos hp]
        rcases hx with rfl | ⟨y, rfl⟩ <;> simp
      rw [chunkSize]
      simp only [ht, hd]
      rw [if_pos ⟨h1, hall⟩]
      exact hexNumber_fold hnum
    cases h with
    | bare h => simpa using key _ [] h (.inl rfl) rfl
    | @extended ds x h hx =>
      have := key ds (59 :: x) h (.inr ⟨x, rfl⟩) (by
        rw [List.all_cons, Bool.and_eq_true]
        exact ⟨by decide, List.all_eq_true.2 fun b hb => (valueByte_iff b).1 (hx b hb)⟩)
      simpa using this

theorem sizeLine_bytes {l : Bytes} {n : Nat} (h : SizeLine n l) : ∀ b ∈ l, b ≠ 13 := by
  cases h with
  | bare h => exact fun b hb => ((hexNumber_bytes h).2 b hb).1
  | extended h hx =>
    intro b hb
    simp only [List.mem_append, List.mem_singleton] at hb
    rcases hb with (hb | rfl) | hb
    · exact ((hexNumber_bytes h).2 b hb).1
    · decide
    · rintro rfl; exact absurd (hx _ hb) (by decide)

/-! ### Chunks -/

theorem readChunks_size {l rest : Bytes} {k : Nat} (h : SizeLine k l) :
    (k = 0 → readChunks (l ++ crlf ++ rest) = readTrailer rest) ∧
    ∀ n, k = n + 1 → readChunks (l ++ crlf ++ rest) =
      if rest.length < n + 3 then .more
      else if (rest.drop (n + 1)).take 2 = crlf then
        match readChunks (rest.drop (n + 3)) with
        | .done b r => .done (rest.take (n + 1) ++ b) r
        | .more => .more
        | .bad => .bad
      else .bad := by
  rw [readChunks]
  have h1 := readLine_line [] l rest (sizeLine_bytes h)
  rw [List.nil_append] at h1
  split
  · rename_i h2; rw [h1] at h2; cases h2
  · rename_i l' r' h2
    rw [h1] at h2
    cases h2
    rw [(chunkSize_iff l k).2 h]
    exact ⟨fun e => by subst e; rfl, fun n e => by subst e; rfl⟩

theorem readChunks_text {b t : Bytes} (h : ChunkText b t) (more : Bytes) :
    readChunks (t ++ more) = .done b more := by
  induction h with
  | @last l hs t h1 h2 =>
    obtain ⟨ls, h3, h4⟩ := h2.lines
    rw [show l ++ [13, 10] ++ t ++ [13, 10] ++ more = l ++ crlf ++ (t ++ crlf ++ more) by simp [crlf],
      (readChunks_size h1).1 rfl]
    simp only [readTrailer, h4, h3]
    rfl
  | @chunk l c b t hc h1 _ ih =>
    obtain ⟨n, hn⟩ : ∃ n, c.length = n + 1 :=
      Nat.exists_eq_succ_of_ne_zero (by simpa using hc)
    rw [show l ++ [13, 10] ++ c ++ [13, 10] ++ t ++ more = l ++ crlf ++ (c ++ (crlf ++ (t ++ more))) by
      simp [crlf], (readChunks_size h1).2 n hn]
    have e1 : (c ++ (crlf ++ (t ++ more))).drop (n + 3) = t ++ more := by
      rw [show n + 3 = (c ++ crlf).length by simp [hn, crlf], ← List.append_assoc]
      exact List.drop_left
    have e2 : (c ++ (crlf ++ (t ++ more))).drop (n + 1) = crlf ++ (t ++ more) := by
      rw [← hn]; exact List.drop_left
    have e3 : (c ++ (crlf ++ (t ++ more))).take (n + 1) = c := by
      rw [← hn]; exact List.take_left
    rw [if_neg (by simp [crlf, hn]; omega), e2, if_pos (by simp [crlf]), e1, e3, ih]

theorem readChunks_only {bs b rest : Bytes} (h : readChunks bs = .done b rest) :
    ∃ t, bs = t ++ rest ∧ ChunkText b t := by
  fun_induction readChunks bs generalizing b rest with
  | case1 => cases h
  | case2 => cases h
  | case3 bs l r hl hs =>
    have hw := readLine_whole hl
    rw [List.nil_append] at hw
    rw [readTrailer] at h
    split at h
    · cases h
    · rename_i ls r' hr
      split at h
      · rename_i hsome
        cases h
        obtain ⟨hs', hh⟩ := Option.isSome_iff_exists.1 hsome
        have h2 := (readLines_whole hr).2
        rw [List.nil_append] at h2
        refine ⟨_, ?_, .last ((chunkSize_iff _ _).1 hs) (readHeaders_text hh)⟩
        rw [hw, h2]
        simp [crlf]
      · cases h
  | case4 => cases h
  | case5 bs l r hl n hs hlen hcr b' r' hrec ih =>
    cases h
    obtain ⟨t, h1, h2⟩ := ih hrec
    have hw := readLine_whole hl
    rw [List.nil_append] at hw
    have hc : (r.take (n + 1)).length = n + 1 := by rw [List.length_take]; omega
    refine ⟨_, ?_, .chunk (l := l) (c := r.take (n + 1)) (fun hnil => by rw [hnil] at hc; cases hc) ?_ h2⟩
    · have e1 : r.drop (n + 1) = crlf ++ r.drop (n + 3) := by
        have := List.take_append_drop 2 (r.drop (n + 1))
        rw [hcr, List.drop_drop] at this
        exact this.symm
      have e2 := List.take_append_drop (n + 1) r
      rw [e1, h1] at e2
      rw [hw]
      conv_lhs => rw [← e2]
      simp [crlf]
    · rw [hc]; exact (chunkSize_iff _ _).1 hs
  | case6 => cases h
  | case7 => cases h
  | case8 => cases h

theorem readChunks_bad {bs : Bytes} (h : readChunks bs = .bad) (more : Bytes) :
    readChunks (bs ++ more) = .bad := by
  have start : ∀ {bs l r : Bytes}, readLine [] bs = some (l, r) → readLine [] (bs ++ more) =
      some (l, r ++ more) := fun h => readLine_append more h
  fun_induction readChunks bs with
  | case1 => cases h
  | case2 bs l r hl hs =>
    rw [readChunks]
    split
    · rename_i h2; rw [start hl] at h2; cases h2
    · rename_i h2; rw [start hl] at h2; cases h2; rw [hs]
  | case3 bs l r hl hs =>
    rw [readChunks]
    split
    · rename_i h2; rw [start hl] at h2; cases h2
    · rename_i h2; rw [start hl] at h2; cases h2; rw [hs]
      dsimp only
      rw [readTrailer] at h ⊢
      split at h
      · cases h
      · rename_i ls r' hr
        rw [readLines_append more hr]
        dsimp only
        split at h
        · cases h
        · rw [if_neg ‹_›]
  | case4 => cases h
  | case5 => cases h
  | case6 => cases h
  | case7 bs l r hl n hs hlen hcr hrec ih =>
    rw [readChunks]
    split
    · rename_i h2; rw [start hl] at h2; cases h2
    · rename_i h2; rw [start hl] at h2; cases h2; rw [hs]
      dsimp only
      have hlen' : n + 3 ≤ r.length := by omega
      rw [if_neg (by rw [List.length_append]; omega),
        List.drop_append_of_le_length (by omega), List.take_append_of_le_length (by
          rw [List.length_drop]; omega), if_pos hcr, List.drop_append_of_le_length (by omega), ih hrec]
  | case8 bs l r hl n hs hlen hcr =>
    rw [readChunks]
    split
    · rename_i h2; rw [start hl] at h2; cases h2
    · rename_i h2; rw [start hl] at h2; cases h2; rw [hs]
      dsimp only
      have hlen' : n + 3 ≤ r.length := by omega
      rw [if_neg (by rw [List.length_append]; omega),
        List.drop_append_of_le_length (by omega), List.take_append_of_le_length (by
          rw [List.length_drop]; omega), if_neg hcr]

end Htrpc
