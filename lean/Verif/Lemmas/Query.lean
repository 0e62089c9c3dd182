import Verif.Lemmas.Struct
import Verif.Lemmas.Path
import Verif.Lemmas.Text
import Verif.Model.QuerySer
import Verif.Model.QueryDe

namespace Htrpc
open Spec

/-! ### Form encoding -/

/-- Bytes kept by the form encoding, up to the exchange of blank and `+`. -/
def keepForm' (b : UInt8) : Bool := keepForm b || decide (b = 0x20)

theorem keepForm_lt {b : UInt8} (h : keepForm b = true) : b.toNat < 0x80 := by
  simp only [keepForm, Bool.and_eq_true, decide_eq_true_eq] at h
  exact h.1

/-- Characters written by the form encoding. -/
def FormChar (c : Char) : Prop :=
  c.isAlphanum = true ∨ c = '*' ∨ c = '-' ∨ c = '.' ∨ c = '_' ∨ c = '+' ∨ c = '%'

theorem keepForm_formChar {b : UInt8} (h : keepForm b = true) : FormChar (Char.ofNat b.toNat) := by
  simp only [keepForm, Bool.and_eq_true, decide_eq_true_eq, Bool.or_eq_true, beq_iff_eq] at h
  unfold FormChar
  rcases h.2 with (((h | h) | h) | h) | h <;> simp [h]

theorem goodKeep_form' : GoodKeep keepForm' := by
  intro b h
  simp only [keepForm', Bool.or_eq_true, decide_eq_true_eq] at h
  rcases h with h | h
  · refine ⟨keepForm_lt h, fun e => ?_⟩
    have : b = 0x25 := by rw [← u8_ofNat_toNat b, e]; rfl
    subst this
    revert h; decide
  · subst h; decide

theorem mem_formEncode {s : Str} {c : Char} (h : c ∈ formEncode s) : FormChar c := by
  unfold formEncode at h
  obtain ⟨b, -, hb⟩ := List.mem_flatMap.1 h
  have hl := u8_lt b
  split at hb
  · rename_i hk
    simp only [List.mem_singleton] at hb
    subst hb; exact keepForm_formChar hk
  · split at hb
    · simp only [List.mem_singleton] at hb
      subst hb; simp [FormChar]
    · simp only [pctByte, List.mem_cons, List.not_mem_nil, or_false] at hb
      rcases hb with rfl | rfl | rfl
      · simp [FormChar]
      · exact .inl (hexDigit_alnum (by omega))
      · exact .inl (hexDigit_alnum (by omega))

theorem alnum_ne {c d : Char} (h : c.isAlphanum = true) (hd : d.isAlphanum = false) : c ≠ d := by
  rintro rfl; rw [h] at hd; cases hd

theorem formChar_ne_amp {c : Char} (h : FormChar c) : c ≠ '&' := by
  rcases h with h | h | h | h | h | h | h
  · exact alnum_ne h (by decide)
  all_goals subst h; decide

theorem formChar_ne_eq {c : Char} (h : FormChar c) : c ≠ '=' := by
  rcases h with h | h | h | h | h | h | h
  · exact alnum_ne h (by decide)
  all_goals subst h; decide

theorem alnum_queryChar {c : Char} (h : c.isAlphanum = true) : QueryChar c := by
  have hr := alnum_range h
  have key : ∀ n, n < 128 → (Char.ofNat n).isAlphanum = true →
      ((Char.ofNat n).toNat < 0x80 ∧ 0x21 ≤ (Char.ofNat n).toNat ∧ Char.ofNat n ≠ '#' ∧
        keepQuery (UInt8.ofNat (Char.ofNat n).toNat) = true ∧ isTabNl (Char.ofNat n) = false) := by
    decide
  have := key c.toNat (by omega) (by rw [Char.ofNat_toNat]; exact h)
  rw [Char.ofNat_toNat] at this
  exact this

theorem formChar_queryChar {c : Char} (h : FormChar c) : QueryChar c := by
  rcases h with h | h | h | h | h | h | h
  · exact alnum_queryChar h
  all_goals subst h; unfold QueryChar; decide

theorem formEncode_map (s : Str) :
    (formEncode s).map (fun c => if c = '+' then ' ' else c) = pctEncode keepForm' (utf8 s) := by
  unfold formEncode
  induction utf8 s with
  | nil => rfl
  | cons b bs ih =>
    rw [List.flatMap_cons, List.map_append, ih, pctEncode_cons]
    congr 1
    have hl := u8_lt b
    by_cases hk : keepForm b = true
    · have : Char.ofNat b.toNat ≠ '+' := by
        have := keepForm_formChar hk
        intro e
        have hb : b = 0x2B := by
          have := congrArg Char.toNat e
          rw [charOfByte_toNat] at this
          rw [← u8_ofNat_toNat b, this]; rfl
        subst hb
        revert hk; decide
      simp [hk, keepForm', this]
    · by_cases hb : b = 0x20
      · subst hb; decide
      · have h1 := hexDigit_ne_plus (n := b.toNat / 16) (by omega)
        have h2 := hexDigit_ne_plus (n := b.toNat % 16) (by omega)
        simp [hk, hb, keepForm', pctByte, h1, h2]

/-- Decoding inverts encoding. -/
theorem formDecode_formEncode (s : Str) : formDecode (formEncode s) = s := by
  unfold formDecode
  rw [formEncode_map]
  have := pctDecode_pctEncode goodKeep_form' (utf8 s) []
  rw [List.append_nil] at this
  rw [this, pctDecode, List.append_nil, utf8Lossy_utf8]

theorem cut_sep {sep : Char} {a b : Str} (h : ∀ c ∈ a, c ≠ sep) :
    cut sep (a ++ sep :: b) = (a, b) := by
  induction a with
  | nil => simp [cut]
  | cons c a ih =>
    simp [cut, h c (List.mem_cons_self ..), ih fun d hd => h d (List.mem_cons_of_mem _ hd)]

/-- The text of one pair. -/
def piece (p : Str × Str) : Str := formEncode p.1 ++ '=' :: formEncode p.2

/-- The text of a list of pairs. -/
def formText (ps : List (Str × Str)) : Str := ps.foldl (fun out p => appendPair out p.1 p.2) []

theorem piece_ne_nil (p : Str × Str) : piece p ≠ [] := by simp [piece]

theorem appendPair_ne_nil (out k v : Str) : appendPair out k v ≠ [] := by simp [appendPair]

theorem foldl_appendPair {out : Str} (h : out ≠ []) (ps : List (Str × Str)) :
    ps.foldl (fun out p => appendPair out p.1 p.2) out = out ++ ps.flatMap fun p => '&' :: piece p := by
  induction ps generalizing out with
  | nil => simp
  | cons p ps ih =>
    rw [List.foldl_cons, ih (appendPair_ne_nil _ _ _), List.flatMap_cons]
    simp [appendPair, h, piece]

theorem formText_cons (p : Str × Str) (ps : List (Str × Str)) :
    formText (p :: ps) = piece p ++ ps.flatMap fun p => '&' :: piece p := by
  rw [formText, List.foldl_cons, foldl_appendPair (appendPair_ne_nil _ _ _)]
  simp [appendPair, piece]

theorem mem_piece {p : Str × Str} {c : Char} (h : c ∈ piece p) : FormChar c ∨ c = '=' := by
  rcases List.mem_append.1 h with h | h
  · exact .inl (mem_formEncode h)
  · rcases List.mem_cons.1 h with h | h
    · exact .inr h
    · exact .inl (mem_formEncode h)

theorem piece_no_amp {p : Str × Str} {c : Char} (h : c ∈ piece p) : (c == '&') = false := by
  rcases mem_piece h with h | rfl
  · simpa using formChar_ne_amp h
  · rfl

/-- What was written as pairs is read as the same pairs. -/
theorem formParse_formText (ps : List (Str × Str)) : formParse (formText ps) = ps := by
  cases ps with
  | nil => rfl
  | cons p ps =>
    have hmap : (fun q : Str × Str => '&' :: piece q) = (fun t => '&' :: t) ∘ piece := rfl
    have hsplit : splitBy (· == '&') (formText (p :: ps)) = (p :: ps).map piece := by
      rw [formText_cons, show (ps.flatMap fun p => '&' :: piece p) =
        (ps.map piece).flatMap (fun t => '&' :: t) by rw [List.flatMap_map]]
      rw [splitBy_join (by rfl) (fun c hc => piece_no_amp hc)
        (fun t ht c hc => by
          obtain ⟨q, -, rfl⟩ := List.mem_map.1 ht
          exact piece_no_amp hc)]
      rfl
    unfold formParse
    rw [hsplit]
    have hf : ((p :: ps).map piece).filter (fun x => decide (x ≠ [])) = (p :: ps).map piece := by
      apply List.filter_eq_self.2
      intro t ht
      obtain ⟨q, -, rfl⟩ := List.mem_map.1 ht
      simp [piece_ne_nil]
    rw [hf, List.map_map]
    conv_rhs => rw [← List.map_id (p :: ps)]
    apply List.map_congr_left
    intro q _
    simp only [Function.comp, piece, id]
    rw [cut_sep fun c hc => formChar_ne_eq (mem_formEncode hc)]
    simp only [formDecode_formEncode]

theorem formText_queryChar {ps : List (Str × Str)} {c : Char} (h : c ∈ formText ps) :
    QueryChar c := by
  have hp : ∀ p : Str × Str, c ∈ piece p → QueryChar c := by
    intro p h
    rcases mem_piece h with h | rfl
    · exact formChar_queryChar h
    · unfold QueryChar; decide
  cases ps with
  | nil => cases h
  | cons p ps =>
    rw [formText_cons] at h
    rcases List.mem_append.1 h with h | h
    · exact hp _ h
    · obtain ⟨q, -, hq⟩ := List.mem_flatMap.1 h
      rcases List.mem_cons.1 hq with rfl | hq
      · unfold QueryChar; decide
      · exact hp _ hq

/-! ### Serializer -/

namespace QuerySer
variable [FloatText]

theorem ser_sentAs {v : Val} {s : Str} (h : SentAs v s) (st : QuerySer) :
    ser v st = .ok (st.append s) := by
  induction h <;> rw [ser] <;> assumption

theorem ser_sent {v : Val} {s : Str} (h : SentOpt v s) (st : QuerySer) :
    ser v st = .ok (st.append s) := by
  induction h with
  | sent h => exact ser_sentAs h st
  | some _ ih => rw [ser]; exact ih
  | newtypeStruct _ ih => rw [ser]; exact ih
  | newtypeVariant _ ih => rw [ser]; exact ih

theorem ser_omitted {v : Val} (h : Omitted v) {st : QuerySer} (hk : st.key.isSome = true) :
    ser v st = .ok { st with key := none } := by
  induction h with
  | none => rw [ser, hk]; rfl
  | some _ ih => rw [ser]; exact ih
  | newtypeStruct _ ih => rw [ser]; exact ih
  | newtypeVariant _ ih => rw [ser]; exact ih

theorem serFields_sent {fs : List (Str × Val)} {ps : List (Str × Str)} (h : SentFields fs ps)
    (st : QuerySer) (hst : st.key = none) :
    serFields fs st =
      .ok { st with out := ps.foldl (fun out p => appendPair out p.1 p.2) st.out } := by
  induction h generalizing st with
  | nil => rfl
  | @absent n v fs ps hv _ ih =>
    rw [serFields, ser_omitted hv rfl]
    simp only [Res.bind_ok]
    rw [ih _ rfl]
    congr 1
    cases st
    simp only at hst
    subst hst
    rfl
  | @present n v s fs ps hv _ ih =>
    rw [serFields, ser_sent hv]
    simp only [Res.bind_ok]
    rw [ih _ (by simp [append])]
    congr 1
    cases st
    simp only at hst
    subst hst
    simp [append]

end QuerySer

section
variable [FloatText]

theorem serQuery_struct {fs : List (Str × Val)} {ps : List (Str × Str)} (h : SentFields fs ps) :
    serQuery (.struct fs) = .ok (formText ps) := by
  rw [serQuery, QuerySer.ser]
  simp only [QuerySer.enter, QuerySer.new, Res.check_true, Res.bind_ok]
  rw [QuerySer.serFields_sent h _ rfl]
  rfl

theorem Spec.PlainArg.sentAs {v : Val} {s : Str} (h : PlainArg v s) : SentAs v s := by
  induction h with
  | false => exact SentAs.bool Bool.false
  | int => exact .int ..
  | f32 => exact .f32 ..
  | f64 => exact .f64 ..
  | str => exact .str ..
  | newtype _ ih => exact .newtypeStruct ih

theorem Spec.PlainOpt.sent {v : Val} {s : Str} (h : PlainOpt v s) : SentOpt v s := by
  induction h with
  | plain h => exact .sent h.sentAs
  | some _ ih => exact .some ih
  | newtype _ ih => exact .newtypeStruct ih

theorem Spec.FieldTexts.sent {fs : List (Str × Val)} {ps : List (Str × Str)} (h : FieldTexts fs ps) :
    SentFields fs ps := by
  induction h with
  | nil => exact .nil
  | absent hv _ ih => subst hv; exact .absent .none ih
  | present hv _ ih => exact .present hv.sent ih

end

/-! ### Deserializer -/

section
variable [LawfulFloatText]

theorem readText_of_plain {v : Val} {s : Str} {t : Ty}
    (h : PlainArg v s) (ht : HasTy v t) : readText t s = some v := by
  induction h generalizing t with
  | false => cases ht; rfl
  | int => cases ht with | int _ _ hf => simp [readText, parseInt_showInt hf]
  | f32 x hx => cases ht; simp [readText, LawfulFloatText.parse32_show64 x hx]
  | f64 x hx => cases ht; simp [readText, LawfulFloatText.parse64_show64 x hx]
  | str => cases ht; rfl
  | newtype _ ih => cases ht with | newtypeStruct ht => simp [readText, ih ht]

theorem readText_of_plainOpt {v : Val} {s : Str} {t : Ty}
    (h : PlainOpt v s) (ht : HasTy v t) : readText t s = some v := by
  induction h generalizing t with
  | plain h => exact readText_of_plain h ht
  | some _ ih => cases ht with | some ht => simp [readText, ih ht]
  | newtype _ ih => cases ht with | newtypeStruct ht => simp [readText, ih ht]

end

section
variable [FloatText]

namespace QueryDe

omit [FloatText] in
theorem scalar_eq {f : Str → Option Val} {st st' : QueryDe} {s : Str}
    (h : nextStr st = .ok (s, st')) :
    scalar f st = (match f s with | some v => .ok (v, st') | none => .err .invalid) := by
  rw [scalar, h]
  simp only [Res.bind_ok]
  cases f s <;> rfl

/-- Inside of a map every type reads one text. -/
theorem de_text {st st' : QueryDe} {s : Str} (hm : st.inMap = true)
    (h : nextStr st = .ok (s, st')) (t : Ty) :
    de t st = (match readText t s with | some v => .ok (v, st') | none => .err .invalid) := by
  match t with
  | .bool => rw [de, scalar_eq h]; rfl
  | .int _ => rw [de, scalar_eq h]; rfl
  | .f32 => rw [de, scalar_eq h]; rfl
  | .f64 => rw [de, scalar_eq h]; rfl
  | .char => rw [de]; rfl
  | .str => rw [de, scalar_eq h]; rfl
  | .bytes => rw [de, scalar_eq h]; rfl
  | .option t =>
    rw [de, readText]
    simp only [de_text hm h t]
    cases readText t s <;> rfl
  | .unit => rw [de, scalar_eq h]; rfl
  | .unitStruct _ => rw [de, scalar_eq h]; rfl
  | .newtypeStruct t =>
    rw [de, readText]
    simp only [de_text hm h t]
    cases readText t s <;> rfl
  | .seq _ => rw [de]; rfl
  | .tuple _ => rw [de]; rfl
  | .tupleStruct _ => rw [de]; rfl
  | .map k v => rw [de]; simp [enterMap, hm, readText]
  | .struct fs => rw [de]; simp [enterMap, hm, readText]
  | .enum _ => rw [de]; rfl

theorem deFields_lookup (fs : List (Str × Ty)) (k : Str) :
    (deFields fs).lookup k = (fs.lookup k).map de := by
  induction fs with
  | nil => rfl
  | cons f fs ih =>
    obtain ⟨n, t⟩ := f
    rw [deFields, List.lookup_cons, List.lookup_cons]
    cases k == n <;> simp [ih]

/-- The texts not yet taken. -/
def texts (st : QueryDe) : List Str := st.phase.toList ++ st.pairs.flatMap fun p => [p.1, p.2]

end QueryDe

/-- The visitor loop on the texts of the query: an unknown name is dropped without its value. -/
def gatherTexts (fs : List (Str × Ty)) : List (Str × Val) → List Str → Option (List (Str × Val))
  | acc, k :: x :: rest =>
    match fs.lookup k with
    | none => gatherTexts fs acc (x :: rest)
    | some t =>
      match acc.lookup k with
      | some _ => none
      | none =>
        match readText t x with
        | some v => gatherTexts fs (acc ++ [(k, v)]) rest
        | none => none
  | acc, _ => some acc

namespace QueryDe

omit [FloatText] in
theorem nextStr_texts {st : QueryDe} {s : Str} {rest : List Str} (h : st.texts = s :: rest) :
    ∃ st', nextStr st = .ok (s, st') ∧ st'.texts = rest ∧ st'.inMap = st.inMap := by
  obtain ⟨m, ph, ps⟩ := st
  cases ph with
  | some x =>
    simp [texts] at h
    exact ⟨⟨m, none, ps⟩, by simp [nextStr, h.1], by simp [texts, h.2], rfl⟩
  | none =>
    cases ps with
    | nil => simp [texts] at h
    | cons p ps =>
      simp [texts] at h
      exact ⟨⟨m, some p.2, ps⟩, by simp [nextStr, h.1], by simp [texts, h.2], rfl⟩

omit [FloatText] in
theorem nextKey_texts {st : QueryDe} {k x : Str} {rest : List Str} (h : st.texts = k :: x :: rest) :
    ∃ st', nextKey st = .ok (some (k, st')) ∧ st'.texts = x :: rest ∧ st'.inMap = st.inMap := by
  obtain ⟨st', h1, h2, h3⟩ := nextStr_texts h
  refine ⟨st', ?_, h2, h3⟩
  have : st.pairs ≠ [] := by
    intro hp
    obtain ⟨m, ph, ps⟩ := st
    cases ph <;> simp_all [texts]
  rw [nextKey, if_neg this, h1]
  rfl

omit [FloatText] in
theorem nextKey_end {st : QueryDe} (h : st.texts.length < 2) : nextKey st = .ok none := by
  have : st.pairs = [] := by
    obtain ⟨m, ph, ps⟩ := st
    cases ps with
    | nil => rfl
    | cons p ps => cases ph <;> simp [texts] at h <;> omega
  rw [nextKey, if_pos this]

theorem visitStruct_texts (fs : List (Str × Ty)) (fuel : Nat) (acc : List (Str × Val))
    (st : QueryDe) (hm : st.inMap = true) (hf : st.texts.length < fuel) :
    ∃ st', visitStruct nextKey ignore (deFields fs) fuel acc st =
      (do .ok (← Res.ofOption (gatherTexts fs acc st.texts), st')) := by
  induction fuel generalizing acc st with
  | zero => simp at hf
  | succ fuel ih =>
    match ht : st.texts with
    | [] =>
      refine ⟨st, ?_⟩
      simp [visitStruct, nextKey_end (st := st) (by simp [ht]), gatherTexts]
    | [x] =>
      refine ⟨st, ?_⟩
      simp [visitStruct, nextKey_end (st := st) (by simp [ht]), gatherTexts]
    | k :: x :: rest =>
      obtain ⟨st1, h1, h2, h3⟩ := nextKey_texts ht
      obtain ⟨st2, g1, g2, g3⟩ := nextStr_texts h2
      rw [ht] at hf
      simp only [List.length_cons] at hf
      simp only [visitStruct, h1, Res.bind_ok, gatherTexts, deFields_lookup]
      cases hl : fs.lookup k with
      | none =>
        simp only [Option.map_none, ignore, Res.bind_ok]
        rw [← h2]
        exact ih acc st1 (h3.trans hm) (by rw [h2]; simp; omega)
      | some t =>
        simp only [Option.map_some]
        cases acc.lookup k with
        | some w => exact ⟨st, rfl⟩
        | none =>
          simp only [de_text (h3.trans hm) g1]
          cases readText t x with
          | none => exact ⟨st, rfl⟩
          | some v =>
            simp only [Res.bind_ok]
            rw [← g2]
            exact ih _ st2 (g3.trans (h3.trans hm)) (by rw [g2]; omega)

end QueryDe

theorem deQuery_texts (fs : List (Str × Ty)) (q : Option Str) :
    deQuery (.struct fs) q =
      (do
        let acc ← Res.ofOption (gatherTexts fs []
          ((formParse (q.getD [])).flatMap fun p => [p.1, p.2]))
        let vs ← assemble acc fs
        .ok (.struct vs)) := by
  rw [deQuery, QueryDe.de]
  simp only [QueryDe.enterMap, QueryDe.new, Bool.not_false, Res.check_true, Res.bind_ok]
  have hlen : ∀ ps : List (Str × Str), (ps.flatMap fun p => [p.1, p.2]).length = 2 * ps.length := by
    intro ps; induction ps with
    | nil => rfl
    | cons p ps ih => simp [ih]; omega
  generalize formParse (q.getD []) = ps
  obtain ⟨st', h⟩ := QueryDe.visitStruct_texts fs (2 * ps.length + 2) [] ⟨true, none, ps⟩ rfl
    (by simp [QueryDe.texts, hlen])
  simp only [QueryDe.fuel, h, QueryDe.texts, Option.toList_none, List.nil_append]
  cases gatherTexts fs [] (ps.flatMap fun p => [p.1, p.2]) with
  | none => rfl
  | some acc =>
    simp only [Res.ofOption_some, Res.bind_ok]
    cases assemble acc fs <;> rfl

theorem gatherTexts_tame (fs : List (Str × Ty)) (acc : List (Str × Val))
    (ps : List (Str × Str)) (h : Tame fs ps) :
    gatherTexts fs acc (ps.flatMap fun p => [p.1, p.2]) = gather readText fs acc ps := by
  induction ps generalizing acc with
  | nil => rfl
  | cons p ps ih =>
    have ht : Tame fs ps := by
      intro e he
      refine h e ?_
      cases ps with
      | nil => cases he
      | cons a ps => rw [List.dropLast_cons_cons]; exact List.mem_cons_of_mem _ he
    have ih' := fun acc => ih acc ht
    obtain ⟨k, x⟩ := p
    simp only [List.flatMap_cons, List.cons_append, List.nil_append, gatherTexts, gather, ih']
    cases hl : fs.lookup k with
    | none =>
      simp only []
      rw [← ih']
      cases ps with
      | nil => rfl
      | cons q ps =>
        have hx : ¬ Declared fs x := by
          rcases h (k, x) (by rw [List.dropLast_cons_cons]; exact List.mem_cons_self ..) with h | h
          · exact absurd h (lookup_none_iff.1 hl)
          · exact h
        simp only [List.flatMap_cons, List.cons_append]
        rw [gatherTexts, lookup_none_iff.2 hx]
    | some t => rfl

/-- Decoding of a tame parameter list. -/
theorem deQuery_tame {fs : List (Str × Ty)} (hd : DistinctNames fs) {q : Option Str}
    (h : Tame fs (formParse (q.getD []))) :
    deQuery (.struct fs) q = Res.ofOption (readStruct readText fs (formParse (q.getD []))) := by
  rw [deQuery_texts, gatherTexts_tame fs [] _ h]
  generalize formParse (q.getD []) = ps
  have := gather_assemble readText fs hd [] ps
  rw [pending_nil] at this
  unfold readStruct
  cases hg : gather readText fs [] ps with
  | none =>
    rw [hg] at this
    simp only [Res.ofOption_none, Res.bind_err] at this ⊢
    cases hc : collectFields (fieldValue readText ps) fs with
    | none => rfl
    | some vs => rw [hc] at this; cases this
  | some acc =>
    rw [hg] at this
    simp only [Res.ofOption_some, Res.bind_ok] at this ⊢
    rw [this]
    cases collectFields (fieldValue readText ps) fs <;> rfl

/-- The loop over the texts is the loop over the effective parameters. -/
theorem gatherTexts_effective (fs : List (Str × Ty)) : ∀ (l : List Str) (acc : List (Str × Val)),
    gatherTexts fs acc l = gather readText fs acc (effective fs l)
  | [], acc => by rw [effective, gatherTexts, gather] <;> simp
  | [k], acc => by rw [effective, gatherTexts, gather] <;> simp
  | k :: x :: rest, acc => by
    rw [gatherTexts, effective]
    cases hl : fs.lookup k with
    | none =>
      rw [if_neg (lookup_none_iff.1 hl)]
      exact gatherTexts_effective fs (x :: rest) acc
    | some t =>
      have hd : Declared fs k := by
        by_contra h
        rw [lookup_none_iff.2 h] at hl
        cases hl
      rw [if_pos hd, gather]
      simp only [hl, gatherTexts_effective fs rest]
      cases List.lookup k acc with
      | some _ => rfl
      | none => cases readText t x <;> rfl
termination_by l => l.length

/-- Decoding of any parameter list. -/
theorem deQuery_effective {fs : List (Str × Ty)} (hd : DistinctNames fs) (q : Option Str) :
    deQuery (.struct fs) q =
      Res.ofOption (readStruct readText fs (effective fs (row (formParse (q.getD []))))) := by
  rw [deQuery_texts, gatherTexts_effective]
  rw [row]
  generalize effective fs _ = ps
  have := gather_assemble readText fs hd [] ps
  rw [pending_nil] at this
  unfold readStruct
  cases hg : gather readText fs [] ps with
  | none =>
    rw [hg] at this
    simp only [Res.ofOption_none, Res.bind_err] at this ⊢
    cases hc : collectFields (fieldValue readText ps) fs with
    | none => rfl
    | some vs => rw [hc] at this; cases this
  | some acc =>
    rw [hg] at this
    simp only [Res.ofOption_some, Res.bind_ok] at this ⊢
    rw [this]
    cases collectFields (fieldValue readText ps) fs <;> rfl

omit [FloatText] in
theorem Spec.Tame.of_declared {fs : List (Str × Ty)} {ps : List (Str × Str)}
    (h : ∀ p ∈ ps, Declared fs p.1) : Tame fs ps :=
  fun p hp => .inl (h p (List.dropLast_subset _ hp))

/-! ### Maps -/

theorem QuerySer.serMap_texts {kvs : List (Val × Val)} {ps : List (Str × Str)} (h : MapTexts kvs ps)
    (st : QuerySer) (hst : st.key = none) :
    serMap kvs st =
      .ok { st with out := ps.foldl (fun out p => appendPair out p.1 p.2) st.out } := by
  induction h generalizing st with
  | nil => rfl
  | cons hk hv _ ih =>
    rw [serMap, ser_sent hk.sent]
    simp only [Res.bind_ok]
    rw [ser_sent hv.sent]
    simp only [Res.bind_ok]
    obtain ⟨f, k, o⟩ := st
    simp only at hst
    subst hst
    rw [ih _ (by simp [append])]
    simp [append]

theorem serQuery_map {kvs : List (Val × Val)} {ps : List (Str × Str)} (h : MapTexts kvs ps) :
    serQuery (.map kvs) = .ok (formText ps) := by
  rw [serQuery, QuerySer.ser]
  simp only [QuerySer.enter, QuerySer.new, Res.check_true, Res.bind_ok]
  rw [QuerySer.serMap_texts h _ rfl]
  rfl

end

section
variable [LawfulFloatText]

omit [LawfulFloatText] in
theorem mapInsert_new {k v : Val} {m : List (Val × Val)} (h : k ∉ m.map Prod.fst) :
    mapInsert k v m = m ++ [(k, v)] := by
  induction m with
  | nil => rfl
  | cons e m ih =>
    simp only [List.map_cons, List.mem_cons, not_or] at h
    rw [mapInsert, if_neg (Ne.symm h.1), ih h.2]
    rfl

theorem QueryDe.visitMap_texts {kvs : List (Val × Val)} {ps : List (Str × Str)}
    (h : MapTexts kvs ps) {k v : Ty} (ht : HasTyMap kvs k v) (acc : List (Val × Val))
    (hd : DistinctKeys (acc ++ kvs)) (fuel : Nat) (hf : ps.length < fuel) :
    visitMap (fun st : QueryDe => decide (st.pairs = [])) (de k) (de v) fuel acc ⟨true, none, ps⟩ =
      .ok (acc ++ kvs, ⟨true, none, []⟩) := by
  induction h generalizing acc fuel with
  | nil =>
    cases fuel with
    | zero => simp at hf
    | succ fuel => simp [visitMap]
  | @cons key val a b kvs ps hk hv _ ih =>
    cases fuel with
    | zero => simp at hf
    | succ fuel =>
      cases ht with
      | cons t1 t2 t3 =>
        simp only [visitMap]
        rw [if_neg (by simp), de_text (s := a) (st' := ⟨true, some b, ps⟩) rfl rfl,
          readText_of_plainOpt hk t1]
        simp only [Res.bind_ok]
        rw [de_text (s := b) (st' := ⟨true, none, ps⟩) rfl rfl, readText_of_plainOpt hv t2]
        simp only [Res.bind_ok]
        have hn : key ∉ acc.map Prod.fst := by
          unfold DistinctKeys at hd
          rw [List.map_append, List.nodup_append] at hd
          intro hk
          exact hd.2.2 key hk key (by simp) rfl
        rw [mapInsert_new hn, ih t3 _ (by simpa using hd) _ (by simpa using hf)]
        simp

theorem deQuery_map {kvs : List (Val × Val)} {ps : List (Str × Str)} (h : MapTexts kvs ps)
    {k v : Ty} (ht : HasTyMap kvs k v) (hd : DistinctKeys kvs) {q : Option Str}
    (hq : formParse (q.getD []) = ps) :
    deQuery (.map k v) q = .ok (.map kvs) := by
  rw [deQuery, QueryDe.de, hq]
  simp only [QueryDe.enterMap, QueryDe.new, Bool.not_false, Res.check_true, Res.bind_ok,
    QueryDe.fuel]
  rw [QueryDe.visitMap_texts h ht [] hd _ (by omega)]
  rfl

end

end Htrpc
