import Verif.Spec.Header
import Verif.Lemmas.Query
import Verif.Model.HeaderDe

namespace Htrpc
open Spec

/-! ### Names -/

theorem lowerByte_text {b : UInt8} (h : b.toNat < 0x80) :
    (lowerByte b).toNat < 0x80 ∧ Char.ofNat (lowerByte b).toNat = (Char.ofNat b.toNat).toLower := by
  have key : ∀ n, n < 128 → (lowerByte (UInt8.ofNat n)).toNat < 0x80 ∧
      Char.ofNat (lowerByte (UInt8.ofNat n)).toNat = (Char.ofNat (UInt8.ofNat n).toNat).toLower := by
    decide
  have := key b.toNat h
  rwa [u8_ofNat_toNat] at this

theorem lowerName_utf8 {n : Bytes} (h : ∀ b ∈ n, b.toNat < 0x80) :
    lowerName n = utf8 (nameText n) := by
  induction n with
  | nil => rfl
  | cons b n ih =>
    have hb := lowerByte_text (h b (List.mem_cons_self ..))
    have : nameText (b :: n) = (Char.ofNat b.toNat).toLower :: nameText n := rfl
    rw [this, utf8_cons, ← hb.2, utf8Char_ofByte hb.1,
      ← ih fun c hc => h c (List.mem_cons_of_mem _ hc)]
    rfl

theorem fromUtf8_lowerName {n : Bytes} (h : ∀ b ∈ n, b.toNat < 0x80) :
    fromUtf8 (lowerName n) = some (nameText n) := by
  rw [lowerName_utf8 h, fromUtf8_utf8]

theorem toLower_of_not_upper {c : Char} (hc : c.toNat < 0x80) (h : c.isUpper = false) :
    c.toLower = c := by
  have key : ∀ n, n < 128 → (Char.ofNat n).isUpper = false → (Char.ofNat n).toLower = Char.ofNat n := by
    decide
  have := key c.toNat hc (by rw [Char.ofNat_toNat]; exact h)
  rwa [Char.ofNat_toNat] at this

/-- Lower case names survive. -/
theorem nameText_utf8 {n : Str} (h : LowerName n) : nameText (utf8 n) = n := by
  induction n with
  | nil => rfl
  | cons c n ih =>
    have hc := h c (List.mem_cons_self ..)
    rw [utf8_cons, utf8Char_ascii hc.1, List.cons_append, List.nil_append]
    have : nameText (UInt8.ofNat c.toNat :: utf8 n) =
      (Char.ofNat (UInt8.ofNat c.toNat).toNat).toLower :: nameText (utf8 n) := rfl
    rw [this, u8_toNat (by omega), Char.ofNat_toNat, toLower_of_not_upper hc.1 hc.2,
      ih fun d hd => h d (List.mem_cons_of_mem _ hd)]

theorem utf8_lowerName_ascii {n : Str} (h : LowerName n) : ∀ b ∈ utf8 n, b.toNat < 0x80 := by
  intro b hb
  unfold utf8 at hb
  obtain ⟨c, hc, hb⟩ := List.mem_flatMap.1 hb
  have := h c hc
  rw [utf8Char_ascii this.1, List.mem_singleton] at hb
  rw [hb, u8_toNat (by omega)]
  exact this.1

theorem lowerByte_caseEq {a b : UInt8} (h : CaseEq a b) : lowerByte a = lowerByte b := by
  have up : ∀ a b : UInt8, 65 ≤ a.toNat → a.toNat ≤ 90 → b.toNat = a.toNat + 32 →
      lowerByte a = lowerByte b := by
    intro a b h1 h2 h3
    unfold lowerByte
    rw [if_pos ⟨h1, h2⟩, if_neg (by omega), ← h3, u8_ofNat_toNat]
  rcases h with rfl | ⟨h1, h2, h3⟩ | ⟨h1, h2, h3⟩
  · rfl
  · exact up _ _ h1 h2 h3
  · exact (up _ _ h1 h2 h3).symm

theorem lowerName_caseEq {a b : Bytes} (h : CaseEqName a b) : lowerName a = lowerName b := by
  induction h with
  | nil => rfl
  | cons h _ ih =>
    unfold lowerName at *
    rw [List.map_cons, List.map_cons, lowerByte_caseEq h, ih]

theorem lowerByte_idem (b : UInt8) : lowerByte (lowerByte b) = lowerByte b := by
  by_cases h : 65 ≤ b.toNat ∧ b.toNat ≤ 90
  · have h1 : lowerByte b = UInt8.ofNat (b.toNat + 32) := by unfold lowerByte; rw [if_pos h]
    have h2 : (lowerByte b).toNat = b.toNat + 32 := by rw [h1, u8_toNat (by omega)]
    generalize lowerByte b = c at h2 ⊢
    unfold lowerByte
    rw [if_neg (by omega)]
  · have h1 : lowerByte b = b := by unfold lowerByte; rw [if_neg h]
    rw [h1, h1]

/-! ### Serializer -/

namespace HeaderSer
variable [FloatText]

theorem ser_sentAs {v : Val} {s : Str} (h : SentAs v s) (st : HeaderSer) :
    ser v st = .ok (st.append (utf8 s)) := by
  induction h <;> rw [ser] <;> assumption

theorem ser_sent {v : Val} {s : Bytes} (h : SentHeader v s) (st : HeaderSer) :
    ser v st = .ok (st.append s) := by
  induction h with
  | sent h => exact ser_sentAs h st
  | bytes b => rw [ser]
  | unitStruct b => rw [ser]
  | some _ ih => rw [ser]; exact ih
  | newtypeStruct _ ih => rw [ser]; exact ih
  | newtypeVariant _ ih => rw [ser]; exact ih

theorem ser_omitted {v : Val} (h : Omitted v) {st : HeaderSer} (hk : st.key.isSome = true) :
    ser v st = .ok { st with key := none } := by
  induction h with
  | none => rw [ser, hk]; rfl
  | some _ ih => rw [ser]; exact ih
  | newtypeStruct _ ih => rw [ser]; exact ih
  | newtypeVariant _ ih => rw [ser]; exact ih

theorem serFields_sent {fs : List (Str × Val)} {es : List (Str × Bytes)} (h : SentHeaders fs es)
    (st : HeaderSer) (hst : st.key = none) :
    serFields fs st = .ok { st with headers := st.headers ++ headersOf es } := by
  induction h generalizing st with
  | nil => simp [serFields, headersOf]
  | @absent n v fs ps hv _ ih =>
    rw [serFields, ser_omitted hv rfl]
    simp only [Res.bind_ok]
    rw [ih _ rfl]
    congr 1
    cases st
    simp only at hst
    subst hst
    rfl
  | @present n v s fs ps hv _ ih =>
    rw [serFields, ser_sent hv]
    simp only [Res.bind_ok]
    rw [ih _ (by simp [append])]
    congr 1
    cases st
    simp only at hst
    subst hst
    simp [append, headersOf]

end HeaderSer

section
variable [FloatText]

theorem serHeaders_struct {fs : List (Str × Val)} {es : List (Str × Bytes)} (h : SentHeaders fs es)
    (hs : List Header) : serHeaders hs (.struct fs) = .ok (hs ++ headersOf es) := by
  rw [serHeaders, HeaderSer.ser]
  simp only [HeaderSer.enter, HeaderSer.new, Res.check_true, Res.bind_ok]
  rw [HeaderSer.serFields_sent h _ rfl]
  rfl

theorem Spec.PlainHeader.sent {v : Val} {b : Bytes} (h : PlainHeader v b) : SentHeader v b := by
  induction h with
  | plain h => exact .sent h.sentAs
  | bytes => exact .bytes _
  | unitStruct => exact .unitStruct _
  | some _ ih => exact .some ih
  | newtype _ ih => exact .newtypeStruct ih

theorem Spec.HeaderFields.sent {fs : List (Str × Val)} {es : List (Str × Bytes)}
    (h : HeaderFields fs es) : SentHeaders fs es := by
  induction h with
  | nil => exact .nil
  | absent hv _ ih => subst hv; exact .absent .none ih
  | present hv _ ih => exact .present (PlainHeader.sent hv) ih

end

/-! ### Deserializer -/

section
variable [LawfulFloatText]

theorem readBytes_of_plain {v : Val} {s : Str} {t : Ty}
    (h : PlainArg v s) (ht : HasTy v t) : readBytes t (utf8 s) = some v := by
  induction h generalizing t with
  | false => cases ht; rw [readBytes, fromUtf8_utf8]; rfl
  | int => cases ht with | int _ _ hf => simp [readBytes, fromUtf8_utf8, parseInt_showInt hf]
  | f32 x hx => cases ht; simp [readBytes, fromUtf8_utf8, LawfulFloatText.parse32_show64 x hx]
  | f64 x hx => cases ht; simp [readBytes, fromUtf8_utf8, LawfulFloatText.parse64_show64 x hx]
  | str => cases ht; simp [readBytes, fromUtf8_utf8]
  | newtype _ ih => cases ht with | newtypeStruct ht => simp [readBytes, ih ht]

theorem readBytes_of_plainHeader {v : Val} {b : Bytes} {t : Ty}
    (h : PlainHeader v b) (ht : HasTy v t) : readBytes t b = some v := by
  induction h generalizing t with
  | plain h => exact readBytes_of_plain h ht
  | bytes => cases ht; rfl
  | unitStruct => cases ht; simp [readBytes, fromUtf8_utf8]
  | some _ ih => cases ht with | some ht => simp [readBytes, ih ht]
  | newtype _ ih => cases ht with | newtypeStruct ht => simp [readBytes, ih ht]

end

section
variable [FloatText]

namespace HeaderDe

omit [FloatText] in
theorem scalar_eq {f : Str → Option Val} {st st' : HeaderDe} {b : Bytes}
    (h : nextBytes st = .ok (b, st')) :
    scalar f st =
      (match (fromUtf8 b).bind f with | some v => .ok (v, st') | none => .err .invalid) := by
  simp only [scalar, nextStr, h, Res.bind_ok]
  cases fromUtf8 b with
  | none => rfl
  | some s =>
    simp only [Res.ofOption_some, Res.bind_ok, Option.bind_some]
    cases f s <;> rfl

/-- Inside of a map every type reads one value. -/
theorem de_bytes {st st' : HeaderDe} {b : Bytes} (hm : st.inMap = true)
    (h : nextBytes st = .ok (b, st')) (t : Ty) :
    de t st = (match readBytes t b with | some v => .ok (v, st') | none => .err .invalid) := by
  match t with
  | .bool => rw [de, scalar_eq h]; rfl
  | .int _ => rw [de, scalar_eq h]; rfl
  | .f32 => rw [de, scalar_eq h]; rfl
  | .f64 => rw [de, scalar_eq h]; rfl
  | .char => rw [de]; rfl
  | .str =>
    rw [de, scalar_eq h, readBytes]
    cases fromUtf8 b <;> rfl
  | .bytes => rw [de]; simp only [h]; rfl
  | .option t =>
    rw [de, readBytes]
    simp only [de_bytes hm h t]
    cases readBytes t b <;> rfl
  | .unit => rw [de]; rfl
  | .unitStruct _ => rw [de, scalar_eq h]; rfl
  | .newtypeStruct t =>
    rw [de, readBytes]
    simp only [de_bytes hm h t]
    cases readBytes t b <;> rfl
  | .seq _ => rw [de]; rfl
  | .tuple _ => rw [de]; rfl
  | .tupleStruct _ => rw [de]; rfl
  | .map k v => rw [de]; simp [enterMap, hm, readBytes]
  | .struct fs => rw [de]; simp [enterMap, hm, readBytes]
  | .enum _ => rw [de]; rfl

theorem deFields_lookup (fs : List (Str × Ty)) (k : Str) :
    (deFields fs).lookup k = (fs.lookup k).map de := by
  induction fs with
  | nil => rfl
  | cons f fs ih =>
    obtain ⟨n, t⟩ := f
    rw [deFields, List.lookup_cons, List.lookup_cons]
    cases k == n <;> simp [ih]

end HeaderDe

/-- The struct visitor with a state for every list of entries still to come. -/
theorem HeaderDe.visitStruct_headers (fs : List (Str × Ty)) (hs : List Header)
    (hn : AsciiNames hs) (fuel : Nat) (hf : hs.length < fuel) (acc : List (Str × Val)) :
    visitStruct nextKey ignore (deFields fs) fuel acc ⟨true, true, hs⟩ =
      (do .ok (← Res.ofOption (gather readBytes fs acc (entries hs)), ⟨true, true, []⟩)) := by
  induction hs generalizing fuel acc with
  | nil =>
    cases fuel with
    | zero => simp at hf
    | succ fuel => simp [visitStruct, nextKey, gather, entries]
  | cons h hs ih =>
    obtain ⟨k, x⟩ := h
    have hk := hn (k, x) (List.mem_cons_self ..)
    have ih' := ih fun h hh => hn h (List.mem_cons_of_mem _ hh)
    cases fuel with
    | zero => simp at hf
    | succ fuel =>
      have hf' : hs.length < fuel := by simpa using hf
      have hkey : nextKey ⟨true, true, (k, x) :: hs⟩ =
          .ok (some (nameText k, ⟨true, false, (k, x) :: hs⟩)) := by
        simp [nextKey, nextStr, nextBytes, fromUtf8_lowerName hk]
      have hval : nextBytes ⟨true, false, (k, x) :: hs⟩ = .ok (x, ⟨true, true, hs⟩) := by
        simp [nextBytes]
      have hent : entries ((k, x) :: hs) = (nameText k, x) :: entries hs := rfl
      simp only [visitStruct, hkey, Res.bind_ok, hent, gather, deFields_lookup]
      cases hl : fs.lookup (nameText k) with
      | none =>
        simp only [Option.map_none, ignore, hval, Res.bind_ok]
        exact ih' fuel hf' acc
      | some t =>
        simp only [Option.map_some]
        cases acc.lookup (nameText k) with
        | some w => rfl
        | none =>
          simp only [de_bytes rfl hval]
          cases readBytes t x with
          | none => rfl
          | some v => simp only [Res.bind_ok]; rw [ih' fuel hf']

theorem deHeaders_struct {fs : List (Str × Ty)} (hd : DistinctNames fs) {hs : List Header}
    (hn : AsciiNames hs) :
    deHeaders (.struct fs) hs = Res.ofOption (readStruct readBytes fs (entries hs)) := by
  rw [deHeaders, HeaderDe.de]
  simp only [HeaderDe.enterMap, HeaderDe.new, Bool.not_false, Res.check_true, Res.bind_ok,
    HeaderDe.fuel]
  rw [HeaderDe.visitStruct_headers fs hs hn _ (by omega)]
  have := gather_assemble readBytes fs hd [] (entries hs)
  rw [pending_nil] at this
  unfold readStruct
  cases hg : gather readBytes fs [] (entries hs) with
  | none =>
    rw [hg] at this
    simp only [Res.ofOption_none, Res.bind_err] at this ⊢
    cases hc : collectFields (fieldValue readBytes (entries hs)) fs with
    | none => rfl
    | some vs => rw [hc] at this; cases this
  | some acc =>
    rw [hg] at this
    simp only [Res.ofOption_some, Res.bind_ok] at this ⊢
    rw [this]
    cases collectFields (fieldValue readBytes (entries hs)) fs <;> rfl

/-! ### Case -/

/-- Apply a function to the state. -/
def Res.mapSt {α σ : Type} (f : σ → σ) : Res (α × σ) → Res (α × σ)
  | .ok (a, s) => .ok (a, f s)
  | .err k => .err k
  | .panic => .panic

omit [FloatText] in
theorem visitStruct_mapSt {σ : Type} (f : σ → σ) {nextKey : σ → Res (Option (Str × σ))}
    {ignore : σ → Res σ} {decs : List (Str × Dec σ)}
    (hk : ∀ s, nextKey (f s) = (do .ok ((← nextKey s).map fun p => (p.1, f p.2))))
    (hi : ∀ s, ignore (f s) = (do .ok (f (← ignore s))))
    (hd : ∀ n d, (n, d) ∈ decs → ∀ s, d (f s) = (d s).mapSt f)
    (fuel : Nat) (acc : List (Str × Val)) (s : σ) :
    visitStruct nextKey ignore decs fuel acc (f s) =
      (visitStruct nextKey ignore decs fuel acc s).mapSt f := by
  induction fuel generalizing acc s with
  | zero => rfl
  | succ fuel ih =>
    simp only [visitStruct, hk]
    cases nextKey s with
    | err => rfl
    | panic => rfl
    | ok r =>
      cases r with
      | none => rfl
      | some r =>
        obtain ⟨k, s'⟩ := r
        simp only [Res.bind_ok, Option.map_some]
        cases hl : decs.lookup k with
        | none =>
          simp only [hi]
          cases ignore s' with
          | err => rfl
          | panic => rfl
          | ok s'' => exact ih acc s''
        | some d =>
          simp only []
          cases acc.lookup k with
          | some => rfl
          | none =>
            simp only [hd k d (mem_of_lookup hl)]
            cases d s' with
            | err => rfl
            | panic => rfl
            | ok r => exact ih _ r.2

omit [FloatText] in
theorem visitMap_mapSt {σ : Type} (f : σ → σ) {atEnd : σ → Bool} {dk dv : Dec σ}
    (he : ∀ s, atEnd (f s) = atEnd s)
    (hk : ∀ s, dk (f s) = (dk s).mapSt f) (hv : ∀ s, dv (f s) = (dv s).mapSt f)
    (fuel : Nat) (acc : List (Val × Val)) (s : σ) :
    visitMap atEnd dk dv fuel acc (f s) = (visitMap atEnd dk dv fuel acc s).mapSt f := by
  induction fuel generalizing acc s with
  | zero => rfl
  | succ fuel ih =>
    simp only [visitMap, he]
    split
    · rfl
    · simp only [hk]
      cases dk s with
      | err => rfl
      | panic => rfl
      | ok r =>
        simp only [Res.mapSt, Res.bind_ok, hv]
        cases dv r.2 with
        | err => rfl
        | panic => rfl
        | ok r => exact ih _ r.2

namespace HeaderDe

/-- The state with lower case names. -/
def lower (st : HeaderDe) : HeaderDe :=
  { st with headers := st.headers.map fun h => (lowerName h.1, h.2) }

omit [FloatText] in
theorem nextBytes_lower (st : HeaderDe) : nextBytes st.lower = (nextBytes st).mapSt lower := by
  obtain ⟨m, k, hs⟩ := st
  cases hs with
  | nil => rfl
  | cons h hs =>
    obtain ⟨n, v⟩ := h
    have hi : lowerName (lowerName n) = lowerName n := by
      unfold lowerName; rw [List.map_map]; apply List.map_congr_left
      intro b _; exact lowerByte_idem b
    cases k <;> simp [nextBytes, lower, Res.mapSt, hi]

omit [FloatText] in
theorem nextStr_lower (st : HeaderDe) : nextStr st.lower = (nextStr st).mapSt lower := by
  simp only [nextStr, nextBytes_lower]
  cases nextBytes st with
  | err => rfl
  | panic => rfl
  | ok r =>
    simp only [Res.mapSt, Res.bind_ok]
    cases fromUtf8 r.1 <;> rfl

omit [FloatText] in
theorem scalar_lower (f : Str → Option Val) (st : HeaderDe) :
    scalar f st.lower = (scalar f st).mapSt lower := by
  simp only [scalar, nextStr_lower]
  cases nextStr st with
  | err => rfl
  | panic => rfl
  | ok r =>
    simp only [Res.mapSt, Res.bind_ok]
    cases f r.1 <;> rfl

omit [FloatText] in
theorem headers_lower_nil (st : HeaderDe) : st.lower.headers = [] ↔ st.headers = [] := by
  simp [lower]

mutual
/-- Decoding only sees the lower case names. -/
theorem de_lower (t : Ty) (st : HeaderDe) : de t st.lower = (de t st).mapSt lower := by
  match t with
  | .bool => rw [de]; exact scalar_lower ..
  | .int _ => rw [de]; exact scalar_lower ..
  | .f32 => rw [de]; exact scalar_lower ..
  | .f64 => rw [de]; exact scalar_lower ..
  | .char => rw [de]; rfl
  | .str => rw [de]; exact scalar_lower ..
  | .bytes =>
    rw [de]
    simp only [nextBytes_lower]
    cases nextBytes st <;> rfl
  | .option t =>
    rw [de]
    simp only [de_lower t]
    cases de t st <;> rfl
  | .unit => rw [de]; rfl
  | .unitStruct _ => rw [de]; exact scalar_lower ..
  | .newtypeStruct t =>
    rw [de]
    simp only [de_lower t]
    cases de t st <;> rfl
  | .seq _ => rw [de]; rfl
  | .tuple _ => rw [de]; rfl
  | .tupleStruct _ => rw [de]; rfl
  | .map k v =>
    rw [de]
    obtain ⟨m, ak, hs⟩ := st
    cases m with
    | true => rfl
    | false =>
      have hfuel : HeaderDe.fuel (lower ⟨true, ak, hs⟩) = HeaderDe.fuel ⟨true, ak, hs⟩ := by
        simp [fuel, lower]
      have := visitMap_mapSt lower (atEnd := fun st : HeaderDe => decide (st.headers = []))
        (fun s => by simp [headers_lower_nil]) (de_lower k) (de_lower v)
        (HeaderDe.fuel ⟨true, ak, hs⟩) [] ⟨true, ak, hs⟩
      have he : enterMap (lower ⟨false, ak, hs⟩) = .ok (lower ⟨true, ak, hs⟩) := rfl
      have he' : enterMap (⟨false, ak, hs⟩) = .ok (⟨true, ak, hs⟩) := rfl
      simp only [he, he', Res.bind_ok, hfuel, this]
      cases visitMap _ _ _ _ _ _ <;> rfl
  | .struct fs =>
    rw [de]
    obtain ⟨m, ak, hs⟩ := st
    cases m with
    | true => rfl
    | false =>
      have hfuel : HeaderDe.fuel (lower ⟨true, ak, hs⟩) = HeaderDe.fuel ⟨true, ak, hs⟩ := by
        simp [fuel, lower]
      have hk : ∀ s : HeaderDe, nextKey s.lower =
          (do .ok ((← nextKey s).map fun p => (p.1, lower p.2))) := by
        intro s
        simp only [nextKey, headers_lower_nil, nextStr_lower]
        split
        · rfl
        · cases nextStr s <;> rfl
      have hi : ∀ s : HeaderDe, ignore s.lower = (do .ok (lower (← ignore s))) := by
        intro s
        simp only [ignore, nextBytes_lower]
        cases nextBytes s <;> rfl
      have := visitStruct_mapSt lower hk hi (deFields_lower fs)
        (HeaderDe.fuel ⟨true, ak, hs⟩) [] ⟨true, ak, hs⟩
      have he : enterMap (lower ⟨false, ak, hs⟩) = .ok (lower ⟨true, ak, hs⟩) := rfl
      have he' : enterMap (⟨false, ak, hs⟩) = .ok (⟨true, ak, hs⟩) := rfl
      simp only [he, he', Res.bind_ok, hfuel, this]
      cases visitStruct _ _ _ _ _ _ with
      | err => rfl
      | panic => rfl
      | ok r =>
        simp only [Res.mapSt, Res.bind_ok]
        cases assemble r.1 fs <;> rfl
  | .enum _ => rw [de]; rfl
theorem deFields_lower (fs : List (Str × Ty)) (n : Str) (d : Dec HeaderDe)
    (h : (n, d) ∈ deFields fs) (st : HeaderDe) : d st.lower = (d st).mapSt lower := by
  match fs with
  | [] => rw [deFields] at h; cases h
  | (m, t) :: fs =>
    rw [deFields] at h
    rcases List.mem_cons.1 h with h | h
    · cases h; exact de_lower t st
    · exact deFields_lower fs n d h st
end

end HeaderDe

theorem deHeaders_lower (t : Ty) (hs : List Header) :
    deHeaders t (hs.map fun h => (lowerName h.1, h.2)) = deHeaders t hs := by
  have := HeaderDe.de_lower t (HeaderDe.new hs)
  rw [deHeaders, deHeaders]
  rw [show HeaderDe.new (hs.map fun h => (lowerName h.1, h.2)) = (HeaderDe.new hs).lower from rfl,
    this]
  cases HeaderDe.de t (HeaderDe.new hs) <;> rfl

end

end Htrpc
