/-
Properties of HTTP headers (C19-C22, C61, C62).

A list of headers here is what the serializer hands to the HTTP library and what the HTTP library
hands to the deserializer; that it transports them unchanged is assumed.
-/
import Verif.Lemmas.Header
import Verif.Lemmas.Message
import Verif.Lemmas.ToyFloat

namespace Htrpc
open Spec

/-! ### C19: round trip -/

theorem entries_headersOf {es : List (Str × Bytes)} (h : ∀ e ∈ es, LowerName e.1) :
    entries (headersOf es) = es := by
  induction es with
  | nil => rfl
  | cons e es ih =>
    have := nameText_utf8 (h e (List.mem_cons_self ..))
    have ih := ih fun e he => h e (List.mem_cons_of_mem _ he)
    unfold entries headersOf at *
    rw [List.map_cons, List.map_cons, ih, this]

/-- Filtering headers is filtering entries. -/
theorem entries_filter (fs : List (Str × Ty)) (hs : List Header) :
    entries (hs.filter fun h => decide (Declared fs (nameText h.1))) =
      (entries hs).filter fun e => decide (Declared fs e.1) := by
  unfold entries
  rw [List.filter_map]
  rfl

section
variable [LawfulFloatText]

/-- **C19.** A header struct with lower case field names whose fields are `false`, integers, floats,
strings, byte strings, unit structs, newtypes or options of these is written as some headers behind
those already there, and is read back from every list of headers that consists of these headers and
any others with names it does not declare, in any places. -/
theorem C19_header_round_trip (fs : List (Str × Val)) (ts : List (Str × Ty))
    (es : List (Str × Bytes)) (hp : HeaderFields fs es) (ht : HasTyFields fs ts)
    (hd : DistinctNames ts) (hl : ∀ f ∈ ts, LowerName f.1) :
    ∃ own, (∀ before, serHeaders before (.struct fs) = .ok (before ++ own)) ∧
      ∀ hs, AsciiNames hs → (hs.filter fun h => decide (Declared ts (nameText h.1))) = own →
        deHeaders (.struct ts) hs = .ok (.struct fs) := by
  have hle : ∀ e ∈ es, LowerName e.1 := by
    intro e he
    have := FieldEntries_name hp (List.mem_map.2 ⟨e, he, rfl⟩)
    unfold Declared at this
    rw [HasTyFields_names ht] at this
    obtain ⟨f, hf, hf'⟩ := List.mem_map.1 this
    exact hf' ▸ hl f hf
  refine ⟨headersOf es, fun before => serHeaders_struct (Spec.HeaderFields.sent hp) before, ?_⟩
  intro hs hn ho
  rw [deHeaders_struct hd hn, ← readStruct_filter, ← entries_filter, ho, entries_headersOf hle,
    readStruct_of_fields hp ht hd fun v x t hx hv => readBytes_of_plainHeader hx hv]
  rfl

end

section
variable [FloatText]

/-! ### C20: case -/

/-- **C20.** Changing the case of header names changes nothing, for every type. -/
theorem C20_case_insensitive (t : Ty) (hs hs' : List Header) (h : Recased hs hs') :
    deHeaders t hs = deHeaders t hs' := by
  have : hs.map (fun h => (lowerName h.1, h.2)) = hs'.map (fun h => (lowerName h.1, h.2)) := by
    induction h with
    | nil => rfl
    | cons hc _ ih => rw [List.map_cons, List.map_cons, ih, lowerName_caseEq hc]
  rw [← deHeaders_lower t hs, this, deHeaders_lower]

/-! ### C21: unknown headers -/

/-- **C21.** Headers that the struct does not declare are ignored wherever they are. -/
theorem C21_unknown_ignored (ts : List (Str × Ty)) (hd : DistinctNames ts) (hs hs' : List Header)
    (hn : AsciiNames hs')
    (h : hs = hs'.filter fun h => decide (Declared ts (nameText h.1))) :
    deHeaders (.struct ts) hs' = deHeaders (.struct ts) hs := by
  have hn' : AsciiNames hs := by
    intro x hx
    rw [h] at hx
    exact hn x (List.mem_filter.1 hx).1
  rw [deHeaders_struct hd hn, deHeaders_struct hd hn', h, entries_filter, readStruct_filter]

/-! ### C61, C62: order and repetition -/

/-- **C61.** The order of headers is irrelevant. -/
theorem C61_order_irrelevant (ts : List (Str × Ty)) (hd : DistinctNames ts) (hs hs' : List Header)
    (hn : AsciiNames hs) (hp : hs.Perm hs') :
    deHeaders (.struct ts) hs = deHeaders (.struct ts) hs' := by
  have hn' : AsciiNames hs' := fun h hh => hn h (hp.symm.subset hh)
  rw [deHeaders_struct hd hn, deHeaders_struct hd hn']
  congr 1
  exact readStruct_perm (hp.map _) _

/-- **C62.** A declared header that occurs twice, in whatever case, is rejected as `Invalid`. -/
theorem C62_duplicate_rejected (ts : List (Str × Ty)) (hd : DistinctNames ts)
    (pre mid post : List Header) (m n x y : Bytes)
    (hn : AsciiNames (pre ++ (m, x) :: mid ++ (n, y) :: post)) (hc : CaseEqName m n)
    (hm : Declared ts (nameText m)) :
    deHeaders (.struct ts) (pre ++ (m, x) :: mid ++ (n, y) :: post) = .err .invalid := by
  have hmn : nameText n = nameText m := by
    have h1 := lowerName_utf8 (hn (m, x) (by simp))
    have h2 := lowerName_utf8 (hn (n, y) (by simp))
    rw [lowerName_caseEq hc, h2] at h1
    exact utf8_injective h1
  rw [deHeaders_struct hd hn, readStruct_dup hm]
  · rfl
  · simp [entries, List.filter_append, hmn]
    omega

/-! ### C22: types without header field -/

omit [FloatText] in
theorem ignoreHeaders_ok {hs : List Header} (h : hs ≠ []) : ignoreHeaders hs = .ok () := by
  cases hs with
  | nil => exact absurd rfl h
  | cons x hs => rfl

/-- **C22** (requests): a request type without `header` field is decoded regardless of the
headers, provided that there is one. Missing: messages without any header, see
`C22_no_headers_rejected`. -/
theorem C22_request_headers_partial (entry : EntryPoint) (t : Ty) (ht : noHeader t)
    (target : Target) (hs hs' : List Header) (h : hs ≠ []) (h' : hs' ≠ []) :
    deRequest entry t target hs = deRequest entry t target hs' := by
  unfold deRequest
  match t with
  | .newtypeStruct t =>
    rw [ReqDe.de, ReqDe.de]
    have := C22_request_headers_partial entry t (by simpa [noHeader] using ht) target hs hs' h h'
    unfold deRequest at this
    rw [this]
  | .struct fs =>
    have hl : fs.lookup "header".toList = none :=
      lookup_none_iff.2 (by simpa only [noHeader] using ht)
    simp only [reqDe_struct, readPart, hl, ignoreHeaders_ok h, ignoreHeaders_ok h']
  | .map _ _ => simp [noHeader] at ht
  | .bool => rfl
  | .int _ => rfl
  | .f32 => rfl
  | .f64 => rfl
  | .char => rfl
  | .str => rfl
  | .bytes => rfl
  | .option _ => rfl
  | .unit => rfl
  | .unitStruct _ => rfl
  | .seq _ => rfl
  | .tuple _ => rfl
  | .tupleStruct _ => rfl
  | .enum _ => rfl

mutual
theorem respDe_headers (code : Nat) (t : Ty) (ht : noHeader t) (hs hs' : List Header)
    (h : hs ≠ []) (h' : hs' ≠ []) (p : RespPhase) (hp : p = .init ∨ p = .status) :
    RespDe.de ⟨code, hs⟩ t p = RespDe.de ⟨code, hs'⟩ t p := by
  match t with
  | .newtypeStruct t =>
    rw [RespDe.de, RespDe.de,
      respDe_headers code t (by simpa [noHeader] using ht) hs hs' h h' p hp]
  | .struct fs =>
    have hl : fs.lookup "header".toList = none :=
      lookup_none_iff.2 (by simpa only [noHeader] using ht)
    rw [RespDe.de, RespDe.de]
    rcases hp with rfl | rfl
    · simp only [respDe_struct, readPart, hl, ignoreHeaders_ok h, ignoreHeaders_ok h']
    · simp only [respDe_variant, readPart, hl, ignoreHeaders_ok h, ignoreHeaders_ok h']
  | .map _ _ => simp [noHeader] at ht
  | .enum vs =>
    rw [RespDe.de, RespDe.de]
    simp only [respDe_variants code vs (by simpa [noHeader] using ht) hs hs' h h']
  | .bool => simp only [RespDe.de]
  | .int _ => simp only [RespDe.de]
  | .f32 => simp only [RespDe.de]
  | .f64 => simp only [RespDe.de]
  | .char => simp only [RespDe.de]
  | .str => simp only [RespDe.de]
  | .bytes => simp only [RespDe.de]
  | .option _ => simp only [RespDe.de]
  | .unit => simp only [RespDe.de]
  | .unitStruct _ => simp only [RespDe.de]
  | .seq _ => simp only [RespDe.de]
  | .tuple _ => simp only [RespDe.de]
  | .tupleStruct _ => simp only [RespDe.de]
theorem respDe_variants (code : Nat) (vs : List (Str × VTy)) (ht : noHeaderAll vs)
    (hs hs' : List Header) (h : hs ≠ []) (h' : hs' ≠ []) (name : Str) :
    RespDe.deVariant ⟨code, hs⟩ name vs = RespDe.deVariant ⟨code, hs'⟩ name vs := by
  match vs with
  | [] => rw [RespDe.deVariant, RespDe.deVariant]
  | (n, vt) :: vs =>
    rw [noHeaderAll] at ht
    rw [RespDe.deVariant, RespDe.deVariant, respDe_variants code vs ht.2 hs hs' h h' name,
      respDe_content code vt ht.1 hs hs' h h' name]
theorem respDe_content (code : Nat) (vt : VTy) (ht : noHeaderV vt)
    (hs hs' : List Header) (h : hs ≠ []) (h' : hs' ≠ []) (name : Str) :
    RespDe.deContent ⟨code, hs⟩ name vt = RespDe.deContent ⟨code, hs'⟩ name vt := by
  match vt with
  | .unit => rw [RespDe.deContent, RespDe.deContent]
  | .newtype t =>
    rw [RespDe.deContent, RespDe.deContent,
      respDe_headers code t (by simpa [noHeaderV] using ht) hs hs' h h' .status (.inr rfl)]
  | .tuple _ => rw [RespDe.deContent, RespDe.deContent]
  | .struct fs =>
    have hl : fs.lookup "header".toList = none :=
      lookup_none_iff.2 (by simpa only [noHeaderV] using ht)
    rw [RespDe.deContent, RespDe.deContent]
    simp only [respDe_variant, readPart, hl, ignoreHeaders_ok h, ignoreHeaders_ok h']
end

/-- **C22** (responses): the same for response types. -/
theorem C22_response_headers_partial (t : Ty) (ht : noHeader t) (code : Nat)
    (hs hs' : List Header) (h : hs ≠ []) (h' : hs' ≠ []) :
    deResponse t code hs = deResponse t code hs' :=
  respDe_headers code t ht hs hs' h h' .init (.inl rfl)

/-- **C22**: the full statement is false.  Whatever struct without `header` field is expected, a
message without headers is never accepted. -/
theorem C22_no_headers_rejected (fs : List (Str × Ty)) (h : ¬ Declared fs "header".toList) :
    (∀ entry target v, deRequest entry (.struct fs) target [] ≠ .ok v) ∧
    (∀ code v, deResponse (.struct fs) code [] ≠ .ok v) := by
  have hl : fs.lookup "header".toList = none := lookup_none_iff.2 h
  constructor
  · intro entry target v
    unfold deRequest
    rw [reqDe_struct]
    intro hv
    rw [Res.bind_eq_ok] at hv
    obtain ⟨a, -, hv⟩ := hv
    rw [Res.bind_eq_ok] at hv
    obtain ⟨b, -, hv⟩ := hv
    rw [Res.bind_eq_ok] at hv
    obtain ⟨c, hc, -⟩ := hv
    simp only [readPart, hl] at hc
    cases hc
  · intro code v
    unfold deResponse
    rw [RespDe.de, respDe_struct]
    intro hv
    rw [Res.bind_eq_ok] at hv
    obtain ⟨a, hv, -⟩ := hv
    rw [Res.bind_eq_ok] at hv
    obtain ⟨b, -, hv⟩ := hv
    rw [Res.bind_eq_ok] at hv
    obtain ⟨c, hc, -⟩ := hv
    simp only [readPart, hl] at hc
    cases hc

end

/-! ### Examples -/

section Examples

/-- A header struct: `etag: "é"`, `x-count: Some(7)`, `x-none: None`, `x-raw: [0xff]`. -/
def exHeader : List (Str × Val) :=
  [("etag".toList, .str "é".toList), ("x-count".toList, .some (.int .u16 7)),
    ("x-none".toList, .none), ("x-raw".toList, .newtypeStruct (.bytes [0xff]))]

def exHeaderTy : List (Str × Ty) :=
  [("etag".toList, .str), ("x-count".toList, .option (.int .u16)),
    ("x-none".toList, .option .str), ("x-raw".toList, .newtypeStruct .bytes)]

theorem exHeader_ty : HasTyFields exHeader exHeaderTy :=
  .cons (.str _) (.cons (.some (.int _ _ (by decide)))
    (.cons (.none _) (.cons (.newtypeStruct (.bytes _)) .nil)))

theorem exHeader_fields [FloatText] : HeaderFields exHeader
    [("etag".toList, utf8 "é".toList), ("x-count".toList, utf8 (showInt 7)), ("x-raw".toList, [0xff])] :=
  .present (.plain (.str _)) (.present (.some (.plain (.int _ _)))
    (.absent rfl (.present (.newtype (.bytes _)) .nil)))

theorem exHeader_names : DistinctNames exHeaderTy := by unfold DistinctNames; decide

/-- `C19` with a `Host` header before and a `Content-Length` after the headers of the struct. -/
example : letI := toyFloat
    ∃ own, serHeaders [] (.struct exHeader) = .ok own ∧ own.length = 3 ∧
      deHeaders (.struct exHeaderTy) ((utf8 "Host".toList, utf8 "a".toList) :: own ++
        [(utf8 "Content-Length".toList, utf8 "0".toList)]) = .ok (.struct exHeader) := by
  let := toyFloat
  obtain ⟨own, h1, h2⟩ := C19_header_round_trip exHeader exHeaderTy _ exHeader_fields exHeader_ty
    exHeader_names (by decide)
  have h3 := h1 []
  rw [serHeaders_struct exHeader_fields.sent []] at h3
  simp only [List.nil_append, Res.ok.injEq] at h3
  subst h3
  refine ⟨_, h1 [], rfl, h2 _ ?_ ?_⟩
  · unfold AsciiNames; decide
  · decide

/-- `C20`. -/
example : letI := toyFloat
    deHeaders (.struct exHeaderTy) [(utf8 "ETag".toList, [65])] =
      deHeaders (.struct exHeaderTy) [(utf8 "eTAG".toList, [65])] := by
  let := toyFloat
  refine C20_case_insensitive _ _ _ (.cons ?_ .nil)
  have : utf8 "ETag".toList = [69, 84, 97, 103] ∧ utf8 "eTAG".toList = [101, 84, 65, 71] := by decide
  rw [this.1, this.2]
  exact .cons (by unfold CaseEq; decide) (.cons (by unfold CaseEq; decide)
    (.cons (by unfold CaseEq; decide) (.cons (by unfold CaseEq; decide) .nil)))

/-- `C21`: a `Date` header in the middle. -/
example : letI := toyFloat
    deHeaders (.struct exHeaderTy)
      [(utf8 "etag".toList, [65]), (utf8 "Date".toList, [66]), (utf8 "X-Raw".toList, [67])] =
    deHeaders (.struct exHeaderTy) [(utf8 "etag".toList, [65]), (utf8 "X-Raw".toList, [67])] :=
  letI := toyFloat
  C21_unknown_ignored _ exHeader_names _ _ (by unfold AsciiNames; decide) (by decide)

/-- `C61`. -/
example : letI := toyFloat
    deHeaders (.struct exHeaderTy) [(utf8 "etag".toList, [65]), (utf8 "x-raw".toList, [66])] =
    deHeaders (.struct exHeaderTy) [(utf8 "x-raw".toList, [66]), (utf8 "etag".toList, [65])] :=
  letI := toyFloat
  C61_order_irrelevant _ exHeader_names _ _ (by unfold AsciiNames; decide) (by decide)

/-- `C62`. -/
example : letI := toyFloat
    deHeaders (.struct exHeaderTy) [([101, 84, 65, 71], [65]), ([101, 84, 65, 103], [66])] =
      .err .invalid :=
  letI := toyFloat
  C62_duplicate_rejected _ exHeader_names [] [] [] [101, 84, 65, 71] [101, 84, 65, 103] [65] [66]
    (by unfold AsciiNames; decide)
    (.cons (.inl rfl) (.cons (.inl rfl) (.cons (.inl rfl) (.cons (by unfold CaseEq; decide) .nil))))
    (by decide)

/-- `C22`: a response enum with the variants `Ok` and `NotFound {}`. -/
example : noHeader (.enum [("Ok".toList, .unit), ("NotFound".toList, .struct [])]) := by
  simp [noHeader, noHeaderAll, noHeaderV, Declared]

end Examples

end Htrpc
