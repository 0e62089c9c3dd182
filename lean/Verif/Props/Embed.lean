/-
Properties of embedded values (C56, C57).
-/
import Verif.Spec.Embed
import Verif.Props.Query
import Verif.Props.Header
import Verif.Props.Request
import Verif.Lemmas.ToyFloat

set_option linter.unusedSectionVars false

namespace Htrpc
open Spec

section
variable {T : Type} [LawfulFloatText]

/-- What the serializers see of JSON fields. -/
theorem Spec.JsonFields.sound {β : Type} {present : Val → β → Prop} {cs : Codecs T}
    {fs : List (Str × Item T)} {ts : List (Str × ItemTy)} (hcs : JsonRecovers cs)
    (hstr : ∀ s, ∃ x, present (.str s) x)
    (h : JsonFields (fun v => ∃ x, present v x) cs fs ts) :
    ∃ vs es, Item.toVals cs fs = .ok vs ∧ FieldEntries present (· = Val.none) vs es ∧
      HasTyFields vs (ItemTy.raws ts) ∧ ItemTy.finishAll cs ts vs = .ok fs := by
  induction h with
  | nil => exact ⟨[], [], rfl, .nil, .nil, rfl⟩
  | @plain n v t fs ts hv ht h ih =>
    obtain ⟨vs, es, h1, h2, h3, h4⟩ := ih
    have hto : Item.toVals cs ((n, .plain v) :: fs) = .ok ((n, v) :: vs) := by
      rw [Item.toVals, h1]; rfl
    have hfin : ItemTy.finishAll cs ((n, .plain t) :: ts) ((n, v) :: vs) =
        .ok ((n, .plain v) :: fs) := by
      rw [ItemTy.finishAll, h4]; rfl
    rcases hv with ⟨x, hx⟩ | hv
    · exact ⟨_, _, hto, .present hx h2, .cons ht h3, hfin⟩
    · exact ⟨_, _, hto, .absent hv h2, .cons ht h3, hfin⟩
  | @json n p x s fs ts hs h ih =>
    obtain ⟨vs, es, h1, h2, h3, h4⟩ := ih
    obtain ⟨y, hy⟩ := hstr s
    refine ⟨(n, .str s) :: vs, _, ?_, .present hy h2, .cons (.str s) h3, ?_⟩
    · rw [Item.toVals, h1, Item.toVal, hs]; rfl
    · rw [ItemTy.finishAll, h4, ItemTy.finish, hcs p x s hs]; rfl

/-- **C56** in queries. -/
theorem C56_json_in_query (cs : Codecs T) (hcs : JsonRecovers cs) (fs : List (Str × Item T))
    (ts : List (Str × ItemTy)) (h : JsonFields (fun v => ∃ s, PlainOpt v s) cs fs ts)
    (hd : DistinctNames ts) :
    ∃ vs q, Item.toVals cs fs = .ok vs ∧ serQuery (.struct vs) = .ok q ∧
      deItems cs ts (fun t => deQuery t (some q)) = .ok fs := by
  obtain ⟨vs, es, h1, h2, h3, h4⟩ := h.sound hcs fun s => ⟨s, .plain (.str s)⟩
  have hd' : DistinctNames (ItemTy.raws ts) := by
    have hn : (ItemTy.raws ts).map Prod.fst = ts.map Prod.fst := by simp [ItemTy.raws]
    rw [DistinctNames, hn]; exact hd
  obtain ⟨q, h5, h6⟩ := C12_query_round_trip_partial vs _ es h2 h3 hd'
  refine ⟨vs, q, h1, h5, ?_⟩
  rw [deItems, h6]
  exact h4

/-- **C56** in headers, among any others. -/
theorem C56_json_in_header (cs : Codecs T) (hcs : JsonRecovers cs) (fs : List (Str × Item T))
    (ts : List (Str × ItemTy)) (h : JsonFields (fun v => ∃ b, PlainHeader v b) cs fs ts)
    (hd : DistinctNames ts) (hl : ∀ f ∈ ts, LowerName f.1) :
    ∃ vs own, Item.toVals cs fs = .ok vs ∧
      (∀ before, serHeaders before (.struct vs) = .ok (before ++ own)) ∧
      ∀ hs, AsciiNames hs → (hs.filter fun h => decide (Declared ts (nameText h.1))) = own →
        deItems cs ts (fun t => deHeaders t hs) = .ok fs := by
  obtain ⟨vs, es, h1, h2, h3, h4⟩ := h.sound hcs fun s => ⟨_, .plain (.str s)⟩
  have hn : (ItemTy.raws ts).map Prod.fst = ts.map Prod.fst := by simp [ItemTy.raws]
  have hd' : DistinctNames (ItemTy.raws ts) := by
    rw [DistinctNames, hn]; exact hd
  have hl' : ∀ f ∈ ItemTy.raws ts, LowerName f.1 := by
    intro f hf
    obtain ⟨g, hg, rfl⟩ := List.mem_map.1 hf
    exact hl g hg
  obtain ⟨own, h5, h6⟩ := C19_header_round_trip vs _ es h2 h3 hd' hl'
  refine ⟨vs, own, h1, h5, fun hs ha hf => ?_⟩
  rw [deItems, h6 hs ha]
  · exact h4
  · simpa only [Declared, hn] using hf

/-- **C56** in a whole request: the parts of a request with JSON fields in its query and header are
in the class for which `C27_request_end_to_end` is stated, and the fields are made of what it
delivers. -/
theorem C56_json_in_request (cs : Codecs T) (hcs : JsonRecovers cs)
    (qs hs : List (Str × Item T)) (qts hts : List (Str × ItemTy))
    (hq : JsonFields (fun v => ∃ s, PlainOpt v s) cs qs qts) (hqd : DistinctNames qts)
    (hh : JsonFields (fun v => ∃ b, PlainHeader v b) cs hs hts) (hhd : DistinctNames hts)
    (hl : ∀ f ∈ hts, LowerName f.1) (hc : ¬ Declared hts "content-length".toList) :
    ∃ qvs hvs, Item.toVals cs qs = .ok qvs ∧ Item.toVals cs hs = .ok hvs ∧
      QueryPart (some (.struct qvs)) (some (.struct (ItemTy.raws qts))) ∧
      HeaderPart (some (.struct hvs)) (some (.struct (ItemTy.raws hts))) ∧
      ItemTy.finishAll cs qts qvs = .ok qs ∧ ItemTy.finishAll cs hts hvs = .ok hs := by
  have hn : ∀ ts : List (Str × ItemTy), (ItemTy.raws ts).map Prod.fst = ts.map Prod.fst := by
    simp [ItemTy.raws]
  obtain ⟨qvs, qes, h1, h2, h3, h4⟩ := hq.sound hcs fun s => ⟨s, .plain (.str s)⟩
  obtain ⟨hvs, hes, h5, h6, h7, h8⟩ := hh.sound hcs fun s => ⟨_, .plain (.str s)⟩
  refine ⟨qvs, hvs, h1, h5, .struct h2 h3 ?_, .struct h6 h7 ?_ ?_ ?_, h4, h8⟩
  · rw [DistinctNames, hn]; exact hqd
  · rw [DistinctNames, hn]; exact hhd
  · intro f hf
    obtain ⟨g, hg, rfl⟩ := List.mem_map.1 hf
    exact hl g hg
  · rw [Declared, hn]; exact hc

end

section
variable {T : Type} [FloatText]

/-! ### C57 -/

theorem toVals_msgpack {cs : Codecs T} {fs : List (Str × Item T)} {vs : List (Str × Val)}
    (h : Item.toVals cs fs = .ok vs) {n : Str} {x : T} (hm : (n, Item.msgpack x) ∈ fs) :
    ∃ bs, (n, Val.seq bs) ∈ vs := by
  induction fs generalizing vs with
  | nil => cases hm
  | cons f fs ih =>
    obtain ⟨m, i⟩ := f
    rw [Item.toVals] at h
    obtain ⟨v, h1, h⟩ := Res.bind_eq_ok.1 h
    obtain ⟨vs', h2, h⟩ := Res.bind_eq_ok.1 h
    cases h
    rcases List.mem_cons.1 hm with he | hm
    · cases he
      rw [Item.toVal] at h1
      obtain ⟨b, -, h1⟩ := Res.bind_eq_ok.1 h1
      cases h1
      exact ⟨_, List.mem_cons_self⟩
    · obtain ⟨bs, hbs⟩ := ih h2 hm
      exact ⟨bs, List.mem_cons_of_mem _ hbs⟩

theorem querySer_seq {fs : List (Str × Val)} {n : Str} {bs : List Val} (h : (n, Val.seq bs) ∈ fs)
    (st st' : QuerySer) : QuerySer.serFields fs st ≠ .ok st' := by
  induction fs generalizing st with
  | nil => cases h
  | cons f fs ih =>
    obtain ⟨m, v⟩ := f
    intro hok
    rw [QuerySer.serFields] at hok
    obtain ⟨st1, h1, hok⟩ := Res.bind_eq_ok.1 hok
    rcases List.mem_cons.1 h with he | h
    · cases he; rw [QuerySer.ser] at h1; cases h1
    · exact ih h _ hok

theorem headerSer_seq {fs : List (Str × Val)} {n : Str} {bs : List Val} (h : (n, Val.seq bs) ∈ fs)
    (st st' : HeaderSer) : HeaderSer.serFields fs st ≠ .ok st' := by
  induction fs generalizing st with
  | nil => cases h
  | cons f fs ih =>
    obtain ⟨m, v⟩ := f
    intro hok
    rw [HeaderSer.serFields] at hok
    obtain ⟨st1, h1, hok⟩ := Res.bind_eq_ok.1 hok
    rcases List.mem_cons.1 h with he | h
    · cases he; rw [HeaderSer.ser] at h1; cases h1
    · exact ih h _ hok

theorem pathSer_seq {vs : List Val} {bs : List Val} (h : Val.seq bs ∈ vs)
    (st st' : PathSer) : PathSer.serAll vs st ≠ .ok st' := by
  induction vs generalizing st with
  | nil => cases h
  | cons v vs ih =>
    intro hok
    rw [PathSer.serAll] at hok
    obtain ⟨st1, h1, hok⟩ := Res.bind_eq_ok.1 hok
    rcases List.mem_cons.1 h with he | h
    · cases he; rw [PathSer.ser] at h1; cases h1
    · exact ih h _ hok

/-- **C57.** No query or header with a field embedded by `htrpc::msgpack` is ever sent: the
serializers reject it as `Invalid`. -/
theorem C57_msgpack_rejected (cs : Codecs T) (fs : List (Str × Item T)) (n : Str) (x : T)
    (hm : (n, Item.msgpack x) ∈ fs) (vs : List (Str × Val)) (h : Item.toVals cs fs = .ok vs) :
    serQuery (.struct vs) = .err .invalid ∧
      ∀ before, serHeaders before (.struct vs) = .err .invalid := by
  obtain ⟨bs, hbs⟩ := toVals_msgpack h hm
  refine ⟨?_, fun before => ?_⟩
  · rcases (serQuery_sat (.struct vs)).ok_or_invalid with ⟨q, hq⟩ | hq
    · rw [serQuery, QuerySer.ser] at hq
      obtain ⟨st, h1, -⟩ := Res.bind_eq_ok.1 hq
      obtain ⟨st1, -, h2⟩ := Res.bind_eq_ok.1 h1
      exact absurd h2 (querySer_seq hbs _ _)
    · exact hq
  · rcases (serHeaders_sat before (.struct vs)).ok_or_invalid with ⟨q, hq⟩ | hq
    · rw [serHeaders, HeaderSer.ser] at hq
      obtain ⟨st, h1, -⟩ := Res.bind_eq_ok.1 hq
      obtain ⟨st1, -, h2⟩ := Res.bind_eq_ok.1 h1
      exact absurd h2 (headerSer_seq hbs _ _)
    · exact hq

/-- **C57** for paths: the argument may be the only one or one of several. -/
theorem C57_msgpack_rejected_in_path (cs : Codecs T) (x : T) (v : Val)
    (h : Item.toVal cs (.msgpack x) = .ok v) (e : EntryPoint) (path : Str) (before after : List Val) :
    serPath e path (.newtypeStruct v) = .err .invalid ∧
    serPath e path (.tuple (before ++ v :: after)) = .err .invalid ∧
    serPath e path (.tupleStruct (before ++ v :: after)) = .err .invalid := by
  rw [Item.toVal] at h
  obtain ⟨b, -, h⟩ := Res.bind_eq_ok.1 h
  cases h
  refine ⟨rfl, ?_, ?_⟩
  · rcases (serPath_sat e path (.tuple (before ++ .seq (b.map byteVal) :: after))).ok_or_invalid with ⟨q, hq⟩ | hq
    · rw [serPath, PathSer.ser] at hq
      obtain ⟨st, h1, -⟩ := Res.bind_eq_ok.1 hq
      obtain ⟨st1, -, h2⟩ := Res.bind_eq_ok.1 h1
      obtain ⟨st2, h3, -⟩ := Res.bind_eq_ok.1 h2
      exact absurd h3 (pathSer_seq (List.mem_append_right before List.mem_cons_self) _ _)
    · exact hq
  · rcases (serPath_sat e path (.tupleStruct (before ++ .seq (b.map byteVal) :: after))).ok_or_invalid with ⟨q, hq⟩ | hq
    · rw [serPath, PathSer.ser] at hq
      obtain ⟨st, h1, -⟩ := Res.bind_eq_ok.1 hq
      obtain ⟨st1, -, h2⟩ := Res.bind_eq_ok.1 h1
      obtain ⟨st2, h3, -⟩ := Res.bind_eq_ok.1 h2
      exact absurd h3 (pathSer_seq (List.mem_append_right before List.mem_cons_self) _ _)
    · exact hq

/-- Whatever a struct visitor has collected was decoded by the decoder of the field. -/
theorem visitStruct_mem {σ : Type} {nextKey : σ → Res (Option (Str × σ))} {ignore : σ → Res σ}
    {fields : List (Str × Dec σ)} {fuel : Nat} {acc acc' : List (Str × Val)} {st st' : σ}
    (h : visitStruct nextKey ignore fields fuel acc st = .ok (acc', st')) {n : Str} {v : Val}
    (hm : (n, v) ∈ acc') (ha : (n, v) ∉ acc) :
    ∃ dec s s', fields.lookup n = some dec ∧ dec s = .ok (v, s') := by
  induction fuel generalizing acc st with
  | zero => cases h
  | succ fuel ih =>
    rw [visitStruct] at h
    obtain ⟨k, h1, h⟩ := Res.bind_eq_ok.1 h
    cases k with
    | none => cases h; exact absurd hm ha
    | some k =>
      obtain ⟨key, st1⟩ := k
      simp only at h
      cases hl : fields.lookup key with
      | none =>
        simp only [hl] at h
        obtain ⟨st2, -, h⟩ := Res.bind_eq_ok.1 h
        exact ih h ha
      | some dec =>
        simp only [hl] at h
        cases hacc : acc.lookup key with
        | some w => simp only [hacc] at h; cases h
        | none =>
          simp only [hacc] at h
          obtain ⟨⟨w, st2⟩, h2, h⟩ := Res.bind_eq_ok.1 h
          by_cases he : (n, v) = (key, w)
          · cases he
            exact ⟨dec, st1, st2, hl, h2⟩
          · refine ih h ?_
            simp only [List.mem_append, List.mem_singleton, not_or]
            exact ⟨ha, he⟩

theorem assemble_mem {acc : List (Str × Val)} {ts : List (Str × Ty)} {vs : List (Str × Val)}
    (h : assemble acc ts = .ok vs) {n : Str} {t : Ty} (hm : (n, t) ∈ ts) :
    (∃ v, acc.lookup n = some v) ∨ ∃ v, missingField t = .ok v := by
  induction ts generalizing vs with
  | nil => cases hm
  | cons f ts ih =>
    obtain ⟨m, u⟩ := f
    rw [assemble] at h
    rcases List.mem_cons.1 hm with he | hm
    · cases he
      cases ha : acc.lookup n with
      | some v => exact .inl ⟨v, rfl⟩
      | none =>
        simp only [ha] at h
        obtain ⟨v, h1, -⟩ := Res.bind_eq_ok.1 h
        exact .inr ⟨v, h1⟩
    · cases ha : acc.lookup m with
      | some v =>
        simp only [ha] at h
        obtain ⟨v, -, h⟩ := Res.bind_eq_ok.1 h
        obtain ⟨vs', h1, -⟩ := Res.bind_eq_ok.1 h
        exact ih h1 hm
      | none =>
        simp only [ha] at h
        obtain ⟨v, -, h⟩ := Res.bind_eq_ok.1 h
        obtain ⟨vs', h1, -⟩ := Res.bind_eq_ok.1 h
        exact ih h1 hm

theorem lookup_deFields_seq {ts : List (Str × Ty)} {n : Str} {t : Ty} (hm : (n, Ty.seq t) ∈ ts)
    (hd : DistinctNames ts) :
    (QueryDe.deFields ts).lookup n = some (QueryDe.de (.seq t)) ∧
      (HeaderDe.deFields ts).lookup n = some (HeaderDe.de (.seq t)) := by
  induction ts with
  | nil => cases hm
  | cons f ts ih =>
    obtain ⟨m, u⟩ := f
    rw [QueryDe.deFields, HeaderDe.deFields]
    rcases List.mem_cons.1 hm with he | hm'
    · cases he
      simp [List.lookup]
    · clear hm
      rename _ ∈ ts => hm
      have hne : n ≠ m := by
        rintro rfl
        rw [DistinctNames, List.map_cons, List.nodup_cons] at hd
        exact hd.1 (List.mem_map.2 ⟨_, hm, rfl⟩)
      have hb : (n == m) = false := by simpa using hne
      rw [DistinctNames, List.map_cons, List.nodup_cons] at hd
      simp only [List.lookup, hb]
      exact ih hm hd.2

/-- **C57**, receiving: no query and no headers are ever understood as a struct with such a field,
even if they were not made by this crate. -/
theorem C57_msgpack_never_received (cs : Codecs T) (ts : List (Str × ItemTy)) (n : Str)
    (hm : (n, ItemTy.msgpack) ∈ ts) (hd : DistinctNames ts) (is : List (Str × Item T)) :
    (∀ q, deItems cs ts (fun t => deQuery t q) ≠ .ok is) ∧
      ∀ hs, deItems cs ts (fun t => deHeaders t hs) ≠ .ok is := by
  have hn : (ItemTy.raws ts).map Prod.fst = ts.map Prod.fst := by simp [ItemTy.raws]
  have hd' : DistinctNames (ItemTy.raws ts) := by rw [DistinctNames, hn]; exact hd
  have hm' : (n, Ty.seq (.int .u8)) ∈ ItemTy.raws ts := List.mem_map.2 ⟨_, hm, rfl⟩
  obtain ⟨hlq, hlh⟩ := lookup_deFields_seq hm' hd'
  have key : ∀ {σ : Type} {fields : List (Str × Dec σ)} {nextKey : σ → Res (Option (Str × σ))}
      {ignore : σ → Res σ} {fuel : Nat} {st st' : σ} {acc vs : List (Str × Val)} {dec : Dec σ},
      fields.lookup n = some dec → (∀ s, dec s = .err .invalid) →
      visitStruct nextKey ignore fields fuel [] st = .ok (acc, st') →
      assemble acc (ItemTy.raws ts) ≠ .ok vs := by
    intro σ fields nextKey ignore fuel st st' acc vs dec hl hdec hv ha
    rcases assemble_mem ha hm' with ⟨v, hacc⟩ | ⟨v, hmiss⟩
    · have hmem : (n, v) ∈ acc := by
        clear hv ha
        induction acc with
        | nil => cases hacc
        | cons a acc ih =>
          obtain ⟨k, w⟩ := a
          rw [List.lookup] at hacc
          split at hacc
          · rename_i hk
            cases hacc
            rw [beq_iff_eq] at hk
            subst hk
            exact List.mem_cons_self
          · exact List.mem_cons_of_mem _ (ih hacc)
      obtain ⟨dec', s, s', h1, h2⟩ := visitStruct_mem hv hmem (by simp)
      rw [hl] at h1
      cases h1
      rw [hdec] at h2
      cases h2
    · cases hmiss
  constructor
  · intro q h
    rw [deItems] at h
    obtain ⟨v, h1, -⟩ := Res.bind_eq_ok.1 h
    rw [deQuery, QueryDe.de] at h1
    obtain ⟨⟨w, st⟩, h1, -⟩ := Res.bind_eq_ok.1 h1
    obtain ⟨st1, -, h1⟩ := Res.bind_eq_ok.1 h1
    obtain ⟨⟨acc, st2⟩, h2, h1⟩ := Res.bind_eq_ok.1 h1
    obtain ⟨vs, h3, -⟩ := Res.bind_eq_ok.1 h1
    exact key hlq (fun s => by rw [QueryDe.de]) h2 h3
  · intro hs h
    rw [deItems] at h
    obtain ⟨v, h1, -⟩ := Res.bind_eq_ok.1 h
    rw [deHeaders, HeaderDe.de] at h1
    obtain ⟨⟨w, st⟩, h1, -⟩ := Res.bind_eq_ok.1 h1
    obtain ⟨st1, -, h1⟩ := Res.bind_eq_ok.1 h1
    obtain ⟨⟨acc, st2⟩, h2, h1⟩ := Res.bind_eq_ok.1 h1
    obtain ⟨vs, h3, -⟩ := Res.bind_eq_ok.1 h1
    exact key hlh (fun s => by rw [HeaderDe.de]) h2 h3

end

/-! ### Examples -/

section Examples

/-- Numbers in decimal as JSON, and as that many bytes in MessagePack. -/
def exCodecs : Codecs Nat where
  toJson p n := some (if p then ' ' :: showNat n else showNat n)
  ofJson s := parseDigits (s.dropWhile (· == ' '))
  toMsgpack n := some (List.replicate n 1)
  ofMsgpack b := some b.length

theorem showNat_not_blank (n : Nat) : (showNat n).dropWhile (· == ' ') = showNat n := by
  cases h : showNat n with
  | nil => rfl
  | cons c s =>
    have hc : c.isDigit = true := showNat_digits (n := n) (by rw [h]; simp)
    rw [List.dropWhile_cons_of_neg]
    rintro hb
    rw [beq_iff_eq] at hb
    subst hb
    revert hc
    decide

theorem exCodecs_recovers : JsonRecovers exCodecs := by
  intro p n s h
  cases p <;> cases h
  · show parseDigits ((showNat n).dropWhile _) = _
    rw [showNat_not_blank, parseDigits_showNat]
  · show parseDigits ((' ' :: showNat n).dropWhile _) = _
    rw [List.dropWhile_cons_of_pos (by decide), showNat_not_blank, parseDigits_showNat]

/-- `C56`: an ordinary field, two JSON fields. -/
example : letI := toyFloat
    JsonFields (fun v => ∃ s, PlainOpt v s) exCodecs
      [("a".toList, .plain (.str "é".toList)), ("b".toList, .json false 17),
        ("c".toList, .json true 4)]
      [("a".toList, .plain .str), ("b".toList, .json false), ("c".toList, .json true)] ∧
    JsonFields (fun v => ∃ b, PlainHeader v b) exCodecs
      [("a".toList, .plain (.bytes [255])), ("b".toList, .json false 17)]
      [("a".toList, .plain .bytes), ("b".toList, .json false)] := by
  let := toyFloat
  exact ⟨.plain (.inl ⟨_, .plain (.str _)⟩) (.str _) (.json rfl (.json rfl .nil)),
    .plain (.inl ⟨_, .bytes _⟩) (.bytes _) (.json rfl .nil)⟩

/-- `C57`: a struct with a field embedded by `htrpc::msgpack` next to others. -/
example : Item.toVals exCodecs [("a".toList, .plain (.str [])), ("b".toList, .msgpack 2)] =
    .ok [("a".toList, .str []), ("b".toList, .seq [.int .u8 1, .int .u8 1])] := rfl

end Examples

end Htrpc
