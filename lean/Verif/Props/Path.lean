/-
URL paths: C06 to C11.
-/
import Verif.Lemmas.Shape
import Verif.Lemmas.PathCodec
import Verif.Lemmas.Segment
import Verif.Lemmas.ToyFloat
import Verif.Props.Routing
import Verif.Model.ReqSer

namespace Htrpc
open Spec

/-! ### Instantiated entry points -/

theorem instantiate_length (e : EntryPoint) (ss : List Str) :
    (instantiate e ss).length = e.length := by
  induction e generalizing ss with
  | nil => rfl
  | cons s e ih =>
    cases s with
    | val c => simp [instantiate, ih]
    | var => cases ss <;> simp [instantiate, ih]

theorem instantiate_const {e : EntryPoint} {ss : List Str} {i : Nat} {c : Str}
    (h : e[i]? = some (.val c)) : (instantiate e ss)[i]? = some c := by
  induction e generalizing ss i with
  | nil => simp at h
  | cons s e ih =>
    cases i with
    | zero => simp at h; subst h; simp [instantiate]
    | succ i =>
      simp at h
      cases s with
      | val c => simpa [instantiate] using ih h
      | var => cases ss <;> simpa [instantiate] using ih h

theorem instantiate_arg {pre suf : EntryPoint} {ss : List Str} {a : Str}
    (h : ss[varCount pre]? = some a) :
    (instantiate (pre ++ .var :: suf) ss)[pre.length]? = some a := by
  induction pre generalizing ss with
  | nil =>
    cases ss with
    | nil => simp at h
    | cons b ss => simpa [instantiate] using h
  | cons s pre ih =>
    cases s with
    | val c => simpa [instantiate] using ih h
    | var =>
      cases ss with
      | nil => simp at h
      | cons b ss => simpa [instantiate] using ih (ss := ss) (by simpa using h)

theorem matches_instantiate {e : EntryPoint} (hp : PlainConsts e) (ss : List Str) :
    Matches e ((instantiate e ss).map encodeSegment) := by
  induction e generalizing ss with
  | nil => exact .nil
  | cons s e ih =>
    have hp' : PlainConsts e := fun c hc => hp c (List.mem_cons_of_mem _ hc)
    cases s with
    | val c =>
      simp only [instantiate, List.map_cons]
      exact .cons (encodeSegment_plain (hp c (List.mem_cons_self ..))).symm (ih hp' ss)
    | var =>
      cases ss with
      | nil => exact .cons trivial (ih hp' [])
      | cons a ss => exact .cons trivial (ih hp' ss)

theorem parseTarget_push_none (o : UrlOracle) {L : List Str} (h : Carried L) :
    parseTarget o (L.foldl pushSegment ['/']) = some ⟨some (L.map encodeSegment), none⟩ :=
  parseTarget_push o h none (by simp)

/-! ### C07 -/

/-- C07. The arguments bound by the client are the arguments decoded by the server: `v` is the
value of the path field (a tuple, tuple struct or newtype of one) of type `t`. -/
theorem C07_path_round_trip [LawfulFloatText] (o : UrlOracle) (e : EntryPoint)
    (hp : PlainConsts e) (v : Val) (vs : List Val) (hv : ArgTuple v vs) (t : Ty) (ht : HasTy v t)
    (ss : List Str) (hs : PlainArgs vs ss) (harity : vs.length = varCount e)
    (hascii : ∀ s ∈ ss, Ascii s) (hnl : ∀ s ∈ ss, NoTabNl s) (hc : Carried (instantiate e ss)) :
    ∃ path target, serPath e ['/'] v = .ok path ∧ parseTarget o path = some target ∧
      target.query = none ∧ dePath e t target.segs = .ok v := by
  have hw := PathSer.writes_of_plain hs
  have hlen : varCount e = ss.length := by rw [← harity, hw.length]
  exact ⟨_, _, by rw [serPath_tuple hv hw, if_pos hlen], parseTarget_push_none o hc, rfl,
    dePath_tuple hv ht hs hascii hnl hlen hp⟩

theorem harmless {s : Str} (h1 : ∀ c ∈ s, c.isAlphanum = true ∨ c = '-' ∨ c = '.')
    (h2 : ∃ c ∈ s, c.isAlphanum = true) : Ascii s ∧ NoTabNl s ∧ s ≠ [] ∧ ¬ Dots s := by
  obtain ⟨c, hc, hca⟩ := h2
  have hnt : NoTabNl s := by
    refine ⟨?_, ?_, ?_⟩ <;> intro hm <;> rcases h1 _ hm with h | h | h <;>
      exact absurd h (by decide)
  refine ⟨?_, hnt, ?_, ?_⟩
  · intro d hd
    rcases h1 d hd with h | rfl | rfl
    · exact (keepSegment_alnum h).1
    · decide
    · decide
  · rintro rfl; cases hc
  · rw [Dots, strip_of_noTabNl hnt]
    rintro (rfl | rfl) <;> simp at hc <;> subst hc <;> exact absurd hca (by decide)

/-- Integers, floats and `false` never meet the exceptions of C07 and C08. -/
theorem plain_text_harmless [LawfulFloatText] {v : Val} {s : Str} (h : PlainArg v s)
    (hstr : ∀ s, v ≠ .str s) (hnew : ∀ w, v ≠ .newtypeStruct w) :
    Ascii s ∧ NoTabNl s ∧ s ≠ [] ∧ ¬ Dots s := by
  cases h with
  | false => exact harmless (by decide) ⟨'f', by decide⟩
  | int t i =>
    exact harmless (fun c hc => (showInt_chars hc).imp_right .inl) (showInt_some_digit i)
  | f32 x => exact harmless (LawfulFloatText.show64_alnum _) (LawfulFloatText.show64_some_alnum _)
  | f64 x => exact harmless (LawfulFloatText.show64_alnum _) (LawfulFloatText.show64_some_alnum _)
  | str s => exact absurd rfl (hstr s)
  | newtype h => exact absurd rfl (hnew _)

/-! ### C08 -/

/-- C08, the part that holds: unless an argument is a dot segment or the path starts with an empty
segment, the path has one segment per entry point segment, the constants are where they belong, and
the segment of an argument decodes to that argument and nothing else.
Missing: the excluded arguments, for which the statement is false (`C08_full_fails_dots`,
`C08_full_fails_empty`). -/
theorem C08_shape_preserved_partial [FloatText] (e : EntryPoint) (v : Val) (vs : List Val)
    (hv : ArgTuple v vs) (ss : List Str) (hs : SentAll vs ss) (harity : vs.length = varCount e)
    (hc : Carried (instantiate e ss)) :
    ∃ path segs, serPath e ['/'] v = .ok path ∧ pathSegments path = some segs ∧
      segs.length = e.length ∧
      (∀ (i : Nat) (c : Str), e[i]? = some (.val c) → (∀ ch ∈ c, PathChar ch) → segs[i]? = some c) ∧
      (∀ (pre suf : EntryPoint) (a : Str), e = pre ++ .var :: suf → ss[varCount pre]? = some a →
        ∃ x, segs[pre.length]? = some x ∧ pctDecode x = utf8 (strip a)) := by
  have hw := PathSer.writes_of_sent hs
  have hlen : varCount e = ss.length := by rw [← harity, hw.length]
  refine ⟨_, _, by rw [serPath_tuple hv hw, if_pos hlen], pathSegments_push hc, ?_, ?_, ?_⟩
  · simp [instantiate_length]
  · intro i c hi hch
    rw [List.getElem?_map, instantiate_const hi]
    simp [encodeSegment_plain hch]
  · intro pre suf a he ha
    subst he
    refine ⟨encodeSegment a, ?_, pctDecode_encodeSegment a⟩
    rw [List.getElem?_map, instantiate_arg ha]
    rfl

/-- C08. The full statement is false: the argument `..` vanishes from the path. -/
theorem C08_full_fails_dots [FloatText] :
    ∃ (e : EntryPoint) (path : Str) (segs : List Str),
      serPath e ['/'] (.tuple [.str "..".toList]) = .ok path ∧ pathSegments path = some segs ∧
      segs.length ≠ e.length := by
  refine ⟨[.var, .val ['a']], ['/', 'a'], [['a']], ?_, by decide, by decide⟩
  have := serPath_tuple (.tuple _) (PathSer.writes_strs ["..".toList]) [.var, .val ['a']] ['/']
  rw [show [Val.str "..".toList] = ["..".toList].map Val.str from rfl, this]
  decide

/-- C08. Likewise a leading empty argument. -/
theorem C08_full_fails_empty [FloatText] :
    ∃ (e : EntryPoint) (path : Str) (segs : List Str),
      serPath e ['/'] (.tuple [.str []]) = .ok path ∧ pathSegments path = some segs ∧
      segs.length ≠ e.length := by
  refine ⟨[.var, .val ['a']], ['/', 'a'], [['a']], ?_, by decide, by decide⟩
  have := serPath_tuple (.tuple _) (PathSer.writes_strs [[]]) [.var, .val ['a']] ['/']
  rw [show [Val.str []] = [[]].map Val.str from rfl, this]
  decide

/-- C08, exact: the path is always sent, and its segments decode to the segments of the entry point
with the arguments in their places (as many, in this order, with these contents up to tabs and line
breaks) exactly if a URL can carry them. So none of the exclusions of `C08_shape_preserved_partial`
can be dropped. -/
theorem C08_shape_iff [FloatText] (e : EntryPoint) (v : Val) (vs : List Val)
    (hv : ArgTuple v vs) (ss : List Str) (hs : SentAll vs ss) (harity : vs.length = varCount e) :
    ∃ path segs, serPath e ['/'] v = .ok path ∧ pathSegments path = some segs ∧
      (segs.map pctDecode = (instantiate e ss).map (fun s => utf8 (strip s)) ↔
        Carried (instantiate e ss)) := by
  have hw := PathSer.writes_of_sent hs
  have hlen : varCount e = ss.length := by rw [← harity, hw.length]
  obtain ⟨segs, h1, h2⟩ := shape_iff (instantiate e ss)
  exact ⟨_, segs, by rw [serPath_tuple hv hw, if_pos hlen], h1, h2⟩

/-- `C08_shape_iff`: a tab and a dot behind a constant leave an empty segment, so that the number of
segments is right but the content is lost. -/
example [FloatText] :
    ∃ path segs, serPath [.val ['a'], .var] ['/'] (.tuple [.str "\t.".toList]) = .ok path ∧
      pathSegments path = some segs ∧ segs.length = 2 ∧
      segs.map pctDecode ≠ [utf8 "a".toList, utf8 ".".toList] := by
  refine ⟨"/a/".toList, [['a'], []], ?_, by decide, rfl, by decide⟩
  have := serPath_tuple (.tuple _) (PathSer.writes_strs ["\t.".toList]) [.val ['a'], .var] ['/']
  rw [show [Val.str "\t.".toList] = ["\t.".toList].map Val.str from rfl, this]
  decide

/-- `C08_shape_iff`, a carried case: slashes and percent signs in an argument. -/
example [FloatText] :
    ∃ path segs, serPath [.val ['a'], .var] ['/'] (.tuple [.str "/%2e".toList]) = .ok path ∧
      pathSegments path = some segs ∧
      segs.map pctDecode = [utf8 "a".toList, utf8 "/%2e".toList] := by
  obtain ⟨path, segs, h1, h2, h3⟩ := C08_shape_iff [.val ['a'], .var] _ _
    (.tuple [.str "/%2e".toList]) ["/%2e".toList] (.cons (.str _) .nil) rfl
  refine ⟨path, segs, h1, h2, (h3.2 ⟨by simp [instantiate], ?_, .inr ⟨['a'], rfl, by decide⟩⟩).trans
    (by decide)⟩
  intro s hs
  simp only [instantiate, List.mem_cons, List.not_mem_nil, or_false] at hs
  rcases hs with rfl | rfl <;> decide

/-! ### C09 -/

/-- C09. A tuple of plain arguments is accepted exactly if there are as many as the entry point has
variables, and rejected with `Invalid` otherwise. -/
theorem C09_arity [FloatText] (e : EntryPoint) (path : Str) (v : Val) (vs : List Val)
    (hv : ArgTuple v vs) (hs : ∀ w ∈ vs, Scalar w) :
    (vs.length = varCount e → ∃ p, serPath e path v = .ok p) ∧
    (vs.length ≠ varCount e → serPath e path v = .err .invalid) := by
  obtain ⟨ss, hw⟩ := PathSer.writes_of_scalars hs
  rw [serPath_tuple hv hw, hw.length]
  constructor
  · intro h; exact ⟨_, if_pos h.symm⟩
  · intro h; exact if_neg (Ne.symm h)

/-- Inside of a tuple, a value is a scalar or rejected. -/
theorem PathSer.scalar_or_invalid [FloatText] : ∀ (v : Val) (st : PathSer), st.started = true →
    Scalar v ∨ PathSer.ser v st = .err .invalid
  | .bool _, _, _ => .inl (.bool _)
  | .int _ _, _, _ => .inl (.int _ _)
  | .f32 _, _, _ => .inl (.f32 _)
  | .f64 _, _, _ => .inl (.f64 _)
  | .char _, _, _ => .inl (.char _)
  | .str _, _, _ => .inl (.str _)
  | .unitVariant _, _, _ => .inl (.unitVariant _)
  | .newtypeStruct v, st, h => (scalar_or_invalid v st h).imp .newtypeStruct
      fun h => by rw [PathSer.ser, h]
  | .newtypeVariant _ v, st, h => (scalar_or_invalid v st h).imp .newtypeVariant
      fun h => by rw [PathSer.ser, h]
  | .bytes _, _, _ | .none, _, _ | .some _, _, _ | .seq _, _, _ | .map _, _, _
  | .struct _, _, _ | .structVariant _ _, _, _ => .inr (by rw [PathSer.ser])
  | .unit, st, h | .unitStruct _, st, h | .tuple _, st, h | .tupleStruct _, st, h
  | .tupleVariant _ _, st, h => .inr (by rw [PathSer.ser, PathSer.start, h]; rfl)

/-- Elements that are not all scalars, in any number, are rejected. -/
theorem PathSer.serAll_invalid [FloatText] (vs : List Val) (hs : ¬ ∀ w ∈ vs, Scalar w)
    (st : PathSer) (h : st.started = true) : PathSer.serAll vs st = .err .invalid := by
  induction vs generalizing st with
  | nil => exact absurd (by simp) hs
  | cons v vs ih =>
    rw [PathSer.serAll]
    rcases PathSer.scalar_or_invalid v st h with hv | hv
    · obtain ⟨s, hw⟩ := PathSer.ser_scalar hv
      rw [hw, PathSer.bindNextVar, h, Res.check_true, Res.bind_ok]
      split
      · rfl
      · exact ih (fun ha => hs fun w hw => (List.mem_cons.1 hw).elim (fun e => e ▸ hv) (ha w)) _ rfl
    · rw [hv]; rfl

/-- C09, for tuples of any values: accepted exactly if every element is a single value with a text
and there are as many as the entry point has variables, and rejected with `Invalid` otherwise. -/
theorem C09_accepted_iff [FloatText] (e : EntryPoint) (path : Str) (v : Val) (vs : List Val)
    (hv : ArgTuple v vs) :
    ((∃ p, serPath e path v = .ok p) ↔ vs.length = varCount e ∧ ∀ w ∈ vs, Scalar w) ∧
    ((∃ p, serPath e path v = .ok p) ∨ serPath e path v = .err .invalid) := by
  by_cases hs : ∀ w ∈ vs, Scalar w
  · obtain ⟨h1, h2⟩ := C09_arity e path v vs hv hs
    by_cases hl : vs.length = varCount e
    · exact ⟨⟨fun _ => ⟨hl, hs⟩, fun _ => h1 hl⟩, .inl (h1 hl)⟩
    · refine ⟨⟨fun ⟨p, hp⟩ => ?_, fun h => absurd h.1 hl⟩, .inr (h2 hl)⟩
      rw [h2 hl] at hp
      cases hp
  · have key : ∀ st : PathSer, st.started = false → PathSer.ser v st = .err .invalid := by
      intro st hst
      have base : (do PathSer.finish (← PathSer.serAll vs (← PathSer.start st vs.length)) :
          Res PathSer) = .err .invalid := by
        simp only [PathSer.start, hst, Bool.not_false, Res.check_true, Res.bind_ok]
        by_cases hc : varCount st.entry = vs.length
        · rw [hc]
          simp [PathSer.serAll_invalid vs hs]
        · rw [beq_false_of_ne hc]
          simp
      induction hv with
      | tuple vs => rw [PathSer.ser]; exact base
      | tupleStruct vs => rw [PathSer.ser]; exact base
      | newtype _ ih => rw [PathSer.ser]; exact ih hs base
    have hr : serPath e path v = .err .invalid := by
      rw [serPath, key _ rfl]
      rfl
    refine ⟨⟨fun ⟨p, hp⟩ => ?_, fun h => absurd h.2 hs⟩, .inr hr⟩
    rw [hr] at hp
    cases hp

/-- `C09_accepted_iff`: a nested tuple and an absent argument are rejected, though the number of
elements is right. -/
example [FloatText] (c : Str) :
    serPath [.val c, .var, .var] ['/'] (.tuple [.str c, .tuple [.str c]]) = .err .invalid ∧
    serPath [.val c, .var, .var] ['/'] (.tuple [.none, .str c]) = .err .invalid := by
  have rejected (vs : List Val) (hn : ¬ ∀ w ∈ vs, Scalar w) :
      serPath [.val c, .var, .var] ['/'] (.tuple vs) = .err .invalid :=
    have h := C09_accepted_iff [.val c, .var, .var] ['/'] _ _ (.tuple vs)
    h.2.resolve_left fun hp => hn (h.1.1 hp).2
  refine ⟨rejected _ fun h => ?_, rejected _ fun h => ?_⟩
  · have := h (.tuple [.str c]) (by simp)
    cases this
  · have := h .none (by simp)
    cases this

/-- C09. A request whose path has the wrong number of arguments is not sent. -/
theorem C09_not_sent [FloatText] (m : Method) (e : EntryPoint) (v : Val) (vs : List Val)
    (hv : ArgTuple v vs) (hs : ∀ w ∈ vs, Scalar w) (h : vs.length ≠ varCount e)
    (fields : List (Str × Val)) (body : Bytes) :
    serRequest m e (.struct (("path".toList, v) :: fields)) body = .err .invalid := by
  have := (C09_arity e ['/'] v vs hv hs).2 h
  simp [serRequest, ReqSer.ser, ReqSer.serFields, ReqSer.serField, ReqSer.new, this]

/-! ### C10 -/

theorem ascii_of_length {s : Str} (h : (utf8 s).length = s.length) : Ascii s := by
  induction s with
  | nil => intro c hc; cases hc
  | cons c s ih =>
    have h1 := List.length_pos_iff.2 (utf8Char_ne_nil c)
    have h2 := length_le_utf8 s
    simp only [utf8_cons, List.length_append, List.length_cons] at h
    intro d hd
    rcases List.mem_cons.1 hd with rfl | hd
    · have hl : (utf8Char d).length = 1 := by omega
      simp only [utf8Char] at hl
      split at hl
      · assumption
      · split at hl
        · simp at hl
        · split at hl <;> simp at hl
    · exact ih (by omega) d hd

theorem latin1_utf8_eq_iff (s : Str) : latin1 (utf8 (strip s)) = s ↔ Ascii s ∧ NoTabNl s := by
  constructor
  · intro h
    have key : ∀ c : Char, c.toNat < 0x80 → strip [c] = [] → c ∉ s := by
      intro c hc hst hm
      rw [← h] at hm
      obtain ⟨b, hb, e⟩ := List.mem_map.1 hm
      have hbn : b.toNat = c.toNat := by rw [← e, charOfByte_toNat]
      obtain ⟨d, hd, hbd⟩ := List.mem_flatMap.1 hb
      have := mem_utf8Char_ascii hbd (by omega)
      rw [hbn, Char.ofNat_toNat] at this
      subst this
      have := (List.mem_filter.1 hd).2
      have h2 : d ∈ strip [d] := List.mem_filter.2 ⟨by simp, this⟩
      rw [hst] at h2
      cases h2
    have hn : NoTabNl s := ⟨key _ (by decide) rfl, key _ (by decide) rfl, key _ (by decide) rfl⟩
    refine ⟨?_, hn⟩
    rw [strip_of_noTabNl hn] at h
    apply ascii_of_length
    have := congrArg List.length h
    simpa [latin1] using this
  · rintro ⟨h1, h2⟩
    rw [strip_of_noTabNl h2, latin1_ascii h1]

theorem PathDe.deAll_strs [FloatText] (ss : List Str) {e : EntryPoint}
    (hc : varCount e = ss.length) (hp : PlainConsts e) :
    ∃ st, PathDe.deAll (ss.map fun _ => Ty.str)
      ⟨true, (instantiate e ss).map encodeSegment, e, varCount e⟩ =
      .ok (ss.map fun s => Val.str (latin1 (utf8 (strip s))), st) := by
  induction ss generalizing e with
  | nil => exact ⟨_, rfl⟩
  | cons s ss ih =>
    obtain ⟨rest, h1, h2, h3⟩ := PathDe.nextValue_instantiate (by simpa using hc) hp s ss
    obtain ⟨st', hst'⟩ := ih h2 h3
    refine ⟨st', ?_⟩
    simp only [List.map_cons]
    rw [PathDe.deAll]
    simp only [PathDe.nextElement]
    rw [if_neg (by simp [hc]), PathDe.de]
    simp only [PathDe.scalar]
    rw [show varCount e = ss.length + 1 by simpa using hc, h1]
    simp only [Res.bind_ok, percentDecode_encodeSegment, Option.bind_some, Res.ofOption_some]
    rw [h2] at hst'
    rw [hst']
    rfl

/-- C10, exact: what the server receives for string arguments is the Latin-1 reading of their UTF-8
bytes (tabs and line breaks removed), and that is what was sent exactly if all are ASCII texts
without tabs and line breaks. The full statement (unchanged for every string) is false for all
others: `C10_full_fails`. -/
theorem C10_received_partial [FloatText] (o : UrlOracle) (e : EntryPoint) (hp : PlainConsts e)
    (ss : List Str) (harity : ss.length = varCount e) (hc : Carried (instantiate e ss)) :
    ∃ path target, serPath e ['/'] (.tuple (ss.map .str)) = .ok path ∧
      parseTarget o path = some target ∧
      dePath e (.tuple (ss.map fun _ => .str)) target.segs =
        .ok (.tuple (ss.map fun s => .str (latin1 (utf8 (strip s))))) ∧
      ((ss.map fun s => latin1 (utf8 (strip s))) = ss ↔ ∀ s ∈ ss, Ascii s ∧ NoTabNl s) := by
  refine ⟨_, _, by rw [serPath_tuple (.tuple _) (PathSer.writes_strs ss), if_pos harity.symm],
    parseTarget_push_none o hc, ?_, ?_⟩
  · obtain ⟨st, hst⟩ := PathDe.deAll_strs ss harity.symm hp
    simp only [dePath, PathDe.new, Res.ofOption_some, Res.bind_ok]
    rw [PathDe.de]
    simp [PathDe.enterSeq, hst]
  · rw [List.map_eq_iff]
    constructor
    · intro h s hs
      obtain ⟨i, hi, rfl⟩ := List.mem_iff_getElem.1 hs
      have := h i
      simp only [List.getElem?_eq_getElem hi, Option.map_some, Option.some.injEq] at this
      exact (latin1_utf8_eq_iff _).1 this.symm
    · intro h i
      by_cases hi : i < ss.length
      · simp only [List.getElem?_eq_getElem hi, Option.map_some, Option.some.injEq]
        exact ((latin1_utf8_eq_iff _).2 (h _ (List.getElem_mem hi))).symm
      · simp [hi]

/-- C10. The full statement is false: `é` is received as `Ã©`. -/
theorem C10_full_fails [FloatText] (o : UrlOracle) :
    ∃ path target, serPath [.var] ['/'] (.tuple [.str "é".toList]) = .ok path ∧
      parseTarget o path = some target ∧
      dePath [.var] (.tuple [.str]) target.segs = .ok (.tuple [.str "Ã©".toList]) := by
  have hcar : Carried (instantiate [.var] ["é".toList]) := by
    refine ⟨by simp [instantiate], ?_, .inl rfl⟩
    intro s hs
    simp only [instantiate, List.mem_cons, List.not_mem_nil, or_false] at hs
    subst hs
    decide
  obtain ⟨path, target, h1, h2, h3, -⟩ := C10_received_partial o [.var]
    (by intro c hc; simp at hc) ["é".toList] rfl hcar
  refine ⟨path, target, h1, h2, ?_⟩
  rw [show "Ã©".toList = latin1 (utf8 (strip "é".toList)) by decide]
  exact h3

/-! ### C11 -/

/-- C11. Decoding a path yields a value or an `Invalid` error, for every type, entry point and list
of segments. -/
theorem C11_path_decode_total [FloatText] (e : EntryPoint) (t : Ty) (segs : Option (List Str)) :
    (∃ v, dePath e t segs = .ok v) ∨ dePath e t segs = .err .invalid :=
  (dePath_sat e t segs).ok_or_invalid

/-! ### C06 -/

/-- C06. The path built for a registered procedure is routed to its handler. -/
theorem C06_own_path_reaches_handler [FloatText] {H : Type} (o : UrlOracle) (rs : List (Reg H))
    (r : Reg H) (hr : r ∈ rs) (hcf : ConflictFree rs) (hp : PlainConsts r.entry) (v : Val)
    (vs : List Val) (hv : ArgTuple v vs) (ss : List Str) (hs : SentAll vs ss)
    (harity : vs.length = varCount r.entry) (hc : Carried (instantiate r.entry ss))
    (hsh : ¬ Shadowed rs r.entry ((instantiate r.entry ss).map asSegment)) :
    ∃ path target segs, serPath r.entry ['/'] v = .ok path ∧ parseTarget o path = some target ∧
      target.segs = some segs ∧
      (registerAll rs Trie.empty).1.route r.method segs = .ok r.handler := by
  rw [asSegment_eq] at hsh
  have hw := PathSer.writes_of_sent hs
  have hlen : varCount r.entry = ss.length := by rw [← harity, hw.length]
  refine ⟨_, _, _, by rw [serPath_tuple hv hw, if_pos hlen], parseTarget_push_none o hc,
    rfl, ?_⟩
  rw [C02_dispatch_iff, accepted_of_conflictFree hcf]
  exact ⟨r, hr, rfl, rfl, matches_instantiate hp ss, hsh⟩

/-- The URL library never reports an http-like URL with an empty list of segments. -/
def UrlOracle.Sane (o : UrlOracle) : Prop := ∀ s t, o.hier s = some t → t.segs ≠ some []

theorem splitBy_ne_nil (p : Char → Bool) (s : Str) : splitBy p s ≠ [] := by
  cases s with
  | nil => simp [splitBy]
  | cons c s =>
    simp only [splitBy]
    split
    · simp
    · split <;> simp

theorem normSegs_ne_nil {L : List Str} (h : L ≠ []) (out : List Str) : normSegs out L ≠ [] := by
  induction L generalizing out with
  | nil => exact absurd rfl h
  | cons r L ih =>
    cases L with
    | nil =>
      simp only [normSegs]
      split
      · simp
      · split <;> simp
    | cons r' L =>
      simp only [normSegs]
      split
      · exact ih (by simp) _
      · split <;> exact ih (by simp) _

theorem pathQuery_segs (b : Bool) (r : Str) : (pathQuery b r).segs ≠ some [] := by
  simp only [pathQuery, ne_eq, Option.some.injEq]
  exact normSegs_ne_nil (splitBy_ne_nil _ _) _

theorem parseAgainstBase_segs {o : UrlOracle} (ho : o.Sane) {s : Str} {t : Target}
    (h : parseAgainstBase o s = some t) : t.segs ≠ some [] := by
  simp only [parseAgainstBase] at h
  split at h
  · cases h; simp
  · split at h
    · split at h
      · split at h
        · exact ho _ _ h
        · cases h; exact pathQuery_segs _ _
      · cases h; exact pathQuery_segs _ _
    · cases h; exact pathQuery_segs _ _

theorem parseTarget_segs {o : UrlOracle} (ho : o.Sane) {s : Str} {t : Target}
    (h : parseTarget o s = some t) : t.segs ≠ some [] := by
  simp only [parseTarget] at h
  split at h
  · exact parseAgainstBase_segs ho h
  · split at h
    · exact ho _ _ h
    · split at h
      · split at h
        · exact parseAgainstBase_segs ho h
        · exact ho _ _ h
      · split at h
        · exact ho _ _ h
        · cases h; exact pathQuery_segs _ _
        · cases h; simp

/-- C06. The entry point without segments is never reached, whatever the request target. -/
theorem C06_empty_entry_unreachable {H : Type} (o : UrlOracle) (ho : o.Sane) (rs : List (Reg H))
    (m : Method) (text : Str) (target : Target) (ht : parseTarget o text = some target)
    (segs : List Str) (hs : target.segs = some segs) (h : H)
    (hroute : (registerAll rs Trie.empty).1.route m segs = .ok h) :
    ∃ r ∈ rs, r.handler = h ∧ r.method = m ∧ r.entry ≠ [] := by
  obtain ⟨r, hr, h1, h2, h3⟩ := C01_routing_sound rs m segs h hroute
  refine ⟨r, hr, h1, h2, ?_⟩
  intro he
  rw [he] at h3
  cases h3
  exact parseTarget_segs ho ht hs

theorem matches_const {e : EntryPoint} {segs : List Str} (h : Matches e segs) {i : Nat} {c : Str}
    (hi : e[i]? = some (.val c)) : segs[i]? = some c := by
  induction h generalizing i with
  | nil => simp at hi
  | cons hs _ ih =>
    cases i with
    | zero => simp at hi; subst hi; simpa using hs.symm
    | succ i => simpa using ih (by simpa using hi)

/-- C06, limit: a procedure with a constant that URLs escape is not reached by its own path. -/
theorem C06_escaped_const_unreachable [FloatText] {H : Type} (o : UrlOracle) (rs : List (Reg H))
    (e : EntryPoint) (c : Str) (hce : Seg.val c ∈ e) (hesc : asSegment c ≠ c) (v : Val)
    (vs : List Val) (hv : ArgTuple v vs) (ss : List Str) (hs : SentAll vs ss)
    (harity : vs.length = varCount e) (hc : Carried (instantiate e ss)) :
    ∃ path target segs, serPath e ['/'] v = .ok path ∧ parseTarget o path = some target ∧
      target.segs = some segs ∧
      ∀ m h, (registerAll rs Trie.empty).1.route m segs = .ok h →
        ∃ r ∈ rs, r.handler = h ∧ r.method = m ∧ r.entry ≠ e := by
  rw [asSegment_eq] at hesc
  have hw := PathSer.writes_of_sent hs
  have hlen : varCount e = ss.length := by rw [← harity, hw.length]
  refine ⟨_, _, _, by rw [serPath_tuple hv hw, if_pos hlen], parseTarget_push_none o hc, rfl, ?_⟩
  intro m h hroute
  obtain ⟨r, hr, h1, h2, h3⟩ := C01_routing_sound rs m _ h hroute
  refine ⟨r, hr, h1, h2, ?_⟩
  intro he
  rw [he] at h3
  obtain ⟨i, hi, hget⟩ := List.mem_iff_getElem.1 hce
  have hi' : e[i]? = some (.val c) := by rw [List.getElem?_eq_getElem hi, hget]
  have := matches_const h3 hi'
  rw [List.getElem?_map, instantiate_const hi'] at this
  simp at this
  exact hesc this

section Examples

/-- `/users/_/posts/_` with the arguments `a/b?` and `-7`. -/
private def exEntry : EntryPoint := [.val "users".toList, .var, .val "posts".toList, .var]
private def exTexts : List Str := ["a/b?".toList, "-7".toList]
private def exVals : List Val := [.str "a/b?".toList, .newtypeStruct (.int .i32 (-7))]
private def exTy : Ty := .tuple [.str, .newtypeStruct (.int .i32)]

private theorem ex_carried : Carried (instantiate exEntry exTexts) := by
  refine ⟨by decide, by decide, .inr ⟨_, rfl, by decide⟩⟩

private theorem ex_plain : PlainConsts exEntry := by
  intro c hc
  simp only [exEntry, List.mem_cons, List.not_mem_nil, or_false] at hc
  rcases hc with h | h | h | h
  · cases h; intro ch hch; left; revert ch; decide
  · cases h
  · cases h; intro ch hch; left; revert ch; decide
  · cases h

/-- `C07` applies to it. -/
example (o : UrlOracle) : letI := toyFloat
    ∃ path target, serPath exEntry ['/'] (.tuple exVals) = .ok path ∧
      parseTarget o path = some target ∧ target.query = none ∧
      dePath exEntry exTy target.segs = .ok (.tuple exVals) :=
  letI := toyFloat
  C07_path_round_trip o exEntry ex_plain _ exVals (.tuple _) exTy
    (.tuple (.cons (.str _) (.cons (.newtypeStruct (.int _ _ (by decide))) .nil)))
    exTexts (.cons (.str _) (.cons (.newtype (.int _ _)) .nil)) rfl
    (by unfold Ascii; decide) (by unfold NoTabNl; decide) ex_carried

/-- The path that is sent. -/
example : letI := toyFloat
    serPath exEntry ['/'] (.tuple exVals) = .ok "/users/a%2Fb%3F/posts/-7".toList := by
  let := toyFloat
  rw [serPath_tuple (.tuple exVals) (ss := exTexts) (PathSer.writes_of_plain
    (.cons (.str _) (.cons (.newtype (.int _ _)) .nil)))]
  decide

/-- `C06` applies to it, with a second procedure registered for `/users/_`. -/
example (o : UrlOracle) : letI := toyFloat
    ∃ path target segs, serPath exEntry ['/'] (.tuple exVals) = .ok path ∧
      parseTarget o path = some target ∧ target.segs = some segs ∧
      (registerAll [⟨.other 0, [.val "users".toList, .var], 1⟩, ⟨.other 0, exEntry, 2⟩]
        Trie.empty).1.route (.other 0) segs = .ok 2 := by
  let := toyFloat
  refine C06_own_path_reaches_handler o
    [⟨.other 0, [.val "users".toList, .var], 1⟩, ⟨.other 0, exEntry, 2⟩] ⟨.other 0, exEntry, 2⟩
    (by simp) ?_ ex_plain _ exVals (.tuple _) exTexts
    (.cons (.str _) (.cons (.newtypeStruct (.int _ _)) .nil)) rfl ex_carried ?_
  · unfold ConflictFree; decide
  · rintro ⟨pre, suf, p, h1, h2, r, hr, h3⟩
    simp only [List.mem_cons, List.not_mem_nil, or_false] at hr
    rcases hr with rfl | rfl
    all_goals
      simp only [exEntry] at h1 h3
      match pre with
      | [] => cases h1
      | [a] => cases h1; simp at h3
      | [a, b] => cases h1
      | [a, b, c] => cases h1; simp at h3
      | a :: b :: c :: d :: pre =>
        simp only [List.cons_append, List.cons.injEq] at h1
        exact absurd h1.2.2.2.2 (by simp)

/-- `C09`: one argument too few. -/
example : letI := toyFloat
    serPath exEntry ['/'] (.tuple [.bool true]) = .err .invalid :=
  letI := toyFloat
  (C09_arity exEntry ['/'] (.tuple [.bool true]) _ (.tuple _)
    (by intro w hw; simp at hw; subst hw; exact .bool _)).2 (by decide)

/-- `C06_empty_entry_unreachable`: the oracle hypothesis is satisfiable. -/
example : UrlOracle.Sane ⟨fun _ => none⟩ := by intro s t h; cases h

/-- `C06_escaped_const_unreachable`: a constant with a blank. -/
example : asSegment "a b".toList ≠ "a b".toList := by decide

end Examples

end Htrpc
