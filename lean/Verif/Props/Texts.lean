/-
C89: which texts have a value of a type, and which one.
-/
import Verif.Spec.Texts
import Verif.Lemmas.Interop
import Verif.Props.Decode

namespace Htrpc
open Spec

variable [FloatText]

omit [FloatText] in
theorem parseBool_iff (s : Str) (b : Bool) :
    parseBool s = some b ↔ s = (if b then "true".toList else "false".toList) := by
  unfold parseBool
  by_cases h1 : s = "true".toList
  · subst h1
    rw [if_pos rfl]
    cases b <;> simp
  · rw [if_neg h1]
    by_cases h2 : s = "false".toList
    · subst h2
      rw [if_pos rfl]
      cases b <;> simp
    · rw [if_neg h2]
      cases b
      · exact ⟨nofun, fun h => absurd h h2⟩
      · exact ⟨nofun, fun h => absurd h h1⟩

/-- Reading the text of a boolean or a number. -/
theorem scalar_cases {t : Ty} {s : Str} {v : Val} :
    ScalarText t s v ↔ (∃ b, t = .bool ∧ parseBool s = some b ∧ v = .bool b) ∨
      (∃ i j, t = .int i ∧ parseInt i s = some j ∧ v = .int i j) ∨
      (∃ x, t = .f32 ∧ FloatText.parse32 s = some x ∧ v = .f32 x) ∨
      (∃ x, t = .f64 ∧ FloatText.parse64 s = some x ∧ v = .f64 x) := by
  constructor
  · intro h
    cases h with
    | true => exact .inl ⟨_, rfl, rfl, rfl⟩
    | false => exact .inl ⟨_, rfl, rfl, rfl⟩
    | int h1 h2 h3 => exact .inr (.inl ⟨_, _, rfl, (C60_integer_texts _ _ _).2 ⟨h1, h2, h3⟩, rfl⟩)
    | f32 h => exact .inr (.inr (.inl ⟨_, rfl, h, rfl⟩))
    | f64 h => exact .inr (.inr (.inr ⟨_, rfl, h, rfl⟩))
  · rintro (⟨b, rfl, h, rfl⟩ | ⟨i, j, rfl, h, rfl⟩ | ⟨x, rfl, h, rfl⟩ | ⟨x, rfl, h, rfl⟩)
    · rw [parseBool_iff] at h
      subst h
      cases b
      · exact .false
      · exact .true
    · obtain ⟨h1, h2, h3⟩ := (C60_integer_texts _ _ _).1 h
      exact .int h1 h2 h3
    · exact .f32 h
    · exact .f64 h

theorem arg_of_read : ∀ (t : Ty) {s : Str} {v : Val}, readArg t s = some v → ArgText t s v
  | .bool, s, v, h => by
    obtain ⟨b, h1, rfl⟩ := Option.map_eq_some_iff.1 h
    exact .scalar (scalar_cases.2 (.inl ⟨b, rfl, h1, rfl⟩))
  | .int i, s, v, h => by
    obtain ⟨b, h1, rfl⟩ := Option.map_eq_some_iff.1 h
    exact .scalar (scalar_cases.2 (.inr (.inl ⟨i, b, rfl, h1, rfl⟩)))
  | .f32, s, v, h => by
    obtain ⟨b, h1, rfl⟩ := Option.map_eq_some_iff.1 h
    exact .scalar (.f32 h1)
  | .f64, s, v, h => by
    obtain ⟨b, h1, rfl⟩ := Option.map_eq_some_iff.1 h
    exact .scalar (.f64 h1)
  | .str, s, v, h => by cases h; exact .str s
  | .newtypeStruct t, s, v, h => by
    rw [readArg] at h
    obtain ⟨w, h1, rfl⟩ := Option.map_eq_some_iff.1 h
    exact .newtype (arg_of_read t h1)
  | .char, _, _, h | .bytes, _, _, h | .option _, _, _, h | .unit, _, _, h | .unitStruct _, _, _, h
  | .seq _, _, _, h | .tuple _, _, _, h | .tupleStruct _, _, _, h | .map _ _, _, _, h
  | .struct _, _, _, h | .enum _, _, _, h => by cases h

/-- **C89**, paths: exactly these texts are read as a value of a type. -/
theorem C89_arguments (t : Ty) (s : Str) (v : Val) : readArg t s = some v ↔ ArgText t s v := by
  refine ⟨arg_of_read t, fun h => ?_⟩
  induction h with
  | scalar h =>
    rcases scalar_cases.1 h with ⟨b, rfl, h, rfl⟩ | ⟨i, j, rfl, h, rfl⟩ | ⟨x, rfl, h, rfl⟩ |
      ⟨x, rfl, h, rfl⟩
    all_goals rename_i h'; rw [readArg, h']; rfl
  | str s => rfl
  | newtype _ ih => rw [readArg, ih]; rfl

theorem param_of_read : ∀ (t : Ty) {s : Str} {v : Val}, readText t s = some v → ParamText t s v
  | .bool, s, v, h => by
    obtain ⟨b, h1, rfl⟩ := Option.map_eq_some_iff.1 h
    exact .scalar (scalar_cases.2 (.inl ⟨b, rfl, h1, rfl⟩))
  | .int i, s, v, h => by
    obtain ⟨b, h1, rfl⟩ := Option.map_eq_some_iff.1 h
    exact .scalar (scalar_cases.2 (.inr (.inl ⟨i, b, rfl, h1, rfl⟩)))
  | .f32, s, v, h => by
    obtain ⟨b, h1, rfl⟩ := Option.map_eq_some_iff.1 h
    exact .scalar (.f32 h1)
  | .f64, s, v, h => by
    obtain ⟨b, h1, rfl⟩ := Option.map_eq_some_iff.1 h
    exact .scalar (.f64 h1)
  | .str, s, v, h => by cases h; exact .str s
  | .bytes, s, v, h => by cases h; exact .bytes s
  | .unit, s, v, h => by
    rw [readText] at h
    split at h
    · subst s; cases h; exact .unit
    · cases h
  | .unitStruct n, s, v, h => by
    rw [readText] at h
    split at h
    · subst s; cases h; exact .unitStruct n
    · cases h
  | .option t, s, v, h => by
    rw [readText] at h
    obtain ⟨w, h1, rfl⟩ := Option.map_eq_some_iff.1 h
    exact .some (param_of_read t h1)
  | .newtypeStruct t, s, v, h => by
    rw [readText] at h
    obtain ⟨w, h1, rfl⟩ := Option.map_eq_some_iff.1 h
    exact .newtype (param_of_read t h1)
  | .char, _, _, h | .seq _, _, _, h | .tuple _, _, _, h | .tupleStruct _, _, _, h
  | .map _ _, _, _, h | .struct _, _, _, h | .enum _, _, _, h => by cases h

/-- **C89**, queries: exactly these texts are read as a value of a type. -/
theorem C89_parameters (t : Ty) (s : Str) (v : Val) : readText t s = some v ↔ ParamText t s v := by
  refine ⟨param_of_read t, fun h => ?_⟩
  induction h with
  | scalar h =>
    rcases scalar_cases.1 h with ⟨b, rfl, h, rfl⟩ | ⟨i, j, rfl, h, rfl⟩ | ⟨x, rfl, h, rfl⟩ |
      ⟨x, rfl, h, rfl⟩
    all_goals rename_i h'; rw [readText, h']; rfl
  | str s => rfl
  | bytes s => rfl
  | unit => rfl
  | unitStruct n => rfl
  | some _ ih => rw [readText, ih]; rfl
  | newtype _ ih => rw [readText, ih]; rfl

theorem value_of_read : ∀ (t : Ty) {b : Bytes} {v : Val}, readBytes t b = some v → ValueText t b v
  | .bool, b, v, h => by
    obtain ⟨s, h0, h⟩ := Option.bind_eq_some_iff.1 h
    obtain ⟨x, h1, rfl⟩ := Option.map_eq_some_iff.1 h
    rw [fromUtf8_iff.1 h0]
    exact .scalar (scalar_cases.2 (.inl ⟨x, rfl, h1, rfl⟩))
  | .int i, b, v, h => by
    obtain ⟨s, h0, h⟩ := Option.bind_eq_some_iff.1 h
    obtain ⟨x, h1, rfl⟩ := Option.map_eq_some_iff.1 h
    rw [fromUtf8_iff.1 h0]
    exact .scalar (scalar_cases.2 (.inr (.inl ⟨i, x, rfl, h1, rfl⟩)))
  | .f32, b, v, h => by
    obtain ⟨s, h0, h⟩ := Option.bind_eq_some_iff.1 h
    obtain ⟨x, h1, rfl⟩ := Option.map_eq_some_iff.1 h
    rw [fromUtf8_iff.1 h0]
    exact .scalar (.f32 h1)
  | .f64, b, v, h => by
    obtain ⟨s, h0, h⟩ := Option.bind_eq_some_iff.1 h
    obtain ⟨x, h1, rfl⟩ := Option.map_eq_some_iff.1 h
    rw [fromUtf8_iff.1 h0]
    exact .scalar (.f64 h1)
  | .str, b, v, h => by
    obtain ⟨s, h0, rfl⟩ := Option.map_eq_some_iff.1 h
    rw [fromUtf8_iff.1 h0]
    exact .str s
  | .bytes, b, v, h => by cases h; exact .bytes b
  | .unitStruct n, b, v, h => by
    obtain ⟨s, h0, h⟩ := Option.bind_eq_some_iff.1 h
    rw [fromUtf8_iff.1 h0]
    split at h
    · subst s; cases h; exact .unitStruct n
    · cases h
  | .option t, s, v, h => by
    rw [readBytes] at h
    obtain ⟨w, h1, rfl⟩ := Option.map_eq_some_iff.1 h
    exact .some (value_of_read t h1)
  | .newtypeStruct t, s, v, h => by
    rw [readBytes] at h
    obtain ⟨w, h1, rfl⟩ := Option.map_eq_some_iff.1 h
    exact .newtype (value_of_read t h1)
  | .char, _, _, h | .unit, _, _, h | .seq _, _, _, h | .tuple _, _, _, h | .tupleStruct _, _, _, h
  | .map _ _, _, _, h | .struct _, _, _, h | .enum _, _, _, h => by cases h

/-- **C89**, headers: exactly these values are read as a value of a type; all but those of byte
strings have to be UTF-8. -/
theorem C89_values (t : Ty) (b : Bytes) (v : Val) : readBytes t b = some v ↔ ValueText t b v := by
  refine ⟨value_of_read t, fun h => ?_⟩
  induction h with
  | scalar h =>
    rcases scalar_cases.1 h with ⟨b, rfl, h, rfl⟩ | ⟨i, j, rfl, h, rfl⟩ | ⟨x, rfl, h, rfl⟩ |
      ⟨x, rfl, h, rfl⟩
    all_goals rename_i h'; rw [readBytes, fromUtf8_utf8, Option.bind_some, h']; rfl
  | str s => rw [readBytes, fromUtf8_utf8]; rfl
  | bytes s => rfl
  | unitStruct n => rw [readBytes, fromUtf8_utf8, Option.bind_some, if_pos rfl]
  | some _ ih => rw [readBytes, ih]; rfl
  | newtype _ ih => rw [readBytes, ih]; rfl

omit [FloatText] in
theorem unescape_iff (seg s : Str) : unescape seg = some s ↔ Segment seg s := by
  constructor
  · intro h
    fun_induction unescape generalizing s with
    | case1 => cases h; exact .nil
    | case2 => cases h
    | case3 c hc => cases h; exact .plain hc .nil
    | case4 => cases h
    | case5 c d hc =>
      cases h
      exact .plain (fun h => hc (.inl h)) (.plain (fun h => hc (.inr h)) .nil)
    | case6 a b s ih =>
      obtain ⟨n, h1, h⟩ := Option.bind_eq_some_iff.1 h
      obtain ⟨t, h2, h⟩ := Option.bind_eq_some_iff.1 h
      cases h
      exact .escape h1 (ih _ h2)
    | case7 c a b s hc ih =>
      obtain ⟨t, h2, h⟩ := Option.bind_eq_some_iff.1 h
      cases h
      exact .plain hc (ih _ h2)
  · intro h
    induction h with
    | nil => rfl
    | @plain c s t hc _ ih =>
      match s with
      | [] => cases ih; simp [unescape, hc]
      | [d] =>
        simp only [unescape] at ih ⊢
        by_cases hd : d = '%'
        · rw [if_pos hd] at ih; cases ih
        · rw [if_neg hd] at ih; cases ih; simp [hc, hd]
      | d :: e :: s => rw [unescape, if_neg hc, ih]; rfl
    | escape h1 _ ih => rw [unescape, if_pos rfl, h1, ih]; rfl

theorem segments_iff (ts : List Ty) (segs : List Str) (vs : List Val) :
    readSegments ts (segs.take ts.length) = some vs ↔ SegmentTexts ts segs vs := by
  induction ts generalizing segs vs with
  | nil =>
    constructor
    · intro h
      rw [List.length_nil, List.take_zero] at h
      cases h
      exact .nil
    · intro h; cases h; rfl
  | cons t ts ih =>
    cases segs with
    | nil =>
      constructor
      · intro h; cases h
      · intro h; cases h
    | cons seg segs =>
      rw [List.length_cons, List.take_succ_cons, readSegments]
      constructor
      · intro h
        split at h
        · rename_i v vs' h1 h2
          cases h
          obtain ⟨s, h3, h4⟩ := Option.bind_eq_some_iff.1 h1
          exact .cons ((unescape_iff _ _).1 h3) ((C89_arguments _ _ _).1 h4) ((ih _ _).1 h2)
        · cases h
      · intro h
        cases h with
        | cons h1 h2 h3 =>
          rw [readSegment, (unescape_iff _ _).2 h1, Option.bind_some, (C89_arguments _ _ _).2 h2,
            (ih _ _).2 h3]

/-- **C89**, paths: the arguments are read from the segments at the variables, and from nothing else;
this is all that is accepted. -/
theorem C89_path (e : EntryPoint) (segs : List Str) (h : Matches e segs) (ts : List Ty) (v : Val) :
    dePath e (.tuple ts) (some segs) = .ok v ↔
      ∃ vs, v = .tuple vs ∧ SegmentTexts ts (variables e segs) vs := by
  rw [C63_path_read e segs h, readPath]
  cases hr : readSegments ts ((variables e segs).take ts.length) with
  | none =>
    refine ⟨nofun, ?_⟩
    rintro ⟨vs, -, hs⟩
    rw [(segments_iff _ _ _).2 hs] at hr
    cases hr
  | some ws =>
    constructor
    · intro h; cases h; exact ⟨ws, rfl, (segments_iff _ _ _).1 hr⟩
    · rintro ⟨vs, rfl, hs⟩
      rw [(segments_iff _ _ _).2 hs] at hr
      cases hr
      rfl

omit [FloatText] in
theorem filter_single {β : Type} (es : List (Str × β)) (n : Str) (x : β) :
    es.filter (fun e => decide (e.1 = n)) = [(n, x)] ↔
      ∃ a b, es = a ++ (n, x) :: b ∧ (∀ e ∈ a, e.1 ≠ n) ∧ ∀ e ∈ b, e.1 ≠ n := by
  constructor
  · intro h
    induction es with
    | nil => cases h
    | cons e es ih =>
      rw [List.filter_cons] at h
      split at h
      · rename_i he
        obtain ⟨rfl, h2⟩ := List.cons.inj h
        exact ⟨[], es, rfl, nofun, by simpa using List.filter_eq_nil_iff.1 h2⟩
      · rename_i he
        obtain ⟨a, b, rfl, h1, h2⟩ := ih h
        refine ⟨e :: a, b, rfl, fun x hx => ?_, h2⟩
        rcases List.mem_cons.1 hx with rfl | hx
        · simpa using he
        · exact h1 x hx
  · rintro ⟨a, b, rfl, h1, h2⟩
    rw [List.filter_append, List.filter_cons, if_pos (by simp), List.filter_eq_nil_iff.2,
      List.filter_eq_nil_iff.2]
    · rfl
    · simpa using h2
    · simpa using h1

omit [FloatText] in
theorem struct_iff {β : Type} {read : Ty → β → Option Val} {means : Ty → β → Val → Prop}
    (hr : ∀ t x v, read t x = some v ↔ means t x v) (es : List (Str × β)) (ts : List (Str × Ty))
    (vs : List (Str × Val)) :
    collectFields (fieldValue read es) ts = some vs ↔ FieldsFrom means es ts vs := by
  induction ts generalizing vs with
  | nil =>
    constructor
    · intro h; cases h; exact .nil
    · intro h; cases h; rfl
  | cons f ts ih =>
    obtain ⟨n, t⟩ := f
    rw [collectFields]
    constructor
    · intro h
      split at h
      · rename_i v ws h1 h2
        cases h
        rw [fieldValue] at h1
        split at h1
        · rename_i hf
          split at h1
          · rename_i ho
            cases h1
            cases t <;> try cases ho
            exact .absent (by simpa using List.filter_eq_nil_iff.1 hf) ((ih _).1 h2)
          · cases h1
        · rename_i e hf
          have he : e.1 = n := by
            have : e ∈ es.filter (fun e => decide (e.1 = n)) := by rw [hf]; exact List.mem_singleton.2 rfl
            simpa using (List.mem_filter.1 this).2
          obtain ⟨n', x⟩ := e
          cases he
          obtain ⟨a, b, h3, h4, h5⟩ := (filter_single _ _ _).1 hf
          exact .present h3 h4 h5 ((hr _ _ _).1 h1) ((ih _).1 h2)
        · cases h1
      · cases h
    · intro h
      cases h with
      | present h1 h2 h3 h4 h5 =>
        rw [fieldValue, (filter_single _ _ _).2 ⟨_, _, h1, h2, h3⟩]
        simp only [(hr _ _ _).2 h4, (ih _).2 h5]
      | absent h1 h2 =>
        rw [fieldValue, List.filter_eq_nil_iff.2 (by simpa using h1)]
        simp only [(ih _).2 h2]
        rfl

omit [FloatText] in
theorem readStruct_iff {β : Type} {read : Ty → β → Option Val} {means : Ty → β → Val → Prop}
    (hr : ∀ t x v, read t x = some v ↔ means t x v) (es : List (Str × β)) (ts : List (Str × Ty))
    (v : Val) : Res.ofOption (readStruct read ts es) = .ok v ↔
      ∃ vs, v = .struct vs ∧ FieldsFrom means es ts vs := by
  rw [readStruct]
  cases hc : collectFields (fieldValue read es) ts with
  | none =>
    refine ⟨nofun, ?_⟩
    rintro ⟨vs, -, hs⟩
    rw [(struct_iff hr _ _ _).2 hs] at hc
    cases hc
  | some ws =>
    constructor
    · intro h; cases h; exact ⟨ws, rfl, (struct_iff hr _ _ _).1 hc⟩
    · rintro ⟨vs, rfl, hs⟩
      rw [(struct_iff hr _ _ _).2 hs] at hc
      cases hc
      rfl

/-- `C89_path`, `C89_arguments`: the segment `%37` is read as the number 7, the one behind it not at
all. -/
example : dePath [.val "users".toList, .var, .var] (.tuple [.int .u8])
    (some ["users".toList, "%37".toList, "x".toList]) = .ok (.tuple [.int .u8 7]) := by
  have hm : Matches [.val "users".toList, .var, .var] ["users".toList, "%37".toList, "x".toList] :=
    .cons rfl (.cons trivial (.cons trivial .nil))
  refine (C89_path _ _ hm _ _).2 ⟨_, rfl, ?_⟩
  exact .cons (s := "7".toList) (.escape (n := 55) (by decide) .nil)
    (.scalar (.int (.plain ⟨by decide, by decide⟩) (by decide) (by decide))) .nil

/-- **C89**, queries: the fields are read from the only parameter of their name (of the parameters as
they are really read); this is all that is accepted. -/
theorem C89_query_effective (ts : List (Str × Ty)) (hd : DistinctNames ts) (q : Option Str) (v : Val) :
    deQuery (.struct ts) q = .ok v ↔ ∃ vs, v = .struct vs ∧
      FieldsFrom ParamText (effective ts (row (formParse (q.getD [])))) ts vs := by
  rw [deQuery_effective hd]
  exact readStruct_iff C89_parameters _ _ _

/-- **C89**, queries in which no unknown parameter has a declared name as value: these are simply the
parameters. -/
theorem C89_query (ts : List (Str × Ty)) (hd : DistinctNames ts) (q : Option Str)
    (hq : Tame ts (formParse (q.getD []))) (v : Val) :
    deQuery (.struct ts) q = .ok v ↔
      ∃ vs, v = .struct vs ∧ FieldsFrom ParamText (formParse (q.getD [])) ts vs := by
  rw [deQuery_tame hd hq]
  exact readStruct_iff C89_parameters _ _ _

/-- `C89_query`, `C89_query_effective`, `C89_parameters`: leading zeros are fine; the optional `o` is
not given, and `z` not wanted. -/
example : deQuery (.struct [("x".toList, .bool), ("a".toList, .int .u8), ("o".toList, .option .str)])
    (some "a=007&x=true&z=".toList) =
      .ok (.struct [("x".toList, .bool true), ("a".toList, .int .u8 7), ("o".toList, .none)]) := by
  have hf : formParse ((some "a=007&x=true&z=".toList).getD []) =
    [("a".toList, "007".toList), ("x".toList, "true".toList), ("z".toList, [])] := by rfl
  refine (C89_query _ (by unfold DistinctNames; decide) _ ?_ _).2 ⟨_, rfl, ?_⟩
  · rw [hf]; decide
  rw [hf]
  refine .present (a := [("a".toList, "007".toList)]) (x := "true".toList) rfl (by decide) (by decide)
    (.scalar .true) (.present (a := []) (x := "007".toList) rfl (by decide) (by decide)
      (.scalar (.int (.plain ⟨by decide, by decide⟩) (by decide) (by decide)))
      (.absent (by decide) .nil))

/-- **C89**, headers: the fields are read from the only header of their name, in whatever case; this
is all that is accepted. -/
theorem C89_headers (ts : List (Str × Ty)) (hd : DistinctNames ts) (hs : List Header)
    (hn : AsciiNames hs) (v : Val) :
    deHeaders (.struct ts) hs = .ok v ↔
      ∃ vs, v = .struct vs ∧ FieldsFrom ValueText (hs.map fun h => (nameText h.1, h.2)) ts vs := by
  rw [deHeaders_struct hd hn]
  exact readStruct_iff C89_values _ _ _

/-- `C89_headers`, `C89_values`: `True` is no boolean. -/
example : deHeaders (.struct [("x".toList, .bool)]) [(utf8 "X".toList, utf8 "true".toList)] =
      .ok (.struct [("x".toList, .bool true)]) ∧
    ∀ v, deHeaders (.struct [("x".toList, .bool)]) [(utf8 "X".toList, utf8 "True".toList)] ≠ .ok v := by
  constructor
  · refine (C89_headers _ (by unfold DistinctNames; decide) _ (by unfold AsciiNames; decide) _).2
      ⟨_, rfl, ?_⟩
    exact .present (a := []) (x := utf8 "true".toList) (b := []) (by rfl) (by decide) (by decide)
      (.scalar .true) .nil
  · intro v h
    obtain ⟨vs, -, h⟩ := (C89_headers _ (by unfold DistinctNames; decide) _
      (by unfold AsciiNames; decide) _).1 h
    cases h with
    | @present _ _ a x b _ _ _ h1 h2 h3 h4 h5 =>
      cases a with
      | cons y a => simp at h1
      | nil =>
        obtain ⟨hx, -⟩ := List.cons.inj h1
        have hx : utf8 "True".toList = x := congrArg Prod.snd hx
        rw [← C89_values, ← hx, readBytes, fromUtf8_utf8] at h4
        cases h4

end Htrpc
