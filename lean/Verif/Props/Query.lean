/-
Properties of URL queries (C12-C18).
-/
import Verif.Lemmas.Query
import Verif.Lemmas.Pushed
import Verif.Lemmas.ToyFloat
import Verif.Model.ReqSer

namespace Htrpc
open Spec

/-! ### C12: round trip -/

section
variable [LawfulFloatText]

/-- **C12.** A query struct whose fields are `false`, integers, floats, strings, newtypes or
options of these is written to a query from which the server reads the same struct. -/
theorem C12_query_round_trip_partial (fs : List (Str × Val)) (ts : List (Str × Ty)) (ps : List (Str × Str))
    (hp : FieldTexts fs ps) (ht : HasTyFields fs ts) (hd : DistinctNames ts) :
    ∃ q, serQuery (.struct fs) = .ok q ∧ deQuery (.struct ts) (some q) = .ok (.struct fs) := by
  refine ⟨_, serQuery_struct hp.sent, ?_⟩
  have hdecl : ∀ p ∈ ps, Declared ts p.1 := by
    intro p h
    unfold Declared
    rw [← HasTyFields_names ht]
    exact FieldEntries_name hp (List.mem_map.2 ⟨p, h, rfl⟩)
  have hpf : formParse ((some (formText ps)).getD []) = ps := formParse_formText ps
  rw [deQuery_tame hd (by rw [hpf]; exact .of_declared hdecl), hpf,
    readStruct_of_fields hp ht hd fun v x t hx hv => readText_of_plainOpt hx hv]
  rfl

end

section
variable [FloatText]

/-- The text of `true` is not read back, whatever type was sent. -/
theorem readText_true {v : Val} {s : Str} (h : SentOpt v s) (hv : TrueField v) {t : Ty}
    (ht : HasTy v t) : readText t s = none := by
  induction hv generalizing t with
  | true =>
    cases ht
    cases h with
    | sent h =>
      generalize hw : Val.bool true = w at h
      cases h with
      | bool b => cases hw; rfl
      | _ => cases hw
  | some _ ih =>
    cases ht with
    | some ht =>
      cases h with
      | sent h => cases h
      | some h => simp [readText, ih h ht]
  | newtype _ ih =>
    cases ht with
    | newtypeStruct ht =>
      cases h with
      | sent h =>
        cases h with
        | newtypeStruct h => simp [readText, ih (.sent h) ht]
      | newtypeStruct h => simp [readText, ih h ht]

omit [FloatText] in
/-- Values that contain `true` are sent. -/
theorem TrueField.not_omitted {v : Val} (h : TrueField v) : ¬ Omitted v := by
  induction h with
  | true => intro h; cases h
  | some _ ih => intro h; cases h with | some h => exact ih h
  | newtype _ ih => intro h; cases h with | newtypeStruct h => exact ih h

/-- **C12**, the other direction: a struct with a field that is `true` is sent, but every server
rejects it. -/
theorem C12_true_field_fails (fs : List (Str × Val)) (ts : List (Str × Ty)) (ps : List (Str × Str))
    (hp : SentFields fs ps) (ht : HasTyFields fs ts) (hd : DistinctNames ts)
    (hb : ∃ n v, (n, v) ∈ fs ∧ TrueField v) :
    ∃ q, serQuery (.struct fs) = .ok q ∧ deQuery (.struct ts) (some q) = .err .invalid := by
  refine ⟨_, serQuery_struct hp, ?_⟩
  obtain ⟨n, v, hm, hv⟩ := hb
  have hdecl : ∀ p ∈ ps, Declared ts p.1 := by
    intro p h
    unfold Declared
    rw [← HasTyFields_names ht]
    exact FieldEntries_name hp (List.mem_map.2 ⟨p, h, rfl⟩)
  have hdf : DistinctNames fs := by unfold DistinctNames; rw [HasTyFields_names ht]; exact hd
  obtain ⟨t, htm, htv⟩ := HasTyFields_type ht hm
  have hpf : formParse ((some (formText ps)).getD []) = ps := formParse_formText ps
  rw [deQuery_tame hd (by rw [hpf]; exact .of_declared hdecl), hpf,
    readStruct, collect_none htm]
  · rfl
  · rcases FieldEntries_filter hp hdf hm with ⟨h, -⟩ | ⟨x, hx, hf⟩
    · exact absurd h (TrueField.not_omitted hv)
    · simp only [fieldValue, hf]
      exact readText_true hx hv htv

/-! ### C13: pairs -/

/-- The entries of a `String` to `String` map. -/
def strPairs (ps : List (Str × Str)) : List (Val × Val) := ps.map fun p => (.str p.1, .str p.2)

omit [FloatText] in
theorem strPairs_texts [FloatText] (ps : List (Str × Str)) : MapTexts (strPairs ps) ps := by
  induction ps with
  | nil => exact .nil
  | cons p ps ih => exact .cons (.plain (.str _)) (.plain (.str _)) ih

omit [FloatText] in
theorem strPairs_ty (ps : List (Str × Str)) : HasTyMap (strPairs ps) .str .str := by
  induction ps with
  | nil => exact .nil ..
  | cons p ps ih => exact .cons (.str _) (.str _) ih

/-- **C13.** Whatever keys and values the client writes, and whatever segments were pushed to the path
before the query, the server reads the path text and exactly these pairs from the request target, in
order. -/
theorem C13_query_pairs (o : UrlOracle) (L : List Str) (ps : List (Str × Str)) :
    ∃ q target, serQuery (.map (strPairs ps)) = .ok q ∧
      parseTarget o (ReqSer.relativeUrl (L.foldl pushSegment ['/']) (some q)) = some target ∧
      target.segs = pathSegments (L.foldl pushSegment ['/']) ∧
      formParse (target.query.getD []) = ps := by
  obtain ⟨segs, h1, h2, -⟩ := parseTarget_pushed o L (some (formText ps)) fun q hq c hc => by
    cases hq; exact formText_queryChar hc
  exact ⟨_, _, serQuery_map (strPairs_texts ps), h2, h1.symm, formParse_formText ps⟩

/-- **C13** for structs: the pairs are those of the fields that are present. -/
theorem C13_query_struct_pairs (o : UrlOracle) (L : List Str)
    (fs : List (Str × Val)) (ps : List (Str × Str)) (h : SentFields fs ps) :
    ∃ q target, serQuery (.struct fs) = .ok q ∧
      parseTarget o (ReqSer.relativeUrl (L.foldl pushSegment ['/']) (some q)) = some target ∧
      target.segs = pathSegments (L.foldl pushSegment ['/']) ∧
      formParse (target.query.getD []) = ps := by
  obtain ⟨segs, h1, h2, -⟩ := parseTarget_pushed o L (some (formText ps)) fun q hq c hc => by
    cases hq; exact formText_queryChar hc
  exact ⟨_, _, serQuery_struct h, h2, h1.symm, formParse_formText ps⟩

/-! ### C14: options -/

/-- Omitted values are not sent. -/
theorem Omitted.not_sent {v : Val} (h : Omitted v) (s : Str) : ¬ SentOpt v s := by
  have key : ∀ v s, SentAs v s → ¬ Omitted v := by
    intro v s h
    induction h with
    | newtypeStruct _ ih => intro h; cases h with | newtypeStruct h => exact ih h
    | newtypeVariant _ ih => intro h; cases h with | newtypeVariant h => exact ih h
    | _ => intro h; cases h
  intro hs
  induction hs with
  | sent hs => exact key _ _ hs h
  | some _ ih => cases h with | some h => exact ih h
  | newtypeStruct _ ih => cases h with | newtypeStruct h => exact ih h
  | newtypeVariant _ ih => cases h with | newtypeVariant h => exact ih h

/-- **C14**, sending: a `None` field produces no parameter. -/
theorem C14_none_omitted (fs : List (Str × Val)) (ps : List (Str × Str)) (h : SentFields fs ps)
    (hd : DistinctNames fs) (n : Str) (v : Val) (hm : (n, v) ∈ fs) (hv : Omitted v) :
    ∃ q, serQuery (.struct fs) = .ok q ∧ ∀ p ∈ formParse q, p.1 ≠ n := by
  refine ⟨_, serQuery_struct h, ?_⟩
  rw [formParse_formText]
  intro p hp e
  rcases FieldEntries_filter h hd hm with ⟨-, hf⟩ | ⟨x, hx, -⟩
  · have := List.filter_eq_nil_iff.1 hf p hp
    simp [e] at this
  · exact Omitted.not_sent hv x hx

/-- **C14**, receiving (the part that holds): an optional field without parameter
is `None` in the decoded value, and a missing required field is an `Invalid` error, provided that
no unknown parameter has a declared name as value (`Tame`).
Missing: all other queries, for which it is false (`C14_full_fails`). -/
theorem C14_absent_partial (ts : List (Str × Ty)) (hd : DistinctNames ts) (q : Option Str)
    (hq : Tame ts (formParse (q.getD []))) (n : Str) (t : Ty) (hm : (n, t) ∈ ts)
    (ha : ∀ p ∈ formParse (q.getD []), p.1 ≠ n) :
    (isOption t = true → ∀ v, deQuery (.struct ts) q = .ok v →
      ∃ vs, v = .struct vs ∧ (n, Val.none) ∈ vs) ∧
    (isOption t = false → deQuery (.struct ts) q = .err .invalid) := by
  have hf : (formParse (q.getD [])).filter (fun e => decide (e.1 = n)) = [] := by
    apply List.filter_eq_nil_iff.2
    intro p hp
    simpa using ha p hp
  rw [deQuery_tame hd hq, readStruct]
  constructor
  · intro ho v hv
    cases hc : collectFields (fieldValue readText (formParse (q.getD []))) ts with
    | none => rw [hc] at hv; cases hv
    | some vs =>
      rw [hc] at hv
      cases hv
      obtain ⟨w, hw, hw'⟩ := mem_collect hc hm
      simp only [fieldValue, hf, ho, if_true, Option.some.injEq] at hw
      exact ⟨vs, rfl, hw ▸ hw'⟩
  · intro ho
    rw [collect_none hm]
    · rfl
    · simp [fieldValue, hf, ho]

/-! ### C15: unknown parameters -/

/-- **C15** (the part that holds): adding parameters that are not declared, at any places, changes
nothing, provided that the values of the added parameters (except of the last one of the query) are
not names of declared parameters.
Missing: unknown parameters whose value is a declared name, see `C15_full_fails`. -/
theorem C15_unknown_ignored_partial (ts : List (Str × Ty)) (hd : DistinctNames ts)
    (q q' : Option Str) (ht : Tame ts (formParse (q'.getD [])))
    (hq : formParse (q.getD []) =
      (formParse (q'.getD [])).filter fun p => decide (Declared ts p.1)) :
    deQuery (.struct ts) q' = deQuery (.struct ts) q := by
  have ht' : Tame ts (formParse (q.getD [])) := by
    apply Tame.of_declared
    intro p hp
    rw [hq] at hp
    simpa using (List.mem_filter.1 hp).2
  rw [deQuery_tame hd ht, deQuery_tame hd ht', hq, readStruct_filter]

/-- **C15**: the full statement is false.  The struct has one field `a : u8`; in `x=a&a=1` the
parameter `x` is unknown, but its value is taken for a name. -/
theorem C15_full_fails :
    ∃ (ts : List (Str × Ty)) (q q' : Str) (k v : Str), DistinctNames ts ∧ ¬ Declared ts k ∧
      formParse q' = (k, v) :: formParse q ∧
      (∃ w, deQuery (.struct ts) (some q) = .ok w) ∧
      deQuery (.struct ts) (some q') = .err .invalid := by
  have h1 : formParse ((some "a=1".toList).getD []) = [("a".toList, "1".toList)] := by decide
  have h2 : formParse ((some "x=a&a=1".toList).getD []) =
    [("x".toList, "a".toList), ("a".toList, "1".toList)] := by decide
  have h3 : parseInt .u8 ['1'] = some 1 := by decide
  have h4 : parseInt .u8 ['a'] = none := by decide
  refine ⟨[("a".toList, .int .u8)], "a=1".toList, "x=a&a=1".toList, "x".toList, "a".toList,
    by unfold DistinctNames; decide, by decide, by decide, ⟨.struct [("a".toList, .int .u8 1)], ?_⟩,
    ?_⟩
  · rw [deQuery_texts, h1]
    simp [h3, gatherTexts, readText, assemble, List.lookup]
  · rw [deQuery_texts, h2]
    simp [h4, gatherTexts, readText, List.lookup]

/-- **C15**, worse: a parameter can be smuggled in as the value of an unknown one.  The struct has
an optional field `a : u8`; the query `x=a&1=1` has the parameters `x` and `1`, both unknown, and
yet `a` is read as 1. -/
theorem C15_smuggling :
    ∃ (ts : List (Str × Ty)) (q : Str), DistinctNames ts ∧
      (∀ p ∈ formParse q, ¬ Declared ts p.1) ∧
      deQuery (.struct ts) none = .ok (.struct [("a".toList, .none)]) ∧
      deQuery (.struct ts) (some q) = .ok (.struct [("a".toList, .some (.int .u8 1))]) := by
  have h1 : formParse ((none : Option Str).getD []) = [] := by decide
  have h2 : formParse ((some "x=a&1=1".toList).getD []) =
    [("x".toList, "a".toList), ("1".toList, "1".toList)] := by decide
  have h3 : parseInt .u8 ['1'] = some 1 := by decide
  refine ⟨[("a".toList, .option (.int .u8))], "x=a&1=1".toList,
    by unfold DistinctNames; decide, by decide, ?_, ?_⟩
  · rw [deQuery_texts, h1]
    simp [gatherTexts, assemble, missingField, List.lookup]
  · rw [deQuery_texts, h2]
    simp [h3, gatherTexts, readText, assemble, List.lookup]

/-- **C15**, exact: what any query decodes to (value or error) is determined by its effective
parameters, see `effective`. -/
theorem C15_read_exactly (ts : List (Str × Ty)) (hd : DistinctNames ts) (q : Option Str) :
    deQuery (.struct ts) q =
      Res.ofOption (readStruct readText ts (effective ts (row (formParse (q.getD []))))) :=
  deQuery_effective hd q

/-- **C14**, for all queries: a field that is effectively not given is `None` if it is optional and an
`Invalid` error otherwise. -/
theorem C14_effective_absent (ts : List (Str × Ty)) (hd : DistinctNames ts) (q : Option Str)
    (n : Str) (t : Ty) (hm : (n, t) ∈ ts)
    (ha : ∀ p ∈ effective ts (row (formParse (q.getD []))), p.1 ≠ n) :
    (isOption t = true → ∀ v, deQuery (.struct ts) q = .ok v →
      ∃ vs, v = .struct vs ∧ (n, Val.none) ∈ vs) ∧
    (isOption t = false → deQuery (.struct ts) q = .err .invalid) := by
  rw [deQuery_effective hd, readStruct]
  generalize effective ts (row (formParse (q.getD []))) = ps at ha
  have hf : ps.filter (fun e => decide (e.1 = n)) = [] := by
    apply List.filter_eq_nil_iff.2
    intro p hp
    simpa using ha p hp
  constructor
  · intro ho v hv
    cases hc : collectFields (fieldValue readText ps) ts with
    | none => rw [hc] at hv; cases hv
    | some vs =>
      rw [hc] at hv
      cases hv
      obtain ⟨w, hw, hw'⟩ := mem_collect hc hm
      simp only [fieldValue, hf, ho, if_true, Option.some.injEq] at hw
      exact ⟨vs, rfl, hw ▸ hw'⟩
  · intro ho
    rw [collect_none hm]
    · rfl
    · simp [fieldValue, hf, ho]

/-- **C14**: the full statement is false for receivers. In `x=a&1=1` there is no parameter `a`, and
yet the optional field `a` is not `None`. -/
theorem C14_full_fails :
    ∃ (ts : List (Str × Ty)) (n : Str) (q : Str) (v : Val), DistinctNames ts ∧
      (n, .option (.int .u8)) ∈ ts ∧ (∀ p ∈ formParse q, p.1 ≠ n) ∧
      deQuery (.struct ts) (some q) = .ok (.struct [(n, v)]) ∧ v ≠ .none := by
  have h2 : formParse ((some "x=a&1=1".toList).getD []) =
    [("x".toList, "a".toList), ("1".toList, "1".toList)] := by decide
  have h3 : parseInt .u8 ['1'] = some 1 := by decide
  refine ⟨[("a".toList, .option (.int .u8))], "a".toList, "x=a&1=1".toList, .some (.int .u8 1),
    by unfold DistinctNames; decide, List.mem_cons_self .., by decide, ?_, nofun⟩
  rw [deQuery_texts, h2]
  simp [h3, gatherTexts, readText, assemble, List.lookup]

/-! ### C16, C17: order and repetition -/

/-- **C16.** Permuting declared parameters changes nothing (value or error). -/
theorem C16_order_irrelevant (ts : List (Str × Ty)) (hd : DistinctNames ts) (q q' : Option Str)
    (hq : ∀ p ∈ formParse (q.getD []), Declared ts p.1)
    (hp : (formParse (q.getD [])).Perm (formParse (q'.getD []))) :
    deQuery (.struct ts) q' = deQuery (.struct ts) q := by
  rw [deQuery_tame hd (.of_declared hq),
    deQuery_tame hd (.of_declared fun p h => hq p (hp.symm.subset h)), readStruct_perm hp.symm]

/-- **C17** (the part that holds): a declared parameter that occurs twice is rejected as `Invalid`,
provided that no unknown parameter has a declared name as value (`Tame`).
Missing: all other queries, for which it is false (`C17_full_fails`). -/
theorem C17_duplicate_rejected_partial (ts : List (Str × Ty)) (hd : DistinctNames ts) (q : Option Str)
    (hq : Tame ts (formParse (q.getD []))) (pre mid post : List (Str × Str))
    (n x y : Str) (hn : Declared ts n) (hdup : formParse (q.getD []) = pre ++ (n, x) :: mid ++ (n, y) :: post) :
    deQuery (.struct ts) q = .err .invalid := by
  rw [deQuery_tame hd hq, readStruct_dup (n := n)]
  · rfl
  · exact hn
  · rw [hdup]
    simp [List.filter_append]
    omega

/-- **C17**: the full statement is false. The query `x=b&a=1&a=2` has the declared parameter `a` twice;
it is accepted and the second value wins. -/
theorem C17_full_fails :
    ∃ (ts : List (Str × Ty)) (n x y : Str) (q : Str) (w : Val), DistinctNames ts ∧ Declared ts n ∧
      x ≠ y ∧ (n, x) ∈ formParse q ∧ (n, y) ∈ formParse q ∧
      deQuery (.struct ts) (some q) =
        .ok (.struct [(n, .some (.str y)), ("b".toList, .some w)]) := by
  have hp : formParse ((some "x=b&a=1&a=2".toList).getD []) =
    [("x".toList, "b".toList), ("a".toList, "1".toList), ("a".toList, "2".toList)] := by decide
  refine ⟨[("a".toList, .option .str), ("b".toList, .option .str)], "a".toList, "1".toList,
    "2".toList, "x=b&a=1&a=2".toList, .str "a".toList, by unfold DistinctNames; decide, by decide,
    by decide, by decide, by decide, ?_⟩
  rw [deQuery_texts, hp]
  simp [gatherTexts, readText, assemble, List.lookup]

/-- **C17**, for all queries: a parameter that is effectively given twice is rejected as `Invalid`,
also if one of them is hidden in the value of an unknown one. -/
theorem C17_effective_duplicate (ts : List (Str × Ty)) (hd : DistinctNames ts) (q : Option Str)
    (pre mid post : List (Str × Str)) (n x y : Str) (hn : Declared ts n)
    (hdup : effective ts (row (formParse (q.getD []))) = pre ++ (n, x) :: mid ++ (n, y) :: post) :
    deQuery (.struct ts) q = .err .invalid := by
  rw [deQuery_effective hd, readStruct_dup (n := n)]
  · rfl
  · exact hn
  · rw [hdup]
    simp [List.filter_append]
    omega

/-- `C15_read_exactly` and `C17_effective_duplicate` for `x=a&1=z&a=2`: the first `a` is hidden in
the value of `x`, the second is given openly. -/
example : deQuery (.struct [("a".toList, .option (.int .u8))]) (some "x=a&1=z&a=2".toList) =
    .err .invalid := by
  have hp : formParse ((some "x=a&1=z&a=2".toList).getD []) =
    [("x".toList, "a".toList), ("1".toList, "z".toList), ("a".toList, "2".toList)] := by decide
  refine C17_effective_duplicate _ (by unfold DistinctNames; decide) _ [] [] [] "a".toList
    "1".toList "2".toList (by decide) ?_
  rw [hp]
  simp [row, effective, Declared]

end

/-! ### C18: maps -/

section
variable [LawfulFloatText]

/-- **C18.** A map of plain keys to plain values is read back, entry by entry. -/
theorem C18_query_map_round_trip (kvs : List (Val × Val)) (k v : Ty) (ps : List (Str × Str))
    (h : MapTexts kvs ps) (ht : HasTyMap kvs k v) (hd : DistinctKeys kvs) :
    ∃ q, serQuery (.map kvs) = .ok q ∧ deQuery (.map k v) (some q) = .ok (.map kvs) :=
  ⟨_, serQuery_map h, deQuery_map h ht hd (by simp [formParse_formText])⟩

end

/-! ### Examples -/

section Examples

/-- A query struct: `name: "a&b=é"`, `page: Some(-3)`, `tag: None`, `exact: false`. -/
def exQuery : List (Str × Val) :=
  [("name".toList, .str "a&b=é".toList), ("page".toList, .some (.newtypeStruct (.int .i32 (-3)))),
    ("tag".toList, .none), ("exact".toList, .bool false)]

def exQueryTy : List (Str × Ty) :=
  [("name".toList, .str), ("page".toList, .option (.newtypeStruct (.int .i32))),
    ("tag".toList, .option .str), ("exact".toList, .bool)]

def exQueryPairs : List (Str × Str) :=
  [("name".toList, "a&b=é".toList), ("page".toList, "-3".toList), ("exact".toList, "false".toList)]

theorem exQuery_ty : HasTyFields exQuery exQueryTy :=
  .cons (.str _) (.cons (.some (.newtypeStruct (.int _ _ (by decide))))
    (.cons (.none _) (.cons (.bool _) .nil)))

theorem exQuery_texts [FloatText] : FieldTexts exQuery exQueryPairs :=
  .present (.plain (.str _)) (.present (.some (.plain (.newtype (.int _ _))))
    (.absent rfl (.present (.plain .false) .nil)))

theorem exQuery_names : DistinctNames exQueryTy := by unfold DistinctNames; decide

example : letI := toyFloat
    ∃ q, serQuery (.struct exQuery) = .ok q ∧
      deQuery (.struct exQueryTy) (some q) = .ok (.struct exQuery) :=
  letI := toyFloat
  C12_query_round_trip_partial exQuery exQueryTy exQueryPairs exQuery_texts exQuery_ty exQuery_names

/-- The query that is sent. -/
example : letI := toyFloat
    serQuery (.struct exQuery) = .ok "name=a%26b%3D%C3%A9&page=-3&exact=false".toList := by
  let := toyFloat
  rw [serQuery_struct exQuery_texts.sent]
  decide

/-- `C12_true_field_fails`: a flag. -/
example : letI := toyFloat
    ∃ q, serQuery (.struct [("f".toList, .bool true)]) = .ok q ∧
      deQuery (.struct [("f".toList, .bool)]) (some q) = .err .invalid :=
  letI := toyFloat
  C12_true_field_fails _ _ _ (.present (.sent (.bool true)) .nil) (.cons (.bool _) .nil)
    (by unfold DistinctNames; decide) ⟨_, _, List.mem_cons_self .., .true⟩

/-- `C13`: hostile texts. -/
example (o : UrlOracle) : letI := toyFloat
    ∃ q target, serQuery (.map (strPairs [("a&b".toList, "=%26+ #é".toList), ([], [])])) = .ok q ∧
      parseTarget o (ReqSer.relativeUrl (["x".toList, "\t..".toList, [], "?y".toList].foldl
        pushSegment ['/']) (some q)) = some target ∧
      target.segs = some ["%3Fy".toList] ∧
      formParse (target.query.getD []) = [("a&b".toList, "=%26+ #é".toList), ([], [])] :=
  letI := toyFloat
  C13_query_pairs o _ _

/-- `C14`, sending: the field `tag`. -/
example : letI := toyFloat
    ∃ q, serQuery (.struct exQuery) = .ok q ∧ ∀ p ∈ formParse q, p.1 ≠ "tag".toList :=
  letI := toyFloat
  C14_none_omitted exQuery exQueryPairs exQuery_texts.sent (by unfold DistinctNames; decide) _ .none
    (by simp [exQuery]) .none

/-- `C14`, receiving: `name` is missing in `page=-3`. -/
example : letI := toyFloat
    deQuery (.struct exQueryTy) (some "page=-3".toList) = .err .invalid := by
  let := toyFloat
  exact (C14_absent_partial exQueryTy exQuery_names (some "page=-3".toList) (by decide) "name".toList .str
    (by simp [exQueryTy]) (by decide)).2 rfl

/-- `C15`: unknown parameters in the middle and at the end. -/
example : letI := toyFloat
    deQuery (.struct exQueryTy) (some "name=a&x=1&exact=false&y=name".toList) =
      deQuery (.struct exQueryTy) (some "name=a&exact=false".toList) :=
  letI := toyFloat
  C15_unknown_ignored_partial exQueryTy exQuery_names _ _ (by decide) (by decide)

/-- `C16`: two orders. -/
example : letI := toyFloat
    deQuery (.struct exQueryTy) (some "exact=false&name=a".toList) =
      deQuery (.struct exQueryTy) (some "name=a&exact=false".toList) :=
  letI := toyFloat
  C16_order_irrelevant exQueryTy exQuery_names _ _ (by decide) (by decide)

/-- `C17`: `name` twice. -/
example : letI := toyFloat
    deQuery (.struct exQueryTy) (some "name=a&exact=false&name=b".toList) = .err .invalid :=
  letI := toyFloat
  C17_duplicate_rejected_partial exQueryTy exQuery_names _ (by decide) [] [("exact".toList, "false".toList)]
    [] "name".toList "a".toList "b".toList (by decide) (by decide)

/-- `C18`: a map from numbers to texts. -/
example : letI := toyFloat
    ∃ q, serQuery (.map [(.int .u8 1, .str "&".toList), (.int .u8 2, .str [])]) = .ok q ∧
      deQuery (.map (.int .u8) .str) (some q) =
        .ok (.map [(.int .u8 1, .str "&".toList), (.int .u8 2, .str [])]) :=
  letI := toyFloat
  C18_query_map_round_trip _ _ _ _
    (.cons (.plain (.int _ _)) (.plain (.str _)) (.cons (.plain (.int _ _)) (.plain (.str _)) .nil))
    (.cons (.int _ _ (by decide)) (.str _) (.cons (.int _ _ (by decide)) (.str _) (.nil _ _)))
    (by unfold DistinctKeys; decide)

end Examples

end Htrpc
