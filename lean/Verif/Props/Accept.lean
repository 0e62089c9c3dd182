/-
What can be sent in a path, in a query and in headers: C69.
-/
import Verif.Lemmas.Query
import Verif.Lemmas.Header
import Verif.Props.Path

namespace Htrpc
open Spec

variable [FloatText]

/-! ### Queries -/

namespace QuerySer

/-- Inside of a struct or map, a value is a single value, omitted, or rejected. -/
theorem value_cases : ∀ (v : Val) (st : QuerySer), st.isFirst = false →
    (∃ s, SentOpt v s) ∨ Omitted v ∨ ser v st = .err .invalid
  | .bool _, _, _ => .inl ⟨_, .sent (.bool _)⟩
  | .int _ _, _, _ => .inl ⟨_, .sent (.int _ _)⟩
  | .f32 _, _, _ => .inl ⟨_, .sent (.f32 _)⟩
  | .f64 _, _, _ => .inl ⟨_, .sent (.f64 _)⟩
  | .char _, _, _ => .inl ⟨_, .sent (.char _)⟩
  | .str _, _, _ => .inl ⟨_, .sent (.str _)⟩
  | .unitVariant _, _, _ => .inl ⟨_, .sent (.unitVariant _)⟩
  | .none, _, _ => .inr (.inl .none)
  | .some v, st, h => by
    rcases value_cases v st h with ⟨s, hs⟩ | hs | hs
    · exact .inl ⟨s, .some hs⟩
    · exact .inr (.inl (.some hs))
    · exact .inr (.inr (by rw [ser, hs]))
  | .newtypeStruct v, st, h => by
    rcases value_cases v st h with ⟨s, hs⟩ | hs | hs
    · exact .inl ⟨s, .newtypeStruct hs⟩
    · exact .inr (.inl (.newtypeStruct hs))
    · exact .inr (.inr (by rw [ser, hs]))
  | .newtypeVariant _ v, st, h => by
    rcases value_cases v st h with ⟨s, hs⟩ | hs | hs
    · exact .inl ⟨s, .newtypeVariant hs⟩
    · exact .inr (.inl (.newtypeVariant hs))
    · exact .inr (.inr (by rw [ser, hs]))
  | .bytes _, _, _ | .unit, _, _ | .unitStruct _, _, _ | .seq _, _, _ | .tuple _, _, _
  | .tupleStruct _, _, _ | .tupleVariant _ _, _, _ => .inr (.inr (by rw [ser]))
  | .map _, st, h | .struct _, st, h | .structVariant _ _, st, h =>
    .inr (.inr (by rw [ser, enter, h]; rfl))

theorem ser_omitted_invalid {v : Val} (h : Omitted v) {st : QuerySer} (hk : st.key = none) :
    ser v st = .err .invalid := by
  induction h with
  | none => rw [ser, hk]; rfl
  | some _ ih => rw [ser]; exact ih
  | newtypeStruct _ ih => rw [ser]; exact ih
  | newtypeVariant _ ih => rw [ser]; exact ih

theorem serFields_cases (fs : List (Str × Val)) (st : QuerySer) (hf : st.isFirst = false) :
    (∃ ps, SentFields fs ps) ∨ serFields fs st = .err .invalid := by
  induction fs generalizing st with
  | nil => exact .inl ⟨_, .nil⟩
  | cons f fs ih =>
    obtain ⟨n, v⟩ := f
    rw [serFields]
    rcases value_cases v { st with key := some n } hf with ⟨s, hs⟩ | hs | hs
    · rw [ser_sent hs]
      rcases ih (QuerySer.append { st with key := some n } s) hf with ⟨ps, h⟩ | h
      · exact .inl ⟨_, .present hs h⟩
      · exact .inr (by rw [Res.bind_ok, h])
    · rw [ser_omitted hs rfl]
      rcases ih { st with key := none } hf with ⟨ps, h⟩ | h
      · exact .inl ⟨_, .absent hs h⟩
      · exact .inr (by rw [Res.bind_ok, h])
    · rw [hs]; exact .inr rfl

omit [FloatText] in
theorem append_key (st : QuerySer) (hk : st.key = none) (a : Str) :
    st.append a = { st with key := some a } := by rw [append, hk]

theorem serMap_written {kvs : List (Val × Val)} {ps : List (Str × Str)} (h : MapEntries SentOpt kvs ps)
    (st : QuerySer) (hk : st.key = none) :
    serMap kvs st = .ok { st with out := ps.foldl (fun out p => appendPair out p.1 p.2) st.out } := by
  induction h generalizing st with
  | nil => rfl
  | absent ha hv _ ih =>
    rw [serMap, ser_sent ha, Res.bind_ok, append_key st hk, ser_omitted hv rfl, Res.bind_ok, ih _ rfl]
    cases st; cases hk; rfl
  | present ha hb _ ih =>
    rw [serMap, ser_sent ha, Res.bind_ok, append_key st hk, ser_sent hb, Res.bind_ok, ih _ rfl]
    cases st; cases hk; rfl

theorem serMap_cases (kvs : List (Val × Val)) (st : QuerySer) (hf : st.isFirst = false)
    (hk : st.key = none) :
    (∃ ps, MapEntries SentOpt kvs ps) ∨ serMap kvs st = .err .invalid := by
  induction kvs generalizing st with
  | nil => exact .inl ⟨_, .nil⟩
  | cons e kvs ih =>
    obtain ⟨k, v⟩ := e
    rw [serMap]
    rcases value_cases k st hf with ⟨a, ha⟩ | ha | ha
    · rw [ser_sent ha, Res.bind_ok, append_key st hk]
      rcases value_cases v { st with key := some a } hf with ⟨b, hb⟩ | hb | hb
      · rw [ser_sent hb]
        rcases ih (QuerySer.append { st with key := some a } b) hf rfl with ⟨ps, h⟩ | h
        · exact .inl ⟨_, .present ha hb h⟩
        · exact .inr (by rw [Res.bind_ok, h])
      · rw [ser_omitted hb rfl]
        rcases ih { st with key := none } hf rfl with ⟨ps, h⟩ | h
        · exact .inl ⟨_, .absent ha hb h⟩
        · exact .inr (by rw [Res.bind_ok, h])
      · rw [hb]; exact .inr rfl
    · rw [ser_omitted_invalid ha hk]; exact .inr rfl
    · rw [ha]; exact .inr rfl

theorem ser_written {v : Val} {ps : List (Str × Str)} (h : Written SentOpt id v ps) :
    ∃ st, ser v (new []) = .ok st ∧ st.out = formText ps := by
  induction h with
  | single h => exact ⟨_, ser_sent h _, rfl⟩
  | @struct fs es h =>
    refine ⟨_, by rw [ser, enter, new, Res.check_true, Res.bind_ok, Res.bind_ok,
      serFields_sent h _ rfl], ?_⟩
    rw [show (es.map fun e => (id e.1, e.2)) = es by simp]
    rfl
  | @structVariant n fs es h =>
    refine ⟨_, by rw [ser, enter, new, Res.check_true, Res.bind_ok, Res.bind_ok,
      serFields_sent h _ rfl], ?_⟩
    rw [show (es.map fun e => (id e.1, e.2)) = es by simp]
    rfl
  | map h =>
    exact ⟨_, by rw [ser, enter, new, Res.check_true, Res.bind_ok, Res.bind_ok,
      serMap_written h _ rfl], rfl⟩
  | some _ ih => rw [ser]; exact ih
  | newtypeStruct _ ih => rw [ser]; exact ih
  | newtypeVariant _ ih => rw [ser]; exact ih

theorem ser_cases : ∀ v : Val, (∃ ps, Written SentOpt id v ps) ∨ ser v (new []) = .err .invalid
  | .bool _ => .inl ⟨_, .single (.sent (.bool _))⟩
  | .int _ _ => .inl ⟨_, .single (.sent (.int _ _))⟩
  | .f32 _ => .inl ⟨_, .single (.sent (.f32 _))⟩
  | .f64 _ => .inl ⟨_, .single (.sent (.f64 _))⟩
  | .char _ => .inl ⟨_, .single (.sent (.char _))⟩
  | .str _ => .inl ⟨_, .single (.sent (.str _))⟩
  | .unitVariant _ => .inl ⟨_, .single (.sent (.unitVariant _))⟩
  | .none => .inr (by rw [ser]; rfl)
  | .some v => (ser_cases v).imp (fun ⟨ps, h⟩ => ⟨ps, .some h⟩) fun h => by rw [ser, h]
  | .newtypeStruct v =>
    (ser_cases v).imp (fun ⟨ps, h⟩ => ⟨ps, .newtypeStruct h⟩) fun h => by rw [ser, h]
  | .newtypeVariant _ v =>
    (ser_cases v).imp (fun ⟨ps, h⟩ => ⟨ps, .newtypeVariant h⟩) fun h => by rw [ser, h]
  | .bytes _ | .unit | .unitStruct _ | .seq _ | .tuple _
  | .tupleStruct _ | .tupleVariant _ _ => .inr (by rw [ser])
  | .map kvs => (serMap_cases kvs ⟨false, none, []⟩ rfl rfl).imp (fun ⟨_, h⟩ => ⟨_, .map h⟩)
      fun h => by rw [ser, enter, new, Res.check_true, Res.bind_ok, Res.bind_ok, h]
  | .struct fs => (serFields_cases fs ⟨false, none, []⟩ rfl).imp (fun ⟨_, h⟩ => ⟨_, .struct h⟩)
      fun h => by rw [ser, enter, new, Res.check_true, Res.bind_ok, Res.bind_ok, h]
  | .structVariant _ fs => (serFields_cases fs ⟨false, none, []⟩ rfl).imp
      (fun ⟨_, h⟩ => ⟨_, .structVariant h⟩)
      fun h => by rw [ser, enter, new, Res.check_true, Res.bind_ok, Res.bind_ok, h]

end QuerySer

/-- **C69**, queries: a value is either sent as exactly its named entries, or rejected with
`Invalid`. -/
theorem C69_query (v : Val) :
    (∀ ps, Written SentOpt id v ps → ∃ q, serQuery v = .ok q ∧ formParse q = ps) ∧
    ((¬ ∃ ps, Written SentOpt id v ps) → serQuery v = .err .invalid) := by
  refine ⟨fun ps h => ?_, fun h => ?_⟩
  · obtain ⟨st, h1, h2⟩ := QuerySer.ser_written h
    refine ⟨st.out, by rw [serQuery, h1]; rfl, by rw [h2, formParse_formText]⟩
  · rcases QuerySer.ser_cases v with hv | hv
    · exact absurd hv h
    · rw [serQuery, hv]; rfl

/-! ### Headers -/

namespace HeaderSer

/-- Inside of a struct or map, a value is a single value, omitted, or rejected. -/
theorem value_cases : ∀ (v : Val) (st : HeaderSer), st.isFirst = false →
    (∃ s, SentHeader v s) ∨ Omitted v ∨ ser v st = .err .invalid
  | .bool _, _, _ => .inl ⟨_, .sent (.bool _)⟩
  | .int _ _, _, _ => .inl ⟨_, .sent (.int _ _)⟩
  | .f32 _, _, _ => .inl ⟨_, .sent (.f32 _)⟩
  | .f64 _, _, _ => .inl ⟨_, .sent (.f64 _)⟩
  | .char _, _, _ => .inl ⟨_, .sent (.char _)⟩
  | .str _, _, _ => .inl ⟨_, .sent (.str _)⟩
  | .unitVariant _, _, _ => .inl ⟨_, .sent (.unitVariant _)⟩
  | .bytes _, _, _ => .inl ⟨_, .bytes _⟩
  | .unitStruct _, _, _ => .inl ⟨_, .unitStruct _⟩
  | .none, _, _ => .inr (.inl .none)
  | .some v, st, h => by
    rcases value_cases v st h with ⟨s, hs⟩ | hs | hs
    · exact .inl ⟨s, .some hs⟩
    · exact .inr (.inl (.some hs))
    · exact .inr (.inr (by rw [ser, hs]))
  | .newtypeStruct v, st, h => by
    rcases value_cases v st h with ⟨s, hs⟩ | hs | hs
    · exact .inl ⟨s, .newtypeStruct hs⟩
    · exact .inr (.inl (.newtypeStruct hs))
    · exact .inr (.inr (by rw [ser, hs]))
  | .newtypeVariant _ v, st, h => by
    rcases value_cases v st h with ⟨s, hs⟩ | hs | hs
    · exact .inl ⟨s, .newtypeVariant hs⟩
    · exact .inr (.inl (.newtypeVariant hs))
    · exact .inr (.inr (by rw [ser, hs]))
  | .unit, _, _ | .seq _, _, _ | .tuple _, _, _
  | .tupleStruct _, _, _ | .tupleVariant _ _, _, _ => .inr (.inr (by rw [ser]))
  | .map _, st, h | .struct _, st, h | .structVariant _ _, st, h =>
    .inr (.inr (by rw [ser, enter, h]; rfl))

theorem ser_omitted_invalid {v : Val} (h : Omitted v) {st : HeaderSer} (hk : st.key = none) :
    ser v st = .err .invalid := by
  induction h with
  | none => rw [ser, hk]; rfl
  | some _ ih => rw [ser]; exact ih
  | newtypeStruct _ ih => rw [ser]; exact ih
  | newtypeVariant _ ih => rw [ser]; exact ih

theorem serFields_cases (fs : List (Str × Val)) (st : HeaderSer) (hf : st.isFirst = false) :
    (∃ ps, SentHeaders fs ps) ∨ serFields fs st = .err .invalid := by
  induction fs generalizing st with
  | nil => exact .inl ⟨_, .nil⟩
  | cons f fs ih =>
    obtain ⟨n, v⟩ := f
    rw [serFields]
    rcases value_cases v { st with key := some (utf8 n) } hf with ⟨s, hs⟩ | hs | hs
    · rw [ser_sent hs]
      rcases ih (HeaderSer.append { st with key := some (utf8 n) } s) hf with ⟨ps, h⟩ | h
      · exact .inl ⟨_, .present hs h⟩
      · exact .inr (by rw [Res.bind_ok, h])
    · rw [ser_omitted hs rfl]
      rcases ih { st with key := none } hf with ⟨ps, h⟩ | h
      · exact .inl ⟨_, .absent hs h⟩
      · exact .inr (by rw [Res.bind_ok, h])
    · rw [hs]; exact .inr rfl

omit [FloatText] in
theorem append_key (st : HeaderSer) (hk : st.key = none) (a : Bytes) :
    st.append a = { st with key := some a } := by rw [append, hk]

theorem serMap_written {kvs : List (Val × Val)} {hs : List Header} (h : MapEntries SentHeader kvs hs)
    (st : HeaderSer) (hk : st.key = none) :
    serMap kvs st = .ok { st with headers := st.headers ++ hs } := by
  induction h generalizing st with
  | nil => simp [serMap]
  | absent ha hv _ ih =>
    rw [serMap, ser_sent ha, Res.bind_ok, append_key st hk, ser_omitted hv rfl, Res.bind_ok, ih _ rfl]
    cases st; cases hk; rfl
  | present ha hb _ ih =>
    rw [serMap, ser_sent ha, Res.bind_ok, append_key st hk, ser_sent hb, Res.bind_ok, ih _ rfl]
    cases st; cases hk; simp [append]

theorem serMap_cases (kvs : List (Val × Val)) (st : HeaderSer) (hf : st.isFirst = false)
    (hk : st.key = none) :
    (∃ ps, MapEntries SentHeader kvs ps) ∨ serMap kvs st = .err .invalid := by
  induction kvs generalizing st with
  | nil => exact .inl ⟨_, .nil⟩
  | cons e kvs ih =>
    obtain ⟨k, v⟩ := e
    rw [serMap]
    rcases value_cases k st hf with ⟨a, ha⟩ | ha | ha
    · rw [ser_sent ha, Res.bind_ok, append_key st hk]
      rcases value_cases v { st with key := some a } hf with ⟨b, hb⟩ | hb | hb
      · rw [ser_sent hb]
        rcases ih (HeaderSer.append { st with key := some a } b) hf rfl with ⟨ps, h⟩ | h
        · exact .inl ⟨_, .present ha hb h⟩
        · exact .inr (by rw [Res.bind_ok, h])
      · rw [ser_omitted hb rfl]
        rcases ih { st with key := none } hf rfl with ⟨ps, h⟩ | h
        · exact .inl ⟨_, .absent ha hb h⟩
        · exact .inr (by rw [Res.bind_ok, h])
      · rw [hb]; exact .inr rfl
    · rw [ser_omitted_invalid ha hk]; exact .inr rfl
    · rw [ha]; exact .inr rfl

theorem ser_written {v : Val} {hs : List Header} (h : Written SentHeader utf8 v hs)
    (before : List Header) : ∃ st, ser v (new before) = .ok st ∧ st.headers = before ++ hs := by
  induction h with
  | single h => exact ⟨_, ser_sent h _, by simp [append, new]⟩
  | struct h =>
    exact ⟨_, by rw [ser, enter, new, Res.check_true, Res.bind_ok, Res.bind_ok,
      serFields_sent h _ rfl], rfl⟩
  | structVariant h =>
    exact ⟨_, by rw [ser, enter, new, Res.check_true, Res.bind_ok, Res.bind_ok,
      serFields_sent h _ rfl], rfl⟩
  | map h =>
    exact ⟨_, by rw [ser, enter, new, Res.check_true, Res.bind_ok, Res.bind_ok,
      serMap_written h _ rfl], rfl⟩
  | some _ ih => rw [ser]; exact ih
  | newtypeStruct _ ih => rw [ser]; exact ih
  | newtypeVariant _ ih => rw [ser]; exact ih

theorem ser_cases (before : List Header) : ∀ v : Val,
    (∃ hs, Written SentHeader utf8 v hs) ∨ ser v (new before) = .err .invalid
  | .bool _ => .inl ⟨_, .single (.sent (.bool _))⟩
  | .int _ _ => .inl ⟨_, .single (.sent (.int _ _))⟩
  | .f32 _ => .inl ⟨_, .single (.sent (.f32 _))⟩
  | .f64 _ => .inl ⟨_, .single (.sent (.f64 _))⟩
  | .char _ => .inl ⟨_, .single (.sent (.char _))⟩
  | .str _ => .inl ⟨_, .single (.sent (.str _))⟩
  | .unitVariant _ => .inl ⟨_, .single (.sent (.unitVariant _))⟩
  | .bytes _ => .inl ⟨_, .single (.bytes _)⟩
  | .unitStruct _ => .inl ⟨_, .single (.unitStruct _)⟩
  | .none => .inr (by rw [ser]; rfl)
  | .some v => (ser_cases before v).imp (fun ⟨ps, h⟩ => ⟨ps, .some h⟩) fun h => by rw [ser, h]
  | .newtypeStruct v =>
    (ser_cases before v).imp (fun ⟨ps, h⟩ => ⟨ps, .newtypeStruct h⟩) fun h => by rw [ser, h]
  | .newtypeVariant _ v =>
    (ser_cases before v).imp (fun ⟨ps, h⟩ => ⟨ps, .newtypeVariant h⟩) fun h => by rw [ser, h]
  | .unit | .seq _ | .tuple _ | .tupleStruct _ | .tupleVariant _ _ => .inr (by rw [ser])
  | .map kvs => (serMap_cases kvs ⟨false, none, before⟩ rfl rfl).imp (fun ⟨_, h⟩ => ⟨_, .map h⟩)
      fun h => by rw [ser, enter, new, Res.check_true, Res.bind_ok, Res.bind_ok, h]
  | .struct fs => (serFields_cases fs ⟨false, none, before⟩ rfl).imp (fun ⟨_, h⟩ => ⟨_, .struct h⟩)
      fun h => by rw [ser, enter, new, Res.check_true, Res.bind_ok, Res.bind_ok, h]
  | .structVariant _ fs => (serFields_cases fs ⟨false, none, before⟩ rfl).imp
      (fun ⟨_, h⟩ => ⟨_, .structVariant h⟩)
      fun h => by rw [ser, enter, new, Res.check_true, Res.bind_ok, Res.bind_ok, h]

end HeaderSer

/-- **C69**, headers: a value is either added as exactly its named entries, behind the headers that
are there already, or rejected with `Invalid`. -/
theorem C69_headers (v : Val) (before : List Header) :
    (∀ hs, Written SentHeader utf8 v hs → serHeaders before v = .ok (before ++ hs)) ∧
    ((¬ ∃ hs, Written SentHeader utf8 v hs) → serHeaders before v = .err .invalid) := by
  refine ⟨fun hs h => ?_, fun h => ?_⟩
  · obtain ⟨st, h1, h2⟩ := HeaderSer.ser_written h before
    rw [serHeaders, h1]
    exact congrArg Res.ok h2
  · rcases HeaderSer.ser_cases before v with hv | hv
    · exact absurd hv h
    · rw [serHeaders, hv]; rfl

/-! ### Paths -/

theorem PathSer.ser_args {v : Val} {vs : List Val} (h : PathArgs v vs) (st : PathSer) :
    PathSer.ser v st = PathSer.ser (.tuple vs) st := by
  induction h with
  | unit => simp [PathSer.ser, PathSer.serAll]
  | unitStruct n => simp [PathSer.ser, PathSer.serAll]
  | tuple vs => rfl
  | tupleStruct vs => simp [PathSer.ser]
  | tupleVariant n vs => simp [PathSer.ser]
  | newtypeStruct _ ih => rw [PathSer.ser, ih]
  | newtypeVariant _ ih => rw [PathSer.ser, ih]

theorem PathSer.args_or_invalid : ∀ (v : Val) (st : PathSer), st.started = false →
    (∃ vs, PathArgs v vs) ∨ PathSer.ser v st = .err .invalid
  | .unit, _, _ => .inl ⟨_, .unit⟩
  | .unitStruct _, _, _ => .inl ⟨_, .unitStruct _⟩
  | .tuple _, _, _ => .inl ⟨_, .tuple _⟩
  | .tupleStruct _, _, _ => .inl ⟨_, .tupleStruct _⟩
  | .tupleVariant _ _, _, _ => .inl ⟨_, .tupleVariant _ _⟩
  | .newtypeStruct v, st, h => (args_or_invalid v st h).imp (fun ⟨vs, hv⟩ => ⟨vs, .newtypeStruct hv⟩)
      fun h => by rw [PathSer.ser, h]
  | .newtypeVariant _ v, st, h =>
      (args_or_invalid v st h).imp (fun ⟨vs, hv⟩ => ⟨vs, .newtypeVariant hv⟩)
      fun h => by rw [PathSer.ser, h]
  | .bytes _, _, _ | .none, _, _ | .some _, _, _ | .seq _, _, _ | .map _, _, _
  | .struct _, _, _ | .structVariant _ _, _, _ => .inr (by rw [PathSer.ser])
  | .bool _, st, h | .int _ _, st, h | .f32 _, st, h | .f64 _, st, h | .char _, st, h
  | .str _, st, h | .unitVariant _, st, h => .inr (by rw [PathSer.ser, PathSer.bindNextVar, h]; rfl)

theorem scalar_sent {v : Val} (h : Scalar v) : ∃ s, SentAs v s := by
  induction h with
  | bool b => exact ⟨_, .bool b⟩
  | int t i => exact ⟨_, .int t i⟩
  | f32 x => exact ⟨_, .f32 x⟩
  | f64 x => exact ⟨_, .f64 x⟩
  | char c => exact ⟨_, .char c⟩
  | str s => exact ⟨_, .str s⟩
  | unitVariant n => exact ⟨_, .unitVariant n⟩
  | newtypeStruct _ ih => obtain ⟨s, h⟩ := ih; exact ⟨s, .newtypeStruct h⟩
  | newtypeVariant _ ih => obtain ⟨s, h⟩ := ih; exact ⟨s, .newtypeVariant h⟩

theorem sentAll_of_scalars : ∀ {vs : List Val}, (∀ v ∈ vs, Scalar v) → ∃ ss, SentAll vs ss
  | [], _ => ⟨_, .nil⟩
  | v :: vs, h => by
    obtain ⟨s, hs⟩ := scalar_sent (h v List.mem_cons_self)
    obtain ⟨ss, hss⟩ := sentAll_of_scalars fun w hw => h w (List.mem_cons_of_mem _ hw)
    exact ⟨_, .cons hs hss⟩

/-- **C69**, paths: a value is accepted exactly if it is a tuple (in the wide sense of `PathArgs`) of
single values, as many as the entry point has variables. Then the segments of the entry point with the
arguments in place of the variables are pushed to the path; otherwise it is rejected with
`Invalid`. -/
theorem C69_path (e : EntryPoint) (path : Str) (v : Val) :
    (∀ vs ss, PathArgs v vs → SentAll vs ss → vs.length = varCount e →
      serPath e path v = .ok ((instantiate e ss).foldl pushSegment path)) ∧
    ((¬ ∃ vs ss, PathArgs v vs ∧ SentAll vs ss ∧ vs.length = varCount e) →
      serPath e path v = .err .invalid) := by
  refine ⟨fun vs ss hv hs hl => ?_, fun hn => ?_⟩
  · have hw := PathSer.writes_of_sent hs
    have := serPath_tuple (.tuple vs) hw e path
    rw [if_pos (by rw [← hl, hw.length])] at this
    rw [← this, serPath, PathSer.ser_args hv, serPath]
  · rcases PathSer.args_or_invalid v (PathSer.new e path) rfl with ⟨vs, hv⟩ | h
    · have h9 := C09_accepted_iff e path _ _ (.tuple vs)
      have hr : serPath e path (.tuple vs) = .err .invalid := by
        refine h9.2.resolve_left fun hp => ?_
        obtain ⟨h1, h2⟩ := h9.1.1 hp
        obtain ⟨ss, hss⟩ := sentAll_of_scalars h2
        exact hn ⟨vs, ss, hv, hss, h1⟩
      rw [← hr, serPath, PathSer.ser_args hv, serPath]
    · rw [serPath, h]; rfl

/-- **C69**, the part a user would not expect: a single value, such as a number, is accepted as query
or as header and silently dropped. -/
theorem C69_single_dropped (t : IntTy) (i : Int) (before : List Header) :
    serQuery (.int t i) = .ok [] ∧ serHeaders before (.int t i) = .ok before := by
  refine ⟨rfl, ?_⟩
  have := (C69_headers (.int t i) before).1 [] (.single (.sent (.int t i)))
  simpa using this

/-! ### Examples -/

section Examples

/-- `C69_query`: an enum with a map, one value of which is `None`. -/
example : letI := toyFloat
    ∃ q, serQuery (.newtypeVariant "V".toList (.map [(.str "a".toList, .none),
        (.int .u8 7, .some (.str "&".toList))])) = .ok q ∧
      formParse q = [("7".toList, "&".toList)] :=
  letI := toyFloat
  (C69_query _).1 _ (.newtypeVariant (.map (.absent (.sent (.str _)) .none
    (.present (.sent (.int _ _)) (.some (.sent (.str _))) .nil))))

/-- `C69_path`: a unit for an entry point without variables, and a single value without a tuple. -/
example (c s : Str) : letI := toyFloat
    serPath [.val c] ['/'] .unit = .ok (pushSegment ['/'] c) ∧
    serPath [.val c, .var] ['/'] (.str s) = .err .invalid := by
  let := toyFloat
  refine ⟨(C69_path _ _ _).1 _ _ .unit .nil rfl, (C69_path _ _ _).2 ?_⟩
  rintro ⟨vs, ss, h, -⟩
  cases h

theorem written_struct_field {fs : List (Str × Val)} {ps : List (Str × Str)}
    (h : Written SentOpt id (.struct fs) ps) : ∀ f ∈ fs, (∃ s, SentOpt f.2 s) ∨ Omitted f.2 := by
  cases h with
  | single h => cases h with | sent h => cases h
  | struct h =>
    induction h with
    | nil => simp
    | absent h _ ih =>
      intro f hf
      rcases List.mem_cons.1 hf with rfl | hf
      · exact .inr h
      · exact ih f hf
    | present h _ ih =>
      intro f hf
      rcases List.mem_cons.1 hf with rfl | hf
      · exact .inl ⟨_, h⟩
      · exact ih f hf

/-- `C69_query`: a struct inside of a struct is rejected. -/
example (inner : List (Str × Val)) (n : Str) : letI := toyFloat
    serQuery (.struct [(n, .struct inner)]) = .err .invalid := by
  let := toyFloat
  refine (C69_query _).2 fun ⟨ps, h⟩ => ?_
  rcases written_struct_field h _ List.mem_cons_self with ⟨s, h⟩ | h
  · cases h with | sent h => cases h
  · cases h

/-- `C69_headers`: bytes as name and value. -/
example : letI := toyFloat
    serHeaders [([1], [2])] (.map [(.bytes [0x61], .bytes [0xFF])]) =
      .ok [([1], [2]), ([0x61], [0xFF])] :=
  letI := toyFloat
  (C69_headers _ _).1 _ (.map (.present (.bytes _) (.bytes _) .nil))

end Examples

end Htrpc
