/-
What is read has the declared type.
-/
import Verif.Props.Reads
import Verif.Props.ReadsServer
import Verif.Props.Texts

namespace Htrpc
open Spec
section
variable [FloatText]

theorem scalar_typed {t : Ty} {s : Str} {v : Val} (h : ScalarText t s v) : HasTy v t := by
  cases h with
  | true => exact .bool _
  | false => exact .bool _
  | int _ h _ => exact .int _ _ (by simpa [IntTy.fits] using (range_iff _ _).1 h)
  | f32 => exact .f32 _
  | f64 => exact .f64 _

theorem arg_typed {t : Ty} {s : Str} {v : Val} (h : ArgText t s v) : HasTy v t := by
  induction h with
  | scalar h => exact scalar_typed h
  | str => exact .str _
  | newtype _ ih => exact .newtypeStruct ih

theorem param_typed {t : Ty} {s : Str} {v : Val} (h : ParamText t s v) : HasTy v t := by
  induction h with
  | scalar h => exact scalar_typed h
  | str => exact .str _
  | bytes => exact .bytes _
  | some _ ih => exact .some ih
  | unit => exact .unit
  | unitStruct => exact .unitStruct _
  | newtype _ ih => exact .newtypeStruct ih

theorem value_typed {t : Ty} {b : Bytes} {v : Val} (h : ValueText t b v) : HasTy v t := by
  induction h with
  | scalar h => exact scalar_typed h
  | str => exact .str _
  | bytes => exact .bytes _
  | some _ ih => exact .some ih
  | unitStruct => exact .unitStruct _
  | newtype _ ih => exact .newtypeStruct ih

omit [FloatText] in
theorem struct_typed {β : Type} {read : Ty → β → Option Val}
    (hr : ∀ t x v, read t x = some v → HasTy v t) {fs : List (Str × Ty)} {es : List (Str × β)} {v : Val}
    (h : readStruct read fs es = some v) : HasTy v (.struct fs) := by
  rw [readStruct] at h
  obtain ⟨vs, h', rfl⟩ := Option.map_eq_some_iff.1 h
  clear h
  refine .struct ?_
  induction fs generalizing vs with
  | nil => cases h'; exact .nil
  | cons f fs ih =>
    obtain ⟨n, t⟩ := f
    simp only [collectFields] at h'
    split at h'
    · rename_i v ws hv hw
      cases h'
      refine .cons ?_ (ih _ hw)
      rw [fieldValue] at hv
      split at hv
      · split at hv
        · rename_i ho
          cases hv
          cases t <;> try cases ho
          exact .none _
        · cases hv
      · exact hr _ _ _ hv
      · cases hv
    · cases h'

omit [FloatText] in
theorem entries_typed {β : Type} {read : Ty → β → Option Val}
    (hr : ∀ t x v, read t x = some v → HasTy v t) {k t : Ty} {ps : List (β × β)}
    {es : List (Val × Val)} (h : readEntries read k t ps = some es) :
    ∀ e ∈ es, HasTy e.1 k ∧ HasTy e.2 t := by
  induction ps generalizing es with
  | nil => cases h; nofun
  | cons p ps ih =>
    obtain ⟨n, x⟩ := p
    simp only [readEntries] at h
    split at h
    · rename_i a b m ha hb hm
      cases h
      intro e he
      rcases List.mem_cons.1 he with rfl | he
      · exact ⟨hr _ _ _ ha, hr _ _ _ hb⟩
      · exact ih hm e he
    · cases h

omit [FloatText] in
theorem hasTyMap_of {m : List (Val × Val)} {k t : Ty} (h : ∀ e ∈ m, HasTy e.1 k ∧ HasTy e.2 t) :
    HasTyMap m k t := by
  induction m with
  | nil => exact .nil _ _
  | cons e m ih =>
    exact .cons (h e (by simp)).1 (h e (by simp)).2 (ih fun e he => h e (List.mem_cons_of_mem _ he))

omit [FloatText] in
theorem map_typed {es m : List (Val × Val)} {k t : Ty} (h : ∀ e ∈ es, HasTy e.1 k ∧ HasTy e.2 t)
    (hm : MapOf es m) : HasTy (.map m) (.map k t) := by
  refine .map (hasTyMap_of fun e he => ?_)
  obtain ⟨a, b, rfl, -⟩ := (hm.2 e.1 e.2).1 he
  exact h e (by simp)

omit [FloatText] in
theorem key_typed {n : Str} {t : Ty} {v : Val} (h : ReadsKey n t v) : HasTy v t := by
  cases h with
  | str => exact .str _
  | bytes => exact .bytes _
  | variant h => exact .unitVariant (mem_of_lookup h)

theorem query_typed {ps : List (Str × Str)} {t : Ty} {v : Val} (h : ReadsQuery ps t v) :
    HasTy v t := by
  have hr : ∀ t x v, readText t x = some v → HasTy v t := fun t x v h =>
    param_typed ((C89_parameters t x v).1 h)
  induction h with
  | struct h => exact struct_typed hr h
  | map h hm => exact map_typed (entries_typed hr h) hm
  | single _ _ h => exact hr _ _ _ h
  | some _ ih => exact .some ih
  | newtype _ ih => exact .newtypeStruct ih

theorem headers_typed {hs : List Header} {t : Ty} {v : Val} (h : ReadsHeaders hs t v) :
    HasTy v t := by
  have hr : ∀ t x v, readBytes t x = some v → HasTy v t := fun t x v h =>
    value_typed ((C89_values t x v).1 h)
  induction h with
  | struct h => exact struct_typed hr h
  | map h hm => exact map_typed (entries_typed hr h) hm
  | single _ _ h => exact hr _ _ _ h
  | some _ ih => exact .some ih
  | newtype _ ih => exact .newtypeStruct ih

theorem segment_typed {t : Ty} {s : Str} {v : Val} (h : readSegment t s = some v) : HasTy v t := by
  obtain ⟨x, -, h⟩ := Option.bind_eq_some_iff.1 h
  exact arg_typed ((C89_arguments t x v).1 h)

theorem segments_typed {ts : List Ty} {segs : List Str} {vs : List Val}
    (h : readSegments ts segs = some vs) : HasTys vs ts := by
  induction ts generalizing segs vs with
  | nil => cases segs <;> cases h; exact .nil
  | cons t ts ih =>
    cases segs with
    | nil => cases h
    | cons s segs =>
      simp only [readSegments] at h
      split at h
      · rename_i v ws hv hw
        cases h
        exact .cons (segment_typed hv) (ih hw)
      · cases h

theorem each_typed {t : Ty} {segs : List Str} {vs : List Val} (h : readEach t segs = some vs) :
    HasTyAll vs t := by
  induction segs generalizing vs with
  | nil => cases h; exact .nil _
  | cons s segs ih =>
    simp only [readEach] at h
    split at h
    · rename_i v ws hv hw
      cases h
      exact .cons (segment_typed hv) (ih hw)
    · cases h

theorem path_typed : ∀ {t : Ty} {segs : List Str} {v : Val}, readPath t segs = some v → HasTy v t
  | .tuple ts, segs, v, h => by
    rw [readPath] at h
    obtain ⟨vs, h', rfl⟩ := Option.map_eq_some_iff.1 h
    exact .tuple (segments_typed h')
  | .tupleStruct ts, segs, v, h => by
    rw [readPath] at h
    obtain ⟨vs, h', rfl⟩ := Option.map_eq_some_iff.1 h
    exact .tupleStruct (segments_typed h')
  | .seq t, segs, v, h => by
    rw [readPath] at h
    obtain ⟨vs, h', rfl⟩ := Option.map_eq_some_iff.1 h
    exact .seq (each_typed h')
  | .newtypeStruct t, segs, v, h => by
    rw [readPath] at h
    obtain ⟨vs, h', rfl⟩ := Option.map_eq_some_iff.1 h
    exact .newtypeStruct (path_typed h')
  | .bool, segs, v, h | .int _, segs, v, h | .f32, segs, v, h | .f64, segs, v, h
  | .char, segs, v, h | .str, segs, v, h | .bytes, segs, v, h | .option _, segs, v, h
  | .unit, segs, v, h | .unitStruct _, segs, v, h | .map _ _, segs, v, h
  | .struct _, segs, v, h | .enum _, segs, v, h => by
    simp only [readPath] at h
    obtain ⟨s, -, h⟩ := Option.bind_eq_some_iff.1 h
    exact segment_typed h

omit [FloatText] in
theorem fields_typed {P : Str → Ty → Val → Prop} (hp : ∀ n t v, P n t v → HasTy v t)
    {fs : List (Str × Ty)} {vs : List (Str × Val)} (h : Fields P fs vs) : HasTyFields vs fs := by
  induction h with
  | nil => exact .nil
  | cons h _ ih => exact .cons (hp _ _ _ h) ih

theorem request_typed {e : EntryPoint} {segs : List Str} {ps : List (Str × Str)} {hs : List Header}
    {t : Ty} {v : Val} (h : ReadsRequest e segs ps hs t v) : HasTy v t := by
  induction h with
  | struct _ h =>
    refine .struct (fields_typed (fun n t v h => ?_) h)
    cases h with
    | path h => exact path_typed h
    | query h => exact query_typed h
    | header h => exact headers_typed h
    | other => exact .none _
  | map ha hx hb hy hc hz hm =>
    refine map_typed ?_ hm
    simp only [List.forall_mem_cons]
    exact ⟨⟨key_typed ha, path_typed hx⟩, ⟨key_typed hb, query_typed hy⟩,
      ⟨key_typed hc, headers_typed hz⟩, nofun⟩
  | newtype _ ih => exact .newtypeStruct ih

theorem status_typed {code : Nat} {t : Ty} {v : Val} (h : ReadsStatus code t v) : HasTy v t := by
  cases h with
  | int h1 h2 => exact .int _ _ (by simp [IntTy.fits, h1, h2])
  | f32 => exact .f32 _
  | f64 => exact .f64 _

theorem response_fields_typed {code : Nat} {hs : List Header} {whole : Bool} {fs : List (Str × Ty)}
    {vs : List (Str × Val)} (h : Fields (ResponseField code hs whole) fs vs) : HasTyFields vs fs := by
  refine fields_typed (fun n t v h => ?_) h
  cases h with
  | status _ h => exact status_typed h
  | header h => exact headers_typed h
  | other => exact .none _

theorem response_typed {code : Nat} {hs : List Header} {whole : Bool} {t : Ty} {v : Val}
    (h : ReadsResponse code hs whole t v) : HasTy v t := by
  induction h with
  | struct _ h => exact .struct (response_fields_typed h)
  | map ha hx hb hy hm =>
    refine map_typed ?_ hm
    simp only [List.forall_mem_cons]
    exact ⟨⟨key_typed ha, status_typed hx⟩, ⟨key_typed hb, headers_typed hy⟩, nofun⟩
  | innerMap hb hy => exact .map (.cons (key_typed hb) (headers_typed hy) (.nil _ _))
  | newtype _ ih => exact .newtypeStruct ih
  | unit _ h => exact .unitVariant (mem_of_lookup h)
  | newtypeVariant _ h _ ih => exact .newtypeVariant (mem_of_lookup h) ih
  | structVariant _ h _ hf =>
    exact .structVariant (mem_of_lookup h) (response_fields_typed hf)

/-- **C117.** What a server reads from a request, whoever sent it, has the declared type. -/
theorem C117_request_typed (e : EntryPoint) (t : Ty) (ht : WellNamed t) (target : Target)
    (segs : List Str) (hsegs : target.segs = some segs) (hm : Matches e segs) (hs : List Header)
    (hn : AsciiNames hs) (v : Val) (hv : deRequest e t target hs = .ok v) : HasTy v t :=
  request_typed ((C82_request_read e t ht target segs hsegs hm hs hn).ok_iff hv)

/-- **C117.** What a client reads from a response, whoever sent it, has the declared type. -/
theorem C117_response_typed (t : Ty) (ht : WellNamed t) (code : Nat) (hs : List Header)
    (hn : AsciiNames hs) (v : Val) (hv : deResponse t code hs = .ok v) : HasTy v t :=
  response_typed ((C83_response_read t ht code hs hn).ok_iff hv)

/-- **C117.** So a call that completes returns a value of the type that its procedure declares. -/
theorem C117_completed_typed (p : Proc) (hp : WellNamed p.resTy) (v : Val) (body : Bytes)
    (rs : List IoResult) (hn : ∀ code hs, .head code hs ∈ rs → AsciiNames hs) (w : Val) (b : Bytes)
    (h : (callRun p (.new v body) rs).2 = .ready w b) : HasTy w p.resTy := by
  obtain ⟨_, _, -, hr⟩ := (C83_completed p hp v body rs hn).1 w b h
  exact response_typed hr

end

/-- **C117.** Whatever arrives on a connection: handlers are called only with values of the type that
they declare. -/
theorem C117_called_typed [LawfulFloatText] [UrlText] [JsonText] [Wire] (cfg : ServerCfg)
    (es : List ConnEvent) (n : Nat) (h : ReqHead) (l : List ConnEffect)
    (hb : (blocks (connLog cfg es))[n]? = some (h, l)) (s : Service) (v w : Val)
    (hc : (s, v, w) ∈ calls l) (hw : WellNamed s.reqTy) (hn : AsciiNames h.headers) :
    HasTy v s.reqTy := by
  obtain ⟨_, _, -, -, -, -, -, hr⟩ := C82_called cfg es n h l hb s v w hc hw hn
  exact request_typed hr

/-! ### Examples -/

namespace TypedExamples

/-- `C117_request_typed`: whatever is requested, what is read as `u8` from the path is below 256. -/
example (target : Target) (segs : List Str) (hsegs : target.segs = some segs)
    (hm : Matches [.val "users".toList, .var] segs) (hs : List Header) (hn : AsciiNames hs) (v : Val) :
    letI := toyFloat
    deRequest [.val "users".toList, .var] (.struct [("path".toList, .tuple [.int .u8])]) target hs = .ok v →
      ∃ i : Int, 0 ≤ i ∧ i < 256 ∧ v = .struct [("path".toList, .tuple [.int .u8 i])] := by
  let := toyFloat
  intro hv
  have h := C117_request_typed _ (.struct [("path".toList, .tuple [.int .u8])])
    (by simp [WellNamed, WellNamedFields, WellNamedAll, DistinctNames]) target segs hsegs hm hs hn v hv
  cases h with | struct h =>
  cases h with | cons h h' =>
  cases h'
  cases h with | tuple h =>
  cases h with | cons h h' =>
  cases h'
  cases h with | int _ _ h =>
  simp only [IntTy.fits, decide_eq_true_eq, Bool.and_eq_true] at h
  simp only [IntTy.min, IntTy.max] at h
  exact ⟨_, h.1, by omega, rfl⟩

/-- `C117_response_typed`: whatever the server answers, a status read as `u8` is below 256. -/
example (code : Nat) (hs : List Header) (hn : AsciiNames hs) (v : Val) : letI := toyFloat
    deResponse (.struct [("status".toList, .int .u8)]) code hs = .ok v →
      ∃ i : Int, 0 ≤ i ∧ i < 256 ∧ v = .struct [("status".toList, .int .u8 i)] := by
  let := toyFloat
  intro hv
  have h := C117_response_typed (.struct [("status".toList, .int .u8)])
    (by simp [WellNamed, WellNamedFields, DistinctNames]) code hs hn v hv
  cases h with | struct h =>
  cases h with | cons h h' =>
  cases h'
  cases h with | int _ _ h =>
  simp only [IntTy.fits, decide_eq_true_eq, Bool.and_eq_true] at h
  simp only [IntTy.min, IntTy.max] at h
  exact ⟨_, h.1, by omega, rfl⟩

/-- `C117_completed_typed`: whatever happens to it, the call of `C55` returns one of its two variants. -/
example (rs : List IoResult) (hn : ∀ code hs, .head code hs ∈ rs → AsciiNames hs) (w : Val) (b : Bytes) :
    letI := toyFloat
    (callRun exProc (.new exCallArgs [1]) rs).2 = .ready w b →
      w = .unitVariant "Ok".toList ∨ w = .unitVariant "NotFound".toList := by
  let := toyFloat
  intro h
  have h := C117_completed_typed exProc (by simp [exProc, WellNamed, WellNamedVariants, WellNamedVariant])
    _ _ rs hn w b h
  cases h with
  | unitVariant hl => simpa using hl
  | newtypeVariant hl => simp at hl
  | tupleVariant hl => simp at hl
  | structVariant hl => simp at hl

/-- `C117_called_typed`: whatever is sent, a handler of requests without any field gets just that. -/
example [LawfulFloatText] [UrlText] [JsonText] [Wire] (cfg : ServerCfg) (es : List ConnEvent) (n : Nat)
    (h : ReqHead) (l : List ConnEffect) (hb : (blocks (connLog cfg es))[n]? = some (h, l)) (s : Service)
    (hs : s.reqTy = .struct []) (v w : Val) (hc : (s, v, w) ∈ calls l) (hn : AsciiNames h.headers) :
    v = .struct [] := by
  have h := C117_called_typed cfg es n h l hb s v w hc (by simp [hs, WellNamed, WellNamedFields,
    DistinctNames]) hn
  rw [hs] at h
  cases h with | struct h =>
  cases h
  rfl

end TypedExamples

end Htrpc
