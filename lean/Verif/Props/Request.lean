/-
Requests: C23 to C27.
-/
import Verif.Lemmas.Request
import Verif.Lemmas.Message
import Verif.Props.Path
import Verif.Props.Query
import Verif.Props.Header
import Verif.Model.RespSer

namespace Htrpc
open Spec

section
variable [FloatText]

/-! ### C23: the order of the fields -/

omit [FloatText] in
theorem var_mem_iff (e : EntryPoint) : Seg.var ∈ e ↔ varCount e ≠ 0 := by
  induction e with
  | nil => simp
  | cons s e ih => cases s <;> simp [ih]

open ReqSer in
theorem finish_built {e : EntryPoint} {st : ReqSer} {r : ReqBuilder} (h : Built st r)
    (body : Bytes) :
    finish e body st = .ok { r with headers := r.headers ++ [contentLength body] } := by
  rw [finish, takeRequest_built h]; rfl

open ReqSer in
theorem tail_built {e : EntryPoint} {st : ReqSer} {t : Str} (hb : Built st ⟨t, []⟩)
    (h : Option Val) (body : Bytes) :
    (serFields e (optField "header".toList h) st).bind (finish e body) =
      (requestHeaders h).bind fun hs => .ok ⟨t, hs ++ [contentLength body]⟩ := by
  cases h with
  | none => exact finish_built hb body
  | some v =>
    simp only [optField, serFields, serField_header, takeRequest_built hb, requestHeaders]
    change Res.bind (Res.bind (Res.bind (serHeaders [] v) _) _) _ = _
    cases serHeaders [] v with
    | err => rfl
    | panic => rfl
    | ok hs =>
      exact finish_built (st := { st with request := some ⟨t, hs⟩ }) (r := ⟨t, hs⟩) ⟨hb.1, rfl⟩ body

open ReqSer in
theorem tail_path (e : EntryPoint) (path : Str) (q h : Option Val) (body : Bytes) :
    (serFields e (optField "query".toList q ++ optField "header".toList h)
        (AfterPath path)).bind (finish e body) =
      (requestQuery q).bind fun q => (requestHeaders h).bind fun hs =>
        .ok ⟨relativeUrl path q, hs ++ [contentLength body]⟩ := by
  cases q with
  | none =>
    cases h with
    | none => rfl
    | some v =>
      simp only [optField, List.nil_append, serFields, serField_header, takeRequest_path,
        requestHeaders, requestQuery]
      change Res.bind (Res.bind (Res.bind (serHeaders [] v) _) _) _ = Res.bind (serHeaders [] v) _
      cases serHeaders [] v with
      | err => rfl
      | panic => rfl
      | ok hs => exact finish_built (r := ⟨path, hs⟩) ⟨rfl, rfl⟩ body
  | some v =>
    simp only [optField, List.singleton_append, serFields, serField_query_path, requestQuery]
    cases serQuery v with
    | err => rfl
    | panic => rfl
    | ok q =>
      let st : ReqSer := ⟨path, some q, true, false, some ⟨path ++ '?' :: q, []⟩⟩
      exact tail_built (e := e) (st := st) (t := path ++ '?' :: q) ⟨rfl, rfl⟩ h body

open ReqSer in
theorem tail_new {e : EntryPoint} (h : Option Val) (body : Bytes) :
    (serFields e (optField "header".toList h) new).bind (finish e body) =
      (requestPath e none).bind fun path => (requestHeaders h).bind fun hs =>
        .ok ⟨path, hs ++ [contentLength body]⟩ := by
  obtain ⟨h1, h2⟩ := takeRequest_new e
  by_cases hv : varCount e = 0
  · obtain ⟨st, hst, ht⟩ := h2 hv
    rw [requestPath, if_neg (fun hm => (var_mem_iff e).1 hm hv)]
    cases h with
    | none =>
      simp only [optField, serFields, Res.bind, finish, ht]; rfl
    | some v =>
      simp only [optField, serFields, serField_header, ht, requestHeaders]
      change Res.bind (Res.bind (Res.bind (serHeaders [] v) _) _) _ = Res.bind (serHeaders [] v) _
      cases serHeaders [] v with
      | err => rfl
      | panic => rfl
      | ok hs =>
        exact finish_built (st := { st with request := some ⟨_, hs⟩ }) (r := ⟨_, hs⟩) ⟨hst, rfl⟩ body
  · rw [requestPath, if_pos ((var_mem_iff e).2 hv)]
    cases h with
    | none => simp only [optField, serFields, Res.bind, finish, h1 hv]; rfl
    | some v => simp only [optField, serFields, serField_header, h1 hv]; rfl

theorem serRequest_eq (m : Method) (e : EntryPoint) (v : Val) (body : Bytes) :
    serRequest m e v body = ((ReqSer.ser e v ReqSer.new).bind (ReqSer.finish e body)).bind
      fun r => .ok { method := m, target := r.target, headers := r.headers, body } := by
  rw [serRequest]
  cases ReqSer.ser e v ReqSer.new <;> rfl

/-- **C23**, success: a request struct with the fields path, query, header in this order, of which
a part may be missing, becomes exactly the request made of its parts; a query without a path is
rejected. -/
theorem C23_in_order (m : Method) (e : EntryPoint) (p q h : Option Val) (body : Bytes) :
    serRequest m e (.struct (requestFields p q h)) body =
      if p = none ∧ q ≠ none then .err .invalid else requestOf m e p q h body := by
  rw [serRequest_eq, ReqSer.ser, requestFields]
  cases p with
  | none =>
    cases q with
    | none =>
      rw [if_neg (by simp)]
      simp only [optField, List.nil_append]
      have := tail_new (e := e) h body
      simp only [optField] at this
      rw [this, requestOf]
      cases requestPath e none with
      | err => rfl
      | panic => rfl
      | ok p => cases requestHeaders h <;> simp [requestQuery, Res.bind] <;> rfl
    | some v =>
      rw [if_pos (by simp)]
      simp only [optField, List.nil_append, List.singleton_append, ReqSer.serFields,
        ReqSer.serField_query_new]
      rfl
  | some v =>
    rw [if_neg (by simp)]
    simp only [optField, List.cons_append, List.nil_append, ReqSer.serFields]
    rw [ReqSer.serField_path e v _ rfl, requestOf, requestPath]
    change Res.bind (Res.bind (Res.bind (Res.bind (serPath e ['/'] v) _) _) _) _ = _
    cases serPath e ['/'] v with
    | err => rfl
    | panic => rfl
    | ok p =>
      have := tail_path e p q h body
      simp only [Res.bind]
      change Res.bind (Res.bind (ReqSer.serFields e _ (ReqSer.AfterPath p)) (ReqSer.finish e body))
        _ = _
      simp only [optField] at this
      rw [this]
      cases requestQuery q with
      | err => rfl
      | panic => rfl
      | ok q' =>
        cases requestHeaders h with
        | err => rfl
        | panic => rfl
        | ok hs => cases q' <;> rfl


namespace ReqSer

/-- Behind a header only another header can follow. -/
theorem built_rest {e : EntryPoint} {k : Str} {v : Val} {fs : List (Str × Val)} {st st' : ReqSer}
    (hc : st.conn = false) (h : serFields e ((k, v) :: fs) st = .ok st') :
    k = "header".toList := by
  apply Classical.byContradiction
  intro hk
  rw [serFields, serField_built e k v hc hk] at h
  cases h

theorem header_conn {e : EntryPoint} {v : Val} {st st' : ReqSer}
    (hst : st.conn = false ∨ st.request = none)
    (h : serField e "header".toList v st = .ok st') : st'.conn = false := by
  rw [serField_header] at h
  obtain ⟨⟨r, st1⟩, h1, h2⟩ := Res.bind_eq_ok.1 h
  obtain ⟨hs, -, h3⟩ := Res.bind_eq_ok.1 h2
  cases h3
  show st1.conn = false
  rw [takeRequest] at h1
  cases hr : st.request with
  | some r' =>
    rw [hr] at h1 hst
    cases h1
    simpa using hst
  | none =>
    rw [hr] at h1
    dsimp only at h1
    split at h1
    · cases h1
    · split at h1
      · cases h1; rfl
      · split at h1
        · cases h1; rfl
        · cases h1

theorem header_tail {e : EntryPoint} {v : Val} {fs : List (Str × Val)} {st st' : ReqSer}
    (hst : st.conn = false ∨ st.request = none)
    (hd : DistinctNames (("header".toList, v) :: fs))
    (h : serFields e (("header".toList, v) :: fs) st = .ok st') : fs = [] := by
  rw [serFields] at h
  obtain ⟨st1, h1, h2⟩ := Res.bind_eq_ok.1 h
  cases fs with
  | nil => rfl
  | cons f fs =>
    obtain ⟨k, w⟩ := f
    have := built_rest (header_conn hst h1) h2
    subst this
    simp [DistinctNames] at hd

theorem query_tail {e : EntryPoint} {p : Str} {fs : List (Str × Val)} {st' : ReqSer}
    (hd : DistinctNames fs) (hp : "path".toList ∉ fs.map Prod.fst)
    (h : serFields e fs (AfterPath p) = .ok st') :
    ∃ q h, fs = optField "query".toList q ++ optField "header".toList h := by
  cases fs with
  | nil => exact ⟨none, none, rfl⟩
  | cons f fs =>
    obtain ⟨k, v⟩ := f
    have hk : k ≠ "path".toList := by
      rintro rfl; exact hp (by simp)
    by_cases hq : k = "query".toList
    · subst hq
      refine ⟨some v, ?_⟩
      cases fs with
      | nil => exact ⟨none, rfl⟩
      | cons f fs =>
        obtain ⟨k, w⟩ := f
        rw [serFields, serField_query_path] at h
        obtain ⟨st1, h1, h2⟩ := Res.bind_eq_ok.1 h
        obtain ⟨q, -, h3⟩ := Res.bind_eq_ok.1 h1
        cases h3
        have hk := built_rest rfl h2
        subst hk
        have := header_tail (.inl rfl) (List.nodup_cons.1 hd).2 h2
        subst this
        exact ⟨some w, rfl⟩
    · by_cases hh : k = "header".toList
      · subst hh
        have := header_tail (.inr rfl) hd h
        subst this
        exact ⟨none, some v, rfl⟩
      · rw [serFields, serField_other e k v _ hk hq hh] at h
        cases h

end ReqSer

open ReqSer in
/-- **C23**: only structs whose fields are path, query, header in this order become requests. -/
theorem C23_only_in_order (m : Method) (e : EntryPoint) (fs : List (Str × Val))
    (hd : DistinctNames fs) (body : Bytes) (r : Request)
    (h : serRequest m e (.struct fs) body = .ok r) :
    ∃ p q h, fs = requestFields p q h ∧ (q ≠ none → p ≠ none) ∧
      requestOf m e p q h body = .ok r := by
  have key : ∃ p q h, fs = requestFields p q h := by
    rw [serRequest_eq] at h
    obtain ⟨_, h1, _⟩ := Res.bind_eq_ok.1 h
    obtain ⟨st, h2, -⟩ := Res.bind_eq_ok.1 h1
    rw [ReqSer.ser] at h2
    cases fs with
    | nil => exact ⟨none, none, none, rfl⟩
    | cons f fs =>
      obtain ⟨k, v⟩ := f
      by_cases hp : k = "path".toList
      · subst hp
        rw [serFields, serField_path e v _ rfl] at h2
        obtain ⟨st1, h3, h4⟩ := Res.bind_eq_ok.1 h2
        obtain ⟨p, -, h5⟩ := Res.bind_eq_ok.1 h3
        cases h5
        have hd' : DistinctNames fs := by
          simp only [DistinctNames, List.map_cons, List.nodup_cons] at hd; exact hd.2
        have hm : "path".toList ∉ fs.map Prod.fst := by
          simp only [DistinctNames, List.map_cons, List.nodup_cons] at hd; exact hd.1
        obtain ⟨q, hh, rfl⟩ := query_tail (p := p) hd' hm h4
        exact ⟨some v, q, hh, by simp [requestFields, optField]⟩
      by_cases hq : k = "query".toList
      · subst hq
        rw [serFields, serField_query_new] at h2
        cases h2
      by_cases hh : k = "header".toList
      · subst hh
        have := header_tail (.inr rfl) hd h2
        subst this
        exact ⟨none, none, some v, rfl⟩
      · rw [serFields, serField_other e k v _ hp hq hh] at h2
        cases h2
  obtain ⟨p, q, hh, rfl⟩ := key
  rw [C23_in_order] at h
  split at h
  · cases h
  · next hn =>
    refine ⟨p, q, hh, rfl, ?_, h⟩
    intro h1 h2
    exact hn ⟨h2, h1⟩

/-! ### C25: panics -/

namespace ReqSer

/-- The states from which nothing panics. -/
def Safe (st : ReqSer) : Prop :=
  (st.conn = true ∧ st.pathInit = true ∧ st.request = none) ∨
    (st.conn = false ∧ ∃ r, st.request = some r)

theorem takeRequest_safe {e : EntryPoint} {st : ReqSer} (h : Safe st) :
    (takeRequest e st).Sat fun x => x.2.conn = false := by
  rcases h with ⟨h1, h2, h3⟩ | ⟨h1, r, h2⟩
  · rw [takeRequest, h3]; simp [h1, h2]
  · rw [takeRequest, h2]; exact h1

theorem serField_safe {e : EntryPoint} (k : Str) (v : Val) {st : ReqSer} (h : Safe st) :
    (serField e k v st).Sat Safe := by
  by_cases hp : k = "path".toList
  · rw [serField, if_pos hp]
    refine Res.sat_check.bind fun _ hc => (serPath_sat ..).bind fun _ _ => ?_
    rcases h with ⟨h1, h2, h3⟩ | ⟨h1, r, h2⟩
    · exact .inl ⟨h1, rfl, h3⟩
    · rw [h1] at hc; cases hc
  by_cases hq : k = "query".toList
  · rw [serField, if_neg hp, if_pos hq]
    refine Res.sat_check.bind fun _ hc => ?_
    rcases h with ⟨h1, h2, h3⟩ | ⟨h1, r, h2⟩
    · rw [if_pos h2]
      exact (QuerySer.ser_sat ..).bind fun _ _ => .inr ⟨rfl, _, rfl⟩
    · rw [h1] at hc; cases hc
  by_cases hh : k = "header".toList
  · subst hh
    rw [serField_header]
    refine (takeRequest_safe h).bind fun x hx => ?_
    exact (serHeaders_sat ..).bind fun _ _ => .inr ⟨hx, _, rfl⟩
  · rw [serField_other e k v st hp hq hh]; rfl

theorem serFields_safe {e : EntryPoint} (fs : List (Str × Val)) {st : ReqSer} (h : Safe st) :
    (serFields e fs st).Sat Safe := by
  induction fs generalizing st with
  | nil => exact h
  | cons f fs ih => exact (serField_safe f.1 f.2 h).bind fun _ h => ih h

theorem finish_safe {e : EntryPoint} {st : ReqSer} (h : Safe st) (body : Bytes) :
    (finish e body st).Sat fun _ => True :=
  (takeRequest_safe h).bind fun _ _ => trivial

theorem fields_outcome (e : EntryPoint) (body : Bytes) (fs : List (Str × Val)) :
    (ClientPanics e (.struct fs) ∧ (serFields e fs new).bind (finish e body) = .panic) ∨
    (¬ ClientPanics e (.struct fs) ∧
      ((serFields e fs new).bind (finish e body)).Sat fun _ => True) := by
  have safe : ∀ (k : Str) (v : Val) (fs : List (Str × Val)), (serField e k v new).Sat Safe →
      ((serFields e ((k, v) :: fs) new).bind (finish e body)).Sat fun _ => True := by
    intro k v fs h
    rw [serFields]
    exact (h.bind fun _ h => serFields_safe fs h).bind fun _ h => finish_safe h body
  obtain ⟨h1, h2⟩ := takeRequest_new e
  cases fs with
  | nil =>
    by_cases hv : varCount e = 0
    · obtain ⟨st, -, h3⟩ := h2 hv
      refine .inr ⟨?_, ?_⟩
      · intro h; cases h with | empty h => exact (var_mem_iff e).1 h hv
      · show Res.Sat (finish e body new) _
        rw [finish, h3]; trivial
    · refine .inl ⟨.empty ((var_mem_iff e).2 hv), ?_⟩
      show finish e body new = _
      rw [finish, h1 hv]; rfl
  | cons f fs =>
    obtain ⟨k, v⟩ := f
    by_cases hh : k = "header".toList
    · subst hh
      by_cases hv : varCount e = 0
      · obtain ⟨st, hc, h3⟩ := h2 hv
        refine .inr ⟨?_, safe _ _ _ ?_⟩
        · intro h; cases h with | header _ _ h => exact (var_mem_iff e).1 h hv
        · rw [serField_header, h3]
          exact (serHeaders_sat ..).bind fun _ _ => .inr ⟨hc, _, rfl⟩
      · refine .inl ⟨.header _ _ ((var_mem_iff e).2 hv), ?_⟩
        rw [serFields, serField_header, h1 hv]; rfl
    · refine .inr ⟨?_, safe _ _ _ ?_⟩
      · intro h; cases h; exact hh rfl
      by_cases hp : k = "path".toList
      · subst hp
        rw [serField_path e v _ rfl]
        exact (serPath_sat ..).bind fun _ _ => .inl ⟨rfl, rfl, rfl⟩
      by_cases hq : k = "query".toList
      · subst hq; rw [serField_query_new]; rfl
      · rw [serField_other e k v _ hp hq hh]; rfl

theorem variant_outcome (e : EntryPoint) (body : Bytes) (n : Str) (fs : List (Str × Val)) :
    (ClientPanics e (.structVariant n fs) ∧
      (serVariantFields fs new).bind (finish e body) = .panic) ∨
    (¬ ClientPanics e (.structVariant n fs) ∧
      ((serVariantFields fs new).bind (finish e body)).Sat fun _ => True) := by
  obtain ⟨h1, h2⟩ := takeRequest_new e
  cases fs with
  | nil =>
    by_cases hv : varCount e = 0
    · obtain ⟨st, -, h3⟩ := h2 hv
      refine .inr ⟨?_, ?_⟩
      · intro h; cases h with | emptyVariant _ h => exact (var_mem_iff e).1 h hv
      · show Res.Sat (finish e body new) _
        rw [finish, h3]; trivial
    · refine .inl ⟨.emptyVariant _ ((var_mem_iff e).2 hv), ?_⟩
      show finish e body new = _
      rw [finish, h1 hv]; rfl
  | cons f fs =>
    obtain ⟨k, v⟩ := f
    by_cases hh : k = "header".toList
    · subst hh
      exact .inl ⟨.headerVariant _ _ _, rfl⟩
    · refine .inr ⟨?_, ?_⟩
      · intro h; cases h; exact hh rfl
      · rw [serVariantFields, serVariantField, if_neg hh]; rfl

theorem outcome (e : EntryPoint) (body : Bytes) : ∀ v : Val,
    (ClientPanics e v ∧ (ser e v new).bind (finish e body) = .panic) ∨
    (¬ ClientPanics e v ∧ ((ser e v new).bind (finish e body)).Sat fun _ => True)
  | .struct fs => by rw [ser]; exact fields_outcome e body fs
  | .structVariant n fs => by rw [ser]; exact variant_outcome e body n fs
  | .newtypeStruct v => by
    rw [ser]
    rcases outcome e body v with ⟨h1, h2⟩ | ⟨h1, h2⟩
    · exact .inl ⟨.newtypeStruct h1, h2⟩
    · exact .inr ⟨fun h => by cases h with | newtypeStruct h => exact h1 h, h2⟩
  | .newtypeVariant n v => by
    rw [ser]
    rcases outcome e body v with ⟨h1, h2⟩ | ⟨h1, h2⟩
    · exact .inl ⟨.newtypeVariant n h1, h2⟩
    · exact .inr ⟨fun h => by cases h with | newtypeVariant _ h => exact h1 h, h2⟩
  | .bool _ => .inr ⟨nofun, rfl⟩
  | .int _ _ => .inr ⟨nofun, rfl⟩
  | .f32 _ => .inr ⟨nofun, rfl⟩
  | .f64 _ => .inr ⟨nofun, rfl⟩
  | .char _ => .inr ⟨nofun, rfl⟩
  | .str _ => .inr ⟨nofun, rfl⟩
  | .unitVariant _ => .inr ⟨nofun, rfl⟩
  | .bytes _ => .inr ⟨nofun, rfl⟩
  | .none => .inr ⟨nofun, rfl⟩
  | .some _ => .inr ⟨nofun, rfl⟩
  | .seq _ => .inr ⟨nofun, rfl⟩
  | .map _ => .inr ⟨nofun, rfl⟩
  | .unit => .inr ⟨nofun, rfl⟩
  | .unitStruct _ => .inr ⟨nofun, rfl⟩
  | .tuple _ => .inr ⟨nofun, rfl⟩
  | .tupleStruct _ => .inr ⟨nofun, rfl⟩
  | .tupleVariant _ _ => .inr ⟨nofun, rfl⟩

end ReqSer

/-- **C25**, exact: the client panics on exactly the requests of `ClientPanics`. -/
theorem C25_panics_iff (m : Method) (e : EntryPoint) (v : Val) (body : Bytes) :
    serRequest m e v body = .panic ↔ ClientPanics e v := by
  rw [serRequest_eq]
  rcases ReqSer.outcome e body v with ⟨h1, h2⟩ | ⟨h1, h2⟩
  · rw [h2]; exact ⟨fun _ => h1, fun _ => rfl⟩
  · refine ⟨fun h => ?_, fun h => absurd h h1⟩
    rcases h2.ok_or_invalid with ⟨r, hr⟩ | hr <;> rw [hr] at h <;> cases h

/-- **C25**: every other request is sent or rejected with `Invalid`. -/
theorem C25_otherwise_ok_or_invalid (m : Method) (e : EntryPoint) (v : Val) (body : Bytes)
    (h : ¬ ClientPanics e v) :
    (∃ r, serRequest m e v body = .ok r) ∨ serRequest m e v body = .err .invalid := by
  rw [serRequest_eq]
  rcases ReqSer.outcome e body v with ⟨h1, h2⟩ | ⟨h1, h2⟩
  · exact absurd h1 h
  · rcases h2.ok_or_invalid with ⟨r, hr⟩ | hr
    · exact .inl ⟨_, by rw [hr]; rfl⟩
    · exact .inr (by rw [hr]; rfl)

/-- **C23**, rejection: every other struct is rejected with `Invalid`, unless the client
panics (C25). Missing: the misordered requests on which the client
panics, for which the statement is false (`C23_full_fails`). -/
theorem C23_misordered_rejected_partial (m : Method) (e : EntryPoint) (fs : List (Str × Val))
    (hd : DistinctNames fs) (body : Bytes) (hn : ∀ p q h, fs ≠ requestFields p q h)
    (hp : ¬ ClientPanics e (.struct fs)) : serRequest m e (.struct fs) body = .err .invalid := by
  rcases C25_otherwise_ok_or_invalid m e _ body hp with ⟨r, hr⟩ | h
  · obtain ⟨p, q, h, hf, -⟩ := C23_only_in_order m e fs hd body r hr
    exact absurd hf (hn p q h)
  · exact h

/-- **C23**: the full statement is false. A header in front of the path is not rejected with `Invalid`:
the client panics. -/
theorem C23_full_fails (m : Method) (h p : Val) (body : Bytes) :
    serRequest m [.var] (.struct [("header".toList, h), ("path".toList, p)]) body = .panic :=
  (C25_panics_iff m [.var] _ body).2 (.header _ _ (List.mem_singleton.2 rfl))

/-- **C25**: a request struct that starts with the path never panics, nor does any struct if the
entry point has no variables. -/
theorem C25_path_first_never_panics (m : Method) (e : EntryPoint) (v : Val)
    (fs : List (Str × Val)) (body : Bytes) :
    serRequest m e (.struct (("path".toList, v) :: fs)) body ≠ .panic ∧
    (Seg.var ∉ e → serRequest m e (.struct fs) body ≠ .panic) := by
  constructor
  · rw [Ne, C25_panics_iff]
    generalize hk : "path".toList = k
    intro h
    cases h
    exact absurd hk (by decide)
  · intro hv
    rw [Ne, C25_panics_iff]
    intro h
    cases h <;> contradiction

/-- **C25**. The full statement is false: a request without path for an entry point with a
variable, and an enum request with a header. -/
theorem C25_full_fails (m : Method) (body : Bytes) :
    (∃ e v, serRequest m e (.struct v) body = .panic) ∧
    (∀ e n v, serRequest m e (.structVariant n [("header".toList, v)]) body = .panic) := by
  refine ⟨⟨[.var], [], ?_⟩, fun e n v => ?_⟩
  · rw [C25_panics_iff]; exact .empty (by simp)
  · rw [C25_panics_iff]; exact .headerVariant ..

/-! ### C24: a query without path -/

/-- **C24**. The full statement is false, universally: no request struct with a query and
without a path is ever sent. -/
theorem C24_query_needs_path (m : Method) (e : EntryPoint) (fs : List (Str × Val))
    (hd : DistinctNames fs) (hq : Declared fs "query".toList) (hp : ¬ Declared fs "path".toList)
    (body : Bytes) : ∀ r, serRequest m e (.struct fs) body ≠ .ok r := by
  intro r h
  obtain ⟨p, q, hh, rfl, hpq, -⟩ := C23_only_in_order m e fs hd body r h
  cases q with
  | none =>
    cases p <;> cases hh <;> simp [Declared, requestFields, optField] at hq
  | some q =>
    cases p with
    | none => exact hpq (by simp) rfl
    | some p => exact hp (by simp [Declared, requestFields, optField])

/-- **C24**: in the order in which such a struct would be declared it is rejected with `Invalid`
by every entry point, whatever the query. -/
theorem C24_always_invalid (m : Method) (e : EntryPoint) (q : Val) (h : Option Val)
    (body : Bytes) :
    serRequest m e (.struct (requestFields none (some q) h)) body = .err .invalid := by
  rw [C23_in_order, if_pos (by simp)]

/-! ### C26: Content-Length -/

/-- **C26** for requests: the last header is the length of the body in decimal, and the body is
the given one. -/
theorem C26_request_content_length (m : Method) (e : EntryPoint) (v : Val) (body : Bytes)
    (r : Request) (h : serRequest m e v body = .ok r) :
    r.body = body ∧ r.method = m ∧
    ∃ hs, r.headers = hs ++ [(utf8 "Content-Length".toList, utf8 (showNat r.body.length))] := by
  rw [serRequest_eq] at h
  obtain ⟨b, h1, h2⟩ := Res.bind_eq_ok.1 h
  obtain ⟨st, -, h3⟩ := Res.bind_eq_ok.1 h1
  rw [ReqSer.finish] at h3
  obtain ⟨x, -, h4⟩ := Res.bind_eq_ok.1 h3
  cases h2
  cases h4
  exact ⟨rfl, rfl, _, rfl⟩

/-- **C26** for responses. -/
theorem C26_response_content_length (v : Val) (body : Bytes) (r : Response)
    (h : serResponse v body = .ok r) :
    r.body = body ∧
    ∃ hs, r.headers = hs ++ [(utf8 "Content-Length".toList, utf8 (showNat r.body.length))] := by
  rw [serResponse] at h
  obtain ⟨st, -, h1⟩ := Res.bind_eq_ok.1 h
  rw [RespSer.finish] at h1
  cases hr : st.response with
  | none => rw [hr] at h1; cases h1
  | some x =>
    rw [hr] at h1
    cases h1
    exact ⟨rfl, _, rfl⟩

end

/-! ### C27: requests end to end -/

section
variable [LawfulFloatText]

omit [LawfulFloatText] in
theorem varCount_eq_countP (e : EntryPoint) : varCount e = e.countP (· = Seg.var) := by
  induction e with
  | nil => rfl
  | cons s e ih => cases s <;> simp [ih]

omit [LawfulFloatText] in
theorem Spec.AsciiNames.append {a b : List Header} (ha : AsciiNames a) (hb : AsciiNames b) :
    AsciiNames (a ++ b) := by
  intro h hm
  rcases List.mem_append.1 hm with hm | hm
  · exact ha h hm
  · exact hb h hm

omit [LawfulFloatText] in
theorem contentLength_ascii (body : Bytes) : AsciiNames [contentLength body] := by
  intro h hm
  rw [List.mem_singleton.1 hm]
  show ∀ b ∈ contentLengthName, _
  decide

omit [LawfulFloatText] in
theorem contentLength_foreign {ts : List (Str × Ty)} (h : ¬ Declared ts "content-length".toList)
    (body : Bytes) : ∀ x ∈ [contentLength body], ¬ Declared ts (nameText x.1) := by
  intro x hm
  rw [List.mem_singleton.1 hm]
  have : nameText contentLengthName = "content-length".toList := by decide
  show ¬ Declared ts (nameText contentLengthName)
  rw [this]
  exact h

/-- The header part is written as some headers and read back from them, whatever foreign headers
surround them. -/
theorem Spec.HeaderPart.sound {h : Option Val} {t : Option Ty} (hh : HeaderPart h t) (body : Bytes) :
    ∃ own, requestHeaders h = .ok own ∧
      ∀ pre post, AsciiNames pre → AsciiNames post → Foreign t pre → Foreign t post →
        (t = none ∧ h = none) ∨ ∃ ty v, t = some ty ∧ h = some v ∧
          deHeaders ty (pre ++ (own ++ [contentLength body]) ++ post) = .ok v := by
  cases hh with
  | absent => exact ⟨[], rfl, fun _ _ _ _ _ _ => .inl ⟨rfl, rfl⟩⟩
  | @struct fs ts es hp ht hd hl hc =>
    have hle : ∀ e ∈ es, LowerName e.1 := by
      intro e he
      have := FieldEntries_name hp (List.mem_map.2 ⟨e, he, rfl⟩)
      unfold Declared at this
      rw [HasTyFields_names ht] at this
      obtain ⟨f, hf, hf'⟩ := List.mem_map.1 this
      exact hf' ▸ hl f hf
    refine ⟨headersOf es, serHeaders_struct (Spec.HeaderFields.sent hp) [], ?_⟩
    intro pre post h1 h2 h3 h4
    refine .inr ⟨_, _, rfl, rfl, ?_⟩
    obtain ⟨own, k1, k2⟩ := C19_header_round_trip fs ts es hp ht hd hl
    have k3 := k1 []
    rw [serHeaders_struct (Spec.HeaderFields.sent hp) []] at k3
    simp only [List.nil_append, Res.ok.injEq] at k3
    subst k3
    have hown : AsciiNames (headersOf es) := by
      intro x hx
      obtain ⟨e, he, rfl⟩ := List.mem_map.1 hx
      exact utf8_lowerName_ascii (hle e he)
    have hdecl : ∀ x ∈ headersOf es, Declared ts (nameText x.1) := by
      intro x hx
      obtain ⟨e, he, rfl⟩ := List.mem_map.1 hx
      rw [nameText_utf8 (hle e he)]
      have := FieldEntries_name hp (List.mem_map.2 ⟨e, he, rfl⟩)
      unfold Declared at this ⊢
      rwa [HasTyFields_names ht] at this
    have drop : ∀ l : List Header, (∀ x ∈ l, ¬ Declared ts (nameText x.1)) →
        l.filter (fun h => decide (Declared ts (nameText h.1))) = [] := by
      intro l hl
      apply List.filter_eq_nil_iff.2
      intro x hx
      simpa using hl x hx
    apply k2
    · exact Spec.AsciiNames.append (Spec.AsciiNames.append h1
        (Spec.AsciiNames.append hown (contentLength_ascii body))) h2
    · rw [List.filter_append, List.filter_append, List.filter_append, drop _ (h3 ts rfl),
        drop _ (h4 ts rfl), drop _ (contentLength_foreign hc body),
        List.filter_eq_self.2 (fun x hx => by simpa using hdecl x hx)]
      simp

/-- The query part is written as a query and read back from it. -/
theorem Spec.QueryPart.sound {q : Option Val} {t : Option Ty} (hq : QueryPart q t) :
    ∃ text, requestQuery q = .ok text ∧ (∀ s ∈ text, ∀ c ∈ s, QueryChar c) ∧
      ((t = none ∧ q = none) ∨ ∃ ty v, t = some ty ∧ q = some v ∧ deQuery ty text = .ok v) := by
  cases hq with
  | absent => exact ⟨none, rfl, by simp, .inl ⟨rfl, rfl⟩⟩
  | @struct fs ts ps hp ht hd =>
    obtain ⟨x, h1, h2⟩ := C12_query_round_trip_partial fs ts ps hp ht hd
    have h3 := serQuery_struct hp.sent
    rw [h1] at h3
    cases h3
    refine ⟨_, by rw [requestQuery, h1]; rfl, ?_, .inr ⟨_, _, rfl, rfl, h2⟩⟩
    intro s hs c hc
    cases hs
    exact formText_queryChar hc
  | @map kvs k v ps hp ht hd =>
    obtain ⟨x, h1, h2⟩ := C18_query_map_round_trip kvs k v ps hp ht hd
    have h3 := serQuery_map hp
    rw [h1] at h3
    cases h3
    refine ⟨_, by rw [requestQuery, h1]; rfl, ?_, .inr ⟨_, _, rfl, rfl, h2⟩⟩
    intro s hs c hc
    cases hs
    exact formText_queryChar hc

/-- The path part is written as the path of the instantiated entry point and read back from it. -/
theorem Spec.PathPart.sound {e : EntryPoint} (hpc : PlainConsts e) {p : Option Val} {t : Option Ty}
    {ss : List Str} (hp : PathPart e p t ss) :
    requestPath e p = .ok ((instantiate e ss).foldl pushSegment ['/']) ∧
      ((t = none ∧ p = none) ∨ ∃ ty v, t = some ty ∧ p = some v ∧
        dePath e ty (some ((instantiate e ss).map encodeSegment)) = .ok v) := by
  cases hp with
  | absent h => exact ⟨by rw [requestPath, if_neg h], .inl ⟨rfl, rfl⟩⟩
  | @args v vs t ss hv ht hs hn ha hnl =>
    have hw := PathSer.writes_of_plain hs
    have hlen : varCount e = ss.length := by rw [varCount_eq_countP, ← hn, hw.length]
    refine ⟨?_, .inr ⟨_, _, rfl, rfl, dePath_tuple hv ht hs ha hnl hlen hpc⟩⟩
    rw [requestPath, serPath_tuple hv hw, if_pos hlen]

omit [LawfulFloatText] in
theorem readPart_opt {fs : List (Str × Ty)} {key : Str} {t : Option Ty} {v : Option Val}
    (hl : fs.lookup key = t) {rd : Ty → Res Val} {skip : Res Unit} {acc : List (Str × Val)}
    (h : (t = none ∧ v = none ∧ skip = .ok ()) ∨ ∃ ty w, t = some ty ∧ v = some w ∧
      rd ty = .ok w) : readPart fs key rd skip acc = .ok (acc ++ optField key v) := by
  rw [readPart, hl]
  rcases h with ⟨rfl, rfl, rfl⟩ | ⟨ty, w, rfl, rfl, h⟩
  · simp [optField]
  · simp [optField, h]

/-- **C27.** Let `r` be a registered procedure whose constants are plain, and the fields of a
request struct be in the supported class. Then the client sends a request with the method of the
procedure and the given body; the server parses its target, routes it to the handler of `r` and
decodes the same request struct, also if the transport adds headers the type does not ask for. -/
theorem C27_request_end_to_end {H : Type} (o : UrlOracle) (rs : List (Reg H)) (r : Reg H)
    (hr : r ∈ rs) (hcf : ConflictFree rs) (hpc : PlainConsts r.entry) (p q h : Option Val)
    (pt qt ht : Option Ty) (ss : List Str) (hp : PathPart r.entry p pt ss) (hq : QueryPart q qt)
    (hh : HeaderPart h ht) (hpq : q ≠ none → p ≠ none) (hc : Carried (instantiate r.entry ss))
    (hsh : ¬ Shadowed rs r.entry ((instantiate r.entry ss).map asSegment)) (body : Bytes) :
    ∃ req target segs,
      serRequest r.method r.entry (.struct (requestFields p q h)) body = .ok req ∧
      req.method = r.method ∧ req.body = body ∧
      parseTarget o req.target = some target ∧ target.segs = some segs ∧
      (registerAll rs Trie.empty).1.route req.method segs = .ok r.handler ∧
      ∀ pre post, AsciiNames pre → AsciiNames post → Foreign ht pre → Foreign ht post →
        deRequest r.entry (.struct (requestFields pt qt ht)) target (pre ++ req.headers ++ post) =
          .ok (.struct (requestFields p q h)) := by
  rw [asSegment_eq] at hsh
  obtain ⟨hp1, hp2⟩ := hp.sound hpc
  obtain ⟨text, hq1, hq2, hq3⟩ := hq.sound
  obtain ⟨own, hh1, hh2⟩ := hh.sound body
  have hser : serRequest r.method r.entry (.struct (requestFields p q h)) body =
      .ok { method := r.method
            target := joinTarget ((instantiate r.entry ss).foldl pushSegment ['/']) text
            headers := own ++ [contentLength body], body } := by
    rw [C23_in_order, if_neg (fun h => hpq h.2 h.1), requestOf, hp1, hq1, hh1]
    cases text <;> rfl
  refine ⟨_, _, _, hser, rfl, rfl, parseTarget_push o hc text hq2, rfl, ?_, ?_⟩
  · rw [C02_dispatch_iff, accepted_of_conflictFree hcf]
    exact ⟨r, hr, rfl, rfl, matches_instantiate hpc ss, hsh⟩
  · intro pre post h1 h2 h3 h4
    have hh3 := hh2 pre post h1 h2 h3 h4
    rw [deRequest, reqDe_struct]
    have l1 : (requestFields pt qt ht).lookup "path".toList = pt := by
      cases pt <;> cases qt <;> cases ht <;> rfl
    have l2 : (requestFields pt qt ht).lookup "query".toList = qt := by
      cases pt <;> cases qt <;> cases ht <;> rfl
    have l3 : (requestFields pt qt ht).lookup "header".toList = ht := by
      cases pt <;> cases qt <;> cases ht <;> rfl
    rw [readPart_opt l1 (v := p)]
    · simp only [Res.bind_ok]
      rw [readPart_opt l2 (v := q)]
      · simp only [Res.bind_ok]
        rw [readPart_opt l3 (v := h)]
        · simp only [Res.bind_ok]
          have ha : assemble ([] ++ optField "path".toList p ++ optField "query".toList q ++
              optField "header".toList h) (requestFields pt qt ht) =
              .ok (requestFields p q h) := by
            rcases hp2 with ⟨rfl, rfl⟩ | ⟨_, _, rfl, rfl, -⟩ <;>
              rcases hq3 with ⟨rfl, rfl⟩ | ⟨_, _, rfl, rfl, -⟩ <;>
              rcases hh3 with ⟨rfl, rfl⟩ | ⟨_, _, rfl, rfl, -⟩ <;> rfl
          rw [ha]; rfl
        · rcases hh3 with ⟨rfl, rfl⟩ | h
          · exact .inl ⟨rfl, rfl, ignoreHeaders_ok (by simp)⟩
          · exact .inr h
      · rcases hq3 with ⟨rfl, rfl⟩ | h
        · exact .inl ⟨rfl, rfl, rfl⟩
        · exact .inr h
    · rcases hp2 with ⟨rfl, rfl⟩ | h
      · exact .inl ⟨rfl, rfl, rfl⟩
      · exact .inr h

end

/-! ### Examples -/

section Examples

/-- `/users/_` with the argument `a/b?`. -/
def exReqEntry : EntryPoint := [.val "users".toList, .var]
def exReqPath : Val := .tuple [.str "a/b?".toList]
def exReqTexts : List Str := ["a/b?".toList]

theorem exReq_consts : PlainConsts exReqEntry := by
  intro c hc
  simp only [exReqEntry, List.mem_cons, List.not_mem_nil, or_false] at hc
  rcases hc with h | h
  · cases h; intro ch hch; left; revert ch; decide
  · cases h

theorem exReq_path [FloatText] :
    PathPart exReqEntry (some exReqPath) (some (.tuple [.str])) exReqTexts :=
  .args (.tuple _) (.tuple (.cons (.str _) .nil)) (.cons (.str _) .nil) rfl
    (by unfold Ascii; decide) (by unfold NoTabNl; decide)

theorem exReq_header [FloatText] :
    HeaderPart (some (.struct exHeader)) (some (.struct exHeaderTy)) :=
  .struct exHeader_fields exHeader_ty exHeader_names (by decide) (by decide)

/-- `C27` applies to a request with all three fields, a `Host` header added in front. -/
example (o : UrlOracle) (body : Bytes) : letI := toyFloat
    ∃ req target segs,
      serRequest (.other 0) exReqEntry (.struct (requestFields (some exReqPath)
        (some (.struct exQuery)) (some (.struct exHeader)))) body = .ok req ∧
      req.body = body ∧ parseTarget o req.target = some target ∧ target.segs = some segs ∧
      (registerAll [⟨.other 1, [.val "users".toList], 1⟩, ⟨.other 0, exReqEntry, 2⟩]
        Trie.empty).1.route req.method segs = .ok 2 ∧
      deRequest exReqEntry (.struct (requestFields (some (.tuple [.str]))
        (some (.struct exQueryTy)) (some (.struct exHeaderTy)))) target
        ([(utf8 "Host".toList, utf8 "a".toList)] ++ req.headers ++ []) =
        .ok (.struct (requestFields (some exReqPath)
          (some (.struct exQuery)) (some (.struct exHeader)))) := by
  let := toyFloat
  obtain ⟨req, target, segs, h1, h2, h3, h4, h5, h6, h7⟩ := C27_request_end_to_end o
    [⟨.other 1, [.val "users".toList], 1⟩, ⟨.other 0, exReqEntry, 2⟩] ⟨.other 0, exReqEntry, 2⟩
    (by simp) (by unfold ConflictFree; decide) exReq_consts _ _ _ _ _ _ _ exReq_path
    (.struct exQuery_texts exQuery_ty exQuery_names) exReq_header (by simp)
    ⟨by decide, by decide, .inr ⟨_, rfl, by decide⟩⟩ (by
      rintro ⟨pre, suf, p, h1, h2, r, hr, h3⟩
      simp only [List.mem_cons, List.not_mem_nil, or_false] at hr
      rcases hr with rfl | rfl
      all_goals
        simp only [exReqEntry] at h1 h3
        match pre with
        | [] => cases h1
        | [a] => cases h1; simp at h3
        | a :: b :: pre =>
          simp only [List.cons_append, List.cons.injEq] at h1
          exact absurd h1.2.2 (by simp)) body
  refine ⟨req, target, segs, h1, h3, h4, h5, h6, h7 _ _ ?_ ?_ ?_ ?_⟩
  · unfold AsciiNames; decide
  · unfold AsciiNames; decide
  · intro ts hts h hh
    cases hts
    rw [List.mem_singleton.1 hh]
    decide
  · intro ts _ h hh; cases hh

/-- `C23_misordered_rejected_partial`: query before path, for an entry point with a variable. -/
example (p q : Val) (m : Method) : letI := toyFloat
    serRequest m exReqEntry (.struct [("query".toList, q), ("path".toList, p)]) [] =
      .err .invalid := by
  let := toyFloat
  refine C23_misordered_rejected_partial _ _ _ (by simp [DistinctNames]) _ ?_ ?_
  · intro a b c h
    cases a <;> cases b <;> cases c <;> simp [requestFields, optField] at h
  · generalize hk : "query".toList = k
    intro h
    cases h
    exact absurd hk (by decide)

/-- `C24`: a request with a query and a header. -/
example (q h : Val) (m : Method) (r : Request) : letI := toyFloat
    serRequest m [.val ['a']] (.struct [("query".toList, q), ("header".toList, h)]) [] ≠ .ok r := by
  let := toyFloat
  exact C24_query_needs_path m _ [("query".toList, q), ("header".toList, h)]
    (by simp [DistinctNames]) (by simp [Declared]) (by simp [Declared]) [] r

/-- `C25_otherwise_ok_or_invalid`. -/
example : ¬ ClientPanics [.var] (.newtypeStruct (.struct [("path".toList, .unit)])) := by
  generalize hk : "path".toList = k
  intro h
  cases h with
  | newtypeStruct h => cases h; exact absurd hk (by decide)

/-- `C26`: some request and some response are produced. -/
example : letI := toyFloat
    (∃ r, serRequest (.other 0) [.val ['a']] (.struct []) [1, 2] = .ok r) ∧
    (∃ r, serResponse (.unitVariant "Ok".toList) [1, 2] = .ok r) := by
  let := toyFloat
  refine ⟨?_, ⟨_, rfl⟩⟩
  have := C23_in_order (.other 0) [.val ['a']] none none none [1, 2]
  rw [if_neg (by simp)] at this
  exact ⟨_, this⟩

end Examples

end Htrpc
