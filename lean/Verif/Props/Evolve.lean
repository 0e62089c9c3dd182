import Verif.Spec.Evolve
import Verif.Props.Reads
import Verif.Props.Request

namespace Htrpc
open Spec

theorem lookup_declared {α : Type} {fs : List (Str × α)} {n : Str} :
    (∃ t, fs.lookup n = some t) ↔ Declared fs n := by
  induction fs with
  | nil => simp [Declared]
  | cons f fs ih =>
    obtain ⟨m, t⟩ := f
    rw [List.lookup_cons]
    by_cases h : n = m
    · subst h; simp [Declared]
    · have : (n == m) = false := by simpa using h
      simp only [this]
      rw [ih]
      simp [Declared, h]

section
variable {P Q : Str → Ty → Val → Prop}

theorem fields_names {fs : List (Str × Ty)} {vs : List (Str × Val)} (h : Fields P fs vs) :
    vs.map Prod.fst = fs.map Prod.fst := by
  induction h with
  | nil => rfl
  | cons _ _ ih => simp [ih]

theorem fields_lookup {fs : List (Str × Ty)} {vs : List (Str × Val)} (h : Fields P fs vs)
    (hd : DistinctNames fs) {n : Str} {t : Ty} (hm : (n, t) ∈ fs) :
    ∃ v, vs.lookup n = some v ∧ P n t v := by
  obtain ⟨v, hv, hp⟩ := fields_mem h hm
  exact ⟨v, lookup_of_mem (by unfold DistinctNames; rw [fields_names h]; exact hd) hv, hp⟩

theorem fields_lookup_none {fs : List (Str × Ty)} {vs : List (Str × Val)} (h : Fields P fs vs)
    {n : Str} (hn : ¬ Declared fs n) : vs.lookup n = none := by
  cases hl : vs.lookup n with
  | none => rfl
  | some v =>
    refine absurd ?_ hn
    unfold Declared
    rw [← fields_names h]
    exact List.mem_map.2 ⟨_, mem_of_lookup hl, rfl⟩

theorem fields_map {g : Str × Ty → Val} {fs : List (Str × Ty)}
    (h : ∀ n t, (n, t) ∈ fs → P n t (g (n, t))) : Fields P fs (fs.map fun f => (f.1, g f)) := by
  induction fs with
  | nil => exact .nil
  | cons f fs ih =>
    exact .cons (h f.1 f.2 (List.mem_cons_self ..)) (ih fun n t hm => h n t (List.mem_cons_of_mem _ hm))

theorem fields_refit_self {fs : List (Str × Ty)} {vs : List (Str × Val)} (h : Fields P fs vs)
    (hd : DistinctNames fs) : refit fs vs = vs := by
  have hv : DistinctNames vs := by unfold DistinctNames; rw [fields_names h]; exact hd
  have : refit fs vs = vs.map fun f => (f.1, (vs.lookup f.1).getD .none) := by
    have e : refit fs vs = (fs.map Prod.fst).map fun n => (n, (vs.lookup n).getD .none) := by
      simp [refit]
    rw [e, ← fields_names h]
    simp
  rw [this]
  conv_rhs => rw [← List.map_id vs]
  refine List.map_congr_left fun f hf => ?_
  rw [lookup_of_mem hv hf]
  rfl

end

theorem collectFields_of_fields {value : Str → Ty → Option Val} {fs : List (Str × Ty)}
    {vs : List (Str × Val)} (h : Fields (fun n t v => value n t = some v) fs vs) :
    collectFields value fs = some vs := by
  induction h with
  | nil => rfl
  | cons hp _ ih => rw [collectFields, hp, ih]

/-- What is read as a struct, by fields. -/
theorem readStruct_fields {β : Type} {read : Ty → β → Option Val} {fs : List (Str × Ty)}
    {es : List (Str × β)} {v : Val} : readStruct read fs es = some v ↔
      ∃ vs, v = .struct vs ∧ Fields (fun n t v => fieldValue read es n t = some v) fs vs := by
  rw [readStruct, Option.map_eq_some_iff]
  constructor
  · rintro ⟨vs, h, rfl⟩
    exact ⟨vs, rfl, collectFields_fields h⟩
  · rintro ⟨vs, rfl, h⟩
    exact ⟨vs, collectFields_of_fields h, rfl⟩

/-- A newer struct from entries for the older one. -/
theorem readStruct_more {β : Type} {read : Ty → β → Option Val} {old new : List (Str × Ty)}
    (hm : MoreFields old new) (hd : DistinctNames old) {es : List (Str × β)}
    (he : ∀ e ∈ es, Declared new e.1 → Declared old e.1) {vs : List (Str × Val)}
    (h : readStruct read old es = some (.struct vs)) :
    readStruct read new es = some (.struct (refit new vs)) := by
  obtain ⟨vs', e, h⟩ := readStruct_fields.1 h
  cases e
  refine readStruct_fields.2 ⟨_, rfl, fields_map fun n t hf => ?_⟩
  rcases hm.2 (n, t) hf with ho | ⟨hn, ho⟩
  · obtain ⟨v, hv, hp⟩ := fields_lookup h hd ho
    simp only [hv]
    exact hp
  · rw [fields_lookup_none h hn]
    have : es.filter (fun e => decide (e.1 = n)) = [] := by
      rw [List.filter_eq_nil_iff]
      intro e hee
      rw [decide_eq_true_eq]
      rintro rfl
      exact hn (he e hee (List.mem_map.2 ⟨_, hf, rfl⟩))
    simp only [fieldValue, this]
    rw [if_pos ho]
    rfl

/-- An older struct from entries for the newer one. -/
theorem readStruct_fewer {β : Type} {read : Ty → β → Option Val} {old new : List (Str × Ty)}
    (hm : MoreFields old new) (hd : DistinctNames new) {es : List (Str × β)} {vs : List (Str × Val)}
    (h : readStruct read new es = some (.struct vs)) :
    readStruct read old es = some (.struct (refit old vs)) := by
  obtain ⟨vs', e, h⟩ := readStruct_fields.1 h
  cases e
  refine readStruct_fields.2 ⟨_, rfl, fields_map fun n t hf => ?_⟩
  obtain ⟨v, hv, hp⟩ := fields_lookup h hd (hm.1 _ hf)
  simp only [hv]
  exact hp

/-! ### Parameters -/

theorem tame_tail {α : Type} {fs : List (Str × α)} {p : Str × Str} {ps : List (Str × Str)}
    (h : Tame fs (p :: ps)) : Tame fs ps := by
  intro e he
  refine h e ?_
  cases ps with
  | nil => cases he
  | cons a ps => rw [List.dropLast_cons_cons]; exact List.mem_cons_of_mem _ he

/-- The effective parameters of a tame query are those with declared names. -/
theorem effective_tame {α : Type} {fs : List (Str × α)} {ps : List (Str × Str)} (h : Tame fs ps) :
    effective fs (row ps) = ps.filter fun p => decide (Declared fs p.1) := by
  induction ps with
  | nil => simp [row, effective]
  | cons p ps ih =>
    have ih := ih (tame_tail h)
    obtain ⟨k, x⟩ := p
    have hr : row ((k, x) :: ps) = k :: x :: row ps := by simp [row]
    rw [hr, effective, List.filter_cons]
    by_cases hk : Declared fs k
    · simp only [hk, if_true, decide_true, ih]
    · simp only [hk, if_false, decide_false]
      rw [← ih]
      cases ps with
      | nil => simp [row, effective]
      | cons q ps =>
        have hx : ¬ Declared fs x := by
          rcases h (k, x) (by rw [List.dropLast_cons_cons]; exact List.mem_cons_self ..) with h | h
          · exact absurd h hk
          · exact h
        have hq : row (q :: ps) = q.1 :: q.2 :: row ps := by simp [row]
        rw [hq, effective]
        simp [hx]

theorem tame_of_declared {α : Type} {fs : List (Str × α)} {ps : List (Str × Str)}
    (h : ∀ p ∈ ps, Declared fs p.1) : Tame fs ps :=
  fun e he => .inl (h e (List.dropLast_subset _ he))

theorem readStruct_tame [FloatText] {fs : List (Str × Ty)} {ps : List (Str × Str)} (h : Tame fs ps) :
    readStruct readText fs (effective fs (row ps)) = readStruct readText fs ps := by
  rw [effective_tame h, readStruct_filter]

/-! ### C101: requests of another version -/

section
variable [FloatText]

omit [FloatText] in
theorem fieldsOf_some {ts : List (Str × Ty)} {n : Str} {fs : List (Str × Ty)}
    (h : ts.lookup n = some (.struct fs)) : fieldsOf ts n = fs := by rw [fieldsOf, h]

omit [FloatText] in
theorem fieldsOf_none {ts : List (Str × Ty)} {n : Str} (h : ts.lookup n = none) :
    fieldsOf ts n = [] := by rw [fieldsOf, h]

theorem readsQuery_struct {ps : List (Str × Str)} {fs : List (Str × Ty)} {v : Val} :
    ReadsQuery ps (.struct fs) v ↔ readStruct readText fs (effective fs (row ps)) = some v := by
  constructor
  · intro h
    cases h with
    | struct h => exact h
    | single h => cases h
  · exact .struct

theorem readsHeaders_struct {hs : List Header} {fs : List (Str × Ty)} {v : Val} :
    ReadsHeaders hs (.struct fs) v ↔ readStruct readBytes fs (entries hs) = some v := by
  constructor
  · intro h
    cases h with
    | struct h => exact h
    | single h => cases h
  · exact .struct

theorem readArg_struct {fs : List (Str × Ty)} {s : Str} : readArg (.struct fs) s = none := by
  rw [readArg] <;> simp

/-- A part that is not changed. -/
theorem refitPart_same {e : EntryPoint} {segs : List Str} {ps : List (Str × Str)} {hs : List Header}
    {n : Str} {t : Ty} {v : Val} (hw : WellNamed t) (h : RequestField e segs ps hs n t v) :
    refitPart t (some v) = v := by
  have hst : ∀ (fs : List (Str × Ty)) (β : Type) (read : Ty → β → Option Val) (es : List (Str × β)),
      WellNamed (.struct fs) → readStruct read fs es = some v → refitPart (.struct fs) (some v) = v := by
    intro fs β read es hw h
    rw [WellNamed] at hw
    obtain ⟨vs, rfl, hf⟩ := readStruct_fields.1 h
    rw [refitPart, fields_refit_self hf hw.1]
  cases t with
  | struct fs =>
    cases h with
    | path h =>
      rw [readPath] at h
      · obtain ⟨s, -, h⟩ := Option.bind_eq_some_iff.1 h
        rw [readSegment, Option.bind_eq_some_iff] at h
        obtain ⟨x, -, h⟩ := h
        rw [readArg_struct] at h
        cases h
      all_goals simp
    | query h => exact hst _ _ _ _ hw (readsQuery_struct.1 h)
    | header h => exact hst _ _ _ _ hw (readsHeaders_struct.1 h)
  | _ => rfl

theorem reads_query_field {e : EntryPoint} {segs : List Str} {ps : List (Str × Str)} {hs : List Header}
    {t : Ty} {v : Val} : RequestField e segs ps hs "query".toList t v ↔ ReadsQuery ps t v := by
  constructor
  · intro h
    generalize hm : "query".toList = m at h
    cases h with
    | path => cases hm
    | query h => exact h
    | header => cases hm
    | other _ h => exact absurd hm.symm h
  · exact .query

theorem reads_header_field {e : EntryPoint} {segs : List Str} {ps : List (Str × Str)} {hs : List Header}
    {t : Ty} {v : Val} : RequestField e segs ps hs "header".toList t v ↔ ReadsHeaders hs t v := by
  constructor
  · intro h
    generalize hm : "header".toList = m at h
    cases h with
    | path => cases hm
    | query => cases hm
    | header h => exact h
    | other _ _ h => exact absurd hm.symm h
  · exact .header

/-- **C101.** A request for the older version of a type, read as the newer one: the values that are
there, and `None` for what has been added.  It must not have parameters or headers with the names of
added fields; parameters with other undeclared names are not considered either (see C15). -/
theorem C101_newer_server (e : EntryPoint) (segs : List Str) (ps : List (Str × Str))
    (hs : List Header) (old new : List (Str × Ty)) (hg : RequestGrows old new)
    (hw : WellNamed (.struct old))
    (hq : old.lookup "query".toList = new.lookup "query".toList ∨
      ∀ p ∈ ps, Declared (fieldsOf old "query".toList) p.1)
    (hh : ∀ h ∈ hs, Declared (fieldsOf new "header".toList) (nameText h.1) →
      Declared (fieldsOf old "header".toList) (nameText h.1))
    (hd : DistinctNames new) (vs : List (Str × Val))
    (h : ReadsRequest e segs ps hs (.struct old) (.struct vs)) :
    ReadsRequest e segs ps hs (.struct new) (.struct (refitRequest new vs)) := by
  rw [WellNamed] at hw
  cases h with
  | struct h1 h2 =>
    refine .struct (h1.imp_left fun h => ?_) (fields_map fun n t hf => ?_)
    · obtain ⟨f, hf, e⟩ := List.mem_map.1 h
      rw [← e]
      exact hg.1 f hf
    · have hnew := lookup_of_mem hd hf
      have hgr := hg.2 _ hf
      dsimp only at hgr ⊢
      generalize hold : old.lookup n = o at hgr
      cases hgr with
      | same =>
        have hmem := mem_of_lookup hold
        obtain ⟨v, hv, hp⟩ := fields_lookup h2 hw.1 hmem
        rw [hv, refitPart_same (wellNamedFields_mem hw.2 hmem) hp]
        exact hp
      | @more ofs nfs hn hm =>
        have hmem := mem_of_lookup hold
        obtain ⟨v, hv, hp⟩ := fields_lookup h2 hw.1 hmem
        have hdo := wellNamedFields_mem hw.2 hmem
        rw [WellNamed] at hdo
        rw [hv]
        rcases hn with rfl | rfl
        · rw [reads_query_field, readsQuery_struct] at hp ⊢
          obtain ⟨ws, rfl, -⟩ := readStruct_fields.1 hp
          rw [refitPart]
          rcases hq with hq | hq
          · rw [hold, hnew] at hq
            cases hq
            obtain ⟨ws', e', hf'⟩ := readStruct_fields.1 hp
            cases e'
            rw [fields_refit_self hf' hdo.1]
            exact hp
          · rw [fieldsOf_some hold] at hq
            have hq' : ∀ p ∈ ps, Declared nfs p.1 := fun p hp => by
              obtain ⟨f, hf, e⟩ := List.mem_map.1 (hq p hp)
              exact e ▸ List.mem_map.2 ⟨f, hm.1 f hf, rfl⟩
            rw [readStruct_tame (tame_of_declared hq)] at hp
            rw [readStruct_tame (tame_of_declared hq')]
            exact readStruct_more hm hdo.1 (fun p hp _ => hq p hp) hp
        · rw [reads_header_field, readsHeaders_struct] at hp ⊢
          obtain ⟨ws, rfl, -⟩ := readStruct_fields.1 hp
          rw [refitPart]
          rw [fieldsOf_some hold, fieldsOf_some hnew] at hh
          refine readStruct_more hm hdo.1 (fun p hp => ?_) hp
          obtain ⟨h, hh', rfl⟩ := List.mem_map.1 hp
          exact hh h hh'
      | @added nfs hn hm =>
        have hnd : ¬ Declared old n := fun h => by
          obtain ⟨t, ht⟩ := lookup_declared.2 h
          rw [hold] at ht; cases ht
        have hno : ∀ {β : Type} {read : Ty → β → Option Val} {es : List (Str × β)},
            (∀ p ∈ es, ¬ Declared nfs p.1) → readStruct read nfs es = some (.struct (refit nfs [])) :=
          fun hes => readStruct_more hm (by simp [DistinctNames])
            (fun p hp hd => absurd hd (hes p hp)) (by simp [readStruct, collectFields])
        rw [fields_lookup_none h2 hnd, refitPart]
        rcases hn with rfl | rfl
        · rw [reads_query_field, readsQuery_struct]
          rcases hq with hq | hq
          · rw [hold, hnew] at hq; cases hq
          · rw [fieldsOf_none hold] at hq
            have : ps = [] := List.eq_nil_iff_forall_not_mem.2 fun p hp => by
              have := hq p hp; simp [Declared] at this
            subst this
            have hrow : effective nfs (row []) = [] := by simp [row, effective]
            rw [hrow]
            exact hno (by simp)
        · rw [reads_header_field, readsHeaders_struct]
          rw [fieldsOf_none hold, fieldsOf_some hnew] at hh
          refine hno fun p hp hdp => ?_
          obtain ⟨h, hh', rfl⟩ := List.mem_map.1 hp
          have := hh h hh' hdp
          simp [Declared] at this

/-- **C101.** A request for the newer version of a type, read as the older one: what has been added is
ignored.  No parameter of an added field may have a declared name as its value, unless it is the last
(see C15). -/
theorem C101_older_server (e : EntryPoint) (segs : List Str) (ps : List (Str × Str))
    (hs : List Header) (old new : List (Str × Ty)) (hg : RequestGrows old new)
    (hw : WellNamed (.struct new)) (hdo : DistinctNames old)
    (hq : old.lookup "query".toList = new.lookup "query".toList ∨
      (∀ p ∈ ps, Declared (fieldsOf new "query".toList) p.1) ∧
        Tame (fieldsOf old "query".toList) ps)
    (hh : hs ≠ []) (vs : List (Str × Val))
    (h : ReadsRequest e segs ps hs (.struct new) (.struct vs)) :
    ReadsRequest e segs ps hs (.struct old) (.struct (refitRequest old vs)) := by
  rw [WellNamed] at hw
  cases h with
  | struct h1 h2 =>
    refine .struct (.inr hh) (fields_map fun n t hf => ?_)
    have hold := lookup_of_mem hdo hf
    obtain ⟨t', hnew⟩ := lookup_declared.2 (hg.1 _ hf)
    have hmem := mem_of_lookup hnew
    have hgr := hg.2 _ hmem
    obtain ⟨v, hv, hp⟩ := fields_lookup h2 hw.1 hmem
    have hdn := wellNamedFields_mem hw.2 hmem
    dsimp only at hgr hp hdn hnew ⊢
    rw [hold] at hgr
    rw [hv]
    cases hgr with
    | same =>
      rw [refitPart_same hdn hp]
      exact hp
    | @more ofs nfs hn hm =>
      rw [WellNamed] at hdn
      rcases hn with rfl | rfl
      · rw [reads_query_field, readsQuery_struct] at hp ⊢
        obtain ⟨ws, rfl, hf'⟩ := readStruct_fields.1 hp
        rw [refitPart]
        rcases hq with hq | ⟨hq1, hq2⟩
        · rw [hold, hnew] at hq
          cases hq
          rw [fields_refit_self hf' hdn.1]
          exact hp
        · rw [fieldsOf_some hnew] at hq1
          rw [fieldsOf_some hold] at hq2
          rw [readStruct_tame (tame_of_declared hq1)] at hp
          rw [readStruct_tame hq2]
          exact readStruct_fewer hm hdn.1 hp
      · rw [reads_header_field, readsHeaders_struct] at hp ⊢
        obtain ⟨ws, rfl, -⟩ := readStruct_fields.1 hp
        rw [refitPart]
        exact readStruct_fewer hm hdn.1 hp

end

/-! ### Responses of another version -/

section
variable [FloatText]

theorem response_refitPart_same {code : Nat} {hs : List Header} {whole : Bool} {n : Str} {t : Ty}
    {v : Val} (hw : WellNamed t) (h : ResponseField code hs whole n t v) :
    refitPart t (some v) = v := by
  cases t with
  | struct fs =>
    cases h with
    | status _ h => cases h
    | header h =>
      rw [WellNamed] at hw
      obtain ⟨vs, rfl, hf⟩ := readStruct_fields.1 (readsHeaders_struct.1 h)
      rw [refitPart, fields_refit_self hf hw.1]
  | _ => rfl

theorem response_header_field {code : Nat} {hs : List Header} {whole : Bool} {t : Ty} {v : Val} :
    ResponseField code hs whole "header".toList t v ↔ ReadsHeaders hs t v := by
  constructor
  · intro h
    generalize hm : "header".toList = m at h
    cases h with
    | status => cases hm
    | header h => exact h
    | other _ h => exact absurd hm.symm h
  · exact .header

theorem responseFields_newer {code : Nat} {hs : List Header} {whole : Bool}
    {old new : List (Str × Ty)} (hg : ResponseFieldsGrow old new) (hdo : DistinctNames old)
    (hwo : WellNamedFields old) (hd : DistinctNames new)
    (hh : ∀ h ∈ hs, Declared (fieldsOf new "header".toList) (nameText h.1) →
      Declared (fieldsOf old "header".toList) (nameText h.1)) {vs : List (Str × Val)}
    (h2 : Fields (ResponseField code hs whole) old vs) :
    Fields (ResponseField code hs whole) new (refitRequest new vs) := by
  obtain ⟨hg, hnq⟩ := hg
  refine fields_map fun n t hf => ?_
  have hnew := lookup_of_mem hd hf
  have hgr := hg.2 _ hf
  have hnn : n = "query".toList ∨ n = "header".toList → n = "header".toList := by
    rintro (rfl | h)
    · exact absurd (List.mem_map.2 ⟨_, hf, rfl⟩) hnq
    · exact h
  dsimp only at hgr ⊢
  generalize hold : old.lookup n = o at hgr
  cases hgr with
  | same =>
    have hmem := mem_of_lookup hold
    obtain ⟨v, hv, hp⟩ := fields_lookup h2 hdo hmem
    rw [hv, response_refitPart_same (wellNamedFields_mem hwo hmem) hp]
    exact hp
  | @more ofs nfs hn hm =>
    have hmem := mem_of_lookup hold
    obtain ⟨v, hv, hp⟩ := fields_lookup h2 hdo hmem
    have hdo := wellNamedFields_mem hwo hmem
    rw [WellNamed] at hdo
    rw [hv]
    obtain rfl := hnn hn
    rw [response_header_field, readsHeaders_struct] at hp ⊢
    obtain ⟨ws, rfl, -⟩ := readStruct_fields.1 hp
    rw [refitPart]
    rw [fieldsOf_some hold, fieldsOf_some hnew] at hh
    refine readStruct_more hm hdo.1 (fun p hp => ?_) hp
    obtain ⟨h, hh', rfl⟩ := List.mem_map.1 hp
    exact hh h hh'
  | @added nfs hn hm =>
    have hnd : ¬ Declared old n := fun h => by
      obtain ⟨t, ht⟩ := lookup_declared.2 h
      rw [hold] at ht; cases ht
    rw [fields_lookup_none h2 hnd, refitPart]
    obtain rfl := hnn hn
    rw [response_header_field, readsHeaders_struct]
    rw [fieldsOf_none hold, fieldsOf_some hnew] at hh
    refine readStruct_more hm (by simp [DistinctNames]) (fun p hp hdp => ?_)
      (by simp [readStruct, collectFields])
    obtain ⟨h, hh', rfl⟩ := List.mem_map.1 hp
    have := hh h hh' hdp
    simp [Declared] at this

theorem responseFields_older {code : Nat} {hs : List Header} {whole : Bool}
    {old new : List (Str × Ty)} (hg : ResponseFieldsGrow old new) (hdo : DistinctNames old)
    (hd : DistinctNames new) (hwn : WellNamedFields new) {vs : List (Str × Val)}
    (h2 : Fields (ResponseField code hs whole) new vs) :
    Fields (ResponseField code hs whole) old (refitRequest old vs) := by
  obtain ⟨hg, hnq⟩ := hg
  refine fields_map fun n t hf => ?_
  have hold := lookup_of_mem hdo hf
  obtain ⟨t', hnew⟩ := lookup_declared.2 (hg.1 _ hf)
  have hmem := mem_of_lookup hnew
  have hgr := hg.2 _ hmem
  obtain ⟨v, hv, hp⟩ := fields_lookup h2 hd hmem
  have hdn := wellNamedFields_mem hwn hmem
  dsimp only at hgr hp hdn hnew ⊢
  rw [hold] at hgr
  rw [hv]
  cases hgr with
  | same =>
    rw [response_refitPart_same hdn hp]
    exact hp
  | @more ofs nfs hn hm =>
    rw [WellNamed] at hdn
    rcases hn with rfl | rfl
    · exact absurd (List.mem_map.2 ⟨_, hmem, rfl⟩) hnq
    · rw [response_header_field, readsHeaders_struct] at hp ⊢
      obtain ⟨ws, rfl, -⟩ := readStruct_fields.1 hp
      rw [refitPart]
      exact readStruct_fewer hm hdn.1 hp

omit [FloatText] in
theorem grow_declared {old new : List (Str × Ty)} (hg : ResponseFieldsGrow old new) {n : Str}
    (h : Declared old n) : Declared new n := by
  obtain ⟨f, hf, e⟩ := List.mem_map.1 h
  exact e ▸ hg.1.1 f hf

theorem response_refit_self {code : Nat} {hs : List Header} {whole : Bool} {fs : List (Str × Ty)}
    {vs : List (Str × Val)} (h : Fields (ResponseField code hs whole) fs vs) (hd : DistinctNames fs)
    (hw : WellNamedFields fs) : refitRequest fs vs = vs := by
  have key : ∀ ws : List (Str × Val), (∀ f ∈ vs, ws.lookup f.1 = some f.2) →
      fs.map (fun f => (f.1, refitPart f.2 (ws.lookup f.1))) = vs := by
    intro ws hws
    clear hd
    induction h with
    | nil => rfl
    | cons hp _ ih =>
      rw [WellNamedFields] at hw
      have h1 := hws _ (List.mem_cons_self ..)
      dsimp only at h1
      rw [List.map_cons, ih hw.2 fun f hf => hws f (List.mem_cons_of_mem _ hf)]
      dsimp only
      rw [h1, response_refitPart_same hw.1 hp]
  have hv : DistinctNames vs := by unfold DistinctNames; rw [fields_names h]; exact hd
  exact key vs fun f hf => lookup_of_mem hv hf

/-- **C101**, responses: what a client of the older version reads in a response, a client of the newer
version reads as well, with `None` for what has been added; the response must not have headers with
the names of added fields. -/
theorem C101_newer_reader (old new : Ty) (hg : ResponseGrows old new) (hwo : WellNamed old)
    (hwn : WellNamed new) (hm : Mapless new) (code : Nat) (hs : List Header) (hn : AsciiNames hs)
    (hh : ∀ h ∈ hs, AsksFor code new (nameText h.1) → AsksFor code old (nameText h.1)) (v : Val)
    (h : deResponse old code hs = .ok v) :
    deResponse new code hs = .ok (refitResponse new v) := by
  rw [C83_response_iff _ hwn hm _ _ hn]
  have h := (C83_response_read _ hwo code hs hn).ok_iff h
  cases hg with
  | struct hg =>
    rw [WellNamed] at hwo hwn
    cases h with
    | struct h1 h2 =>
      refine .struct (h1.imp_left (grow_declared hg)) (responseFields_newer hg hwo.1 hwo.2 hwn.1 ?_ h2)
      intro x hx hd
      cases hh x hx (.struct hd) with
      | struct h => exact h
  | enum hg =>
    rw [WellNamed] at hwo hwn
    cases h with
    | unit h1 h2 =>
      obtain ⟨v', h3, h4⟩ := hg _ _ h2
      cases h4
      exact .unit h1 h3
    | newtypeVariant h1 h2 h5 =>
      obtain ⟨v', h3, h4⟩ := hg _ _ h2
      cases h4
      exact .newtypeVariant h1 h3 h5
    | structVariant h1 h2 h5 h6 =>
      obtain ⟨v', h3, h4⟩ := hg _ _ h2
      have hwo' := wellNamedVariants_mem hwo (mem_of_lookup h2)
      have hwn' := wellNamedVariants_mem hwn (mem_of_lookup h3)
      cases h4 with
      | same =>
        rw [WellNamedVariant] at hwo'
        rw [refitResponse, h3]
        dsimp only
        rw [response_refit_self h6 hwo'.1 hwo'.2]
        exact .structVariant h1 h3 h5 h6
      | struct hg =>
        rw [WellNamedVariant] at hwo' hwn'
        rw [refitResponse, h3]
        refine .structVariant h1 h3 (h5.imp_left (grow_declared hg))
          (responseFields_newer hg hwo'.1 hwo'.2 hwn'.1 ?_ h6)
        intro x hx hd
        cases hh x hx (.variant h1 h3 hd) with
        | variant h1' h2' hd' =>
          have e1 := (statusCodeToStr_table _ _).2 h1
          have e2 := (statusCodeToStr_table _ _).2 h1'
          rw [e1] at e2
          rw [← Option.some.inj e2, h2] at h2'
          cases h2'
          exact hd'

/-- **C101**, responses: what a client of the newer version reads in a response, a client of the older
version reads as well, without what has been added; it must know the status. -/
theorem C101_older_reader (old new : Ty) (hg : ResponseGrows old new) (hwo : WellNamed old)
    (hwn : WellNamed new) (hm : Mapless old) (code : Nat) (hs : List Header) (hn : AsciiNames hs)
    (hne : hs ≠ [])
    (hk : ∀ vs n, old = .enum vs → (n, code) ∈ statusTable → Declared vs n) (v : Val)
    (h : deResponse new code hs = .ok v) :
    deResponse old code hs = .ok (refitResponse old v) := by
  rw [C83_response_iff _ hwo hm _ _ hn]
  have h := (C83_response_read _ hwn code hs hn).ok_iff h
  cases hg with
  | struct hg =>
    rw [WellNamed] at hwo hwn
    cases h with
    | struct h1 h2 => exact .struct (.inr hne) (responseFields_older hg hwo.1 hwn.1 hwn.2 h2)
  | enum hg =>
    rw [WellNamed] at hwo hwn
    cases h with
    | unit h1 h2 =>
      obtain ⟨w, h3⟩ := lookup_declared.2 (hk _ _ rfl h1)
      obtain ⟨v', h4, h5⟩ := hg _ _ h3
      rw [h2] at h4
      cases h4
      cases h5
      exact .unit h1 h3
    | newtypeVariant h1 h2 h6 =>
      obtain ⟨w, h3⟩ := lookup_declared.2 (hk _ _ rfl h1)
      obtain ⟨v', h4, h5⟩ := hg _ _ h3
      rw [h2] at h4
      cases h4
      cases h5
      exact .newtypeVariant h1 h3 h6
    | structVariant h1 h2 h7 h6 =>
      obtain ⟨w, h3⟩ := lookup_declared.2 (hk _ _ rfl h1)
      obtain ⟨v', h4, h5⟩ := hg _ _ h3
      rw [h2] at h4
      cases h4
      have hwo' := wellNamedVariants_mem hwo (mem_of_lookup h3)
      have hwn' := wellNamedVariants_mem hwn (mem_of_lookup h2)
      cases h5 with
      | same =>
        rw [WellNamedVariant] at hwo'
        rw [refitResponse, h3]
        dsimp only
        rw [response_refit_self h6 hwo'.1 hwo'.2]
        exact .structVariant h1 h3 h7 h6
      | struct hg =>
        rw [WellNamedVariant] at hwo' hwn'
        rw [refitResponse, h3]
        exact .structVariant h1 h3 (.inr hne) (responseFields_older hg hwo'.1 hwn'.1 hwn'.2 h6)

/-- **C101**, responses: a client that does not know the status of a response cannot read it. -/
theorem C101_unknown_status (vs : List (Str × VTy)) (hw : WellNamed (.enum vs)) (code : Nat)
    (hs : List Header) (hn : AsciiNames hs)
    (hk : ∀ n, (n, code) ∈ statusTable → ¬ Declared vs n) :
    deResponse (.enum vs) code hs = .err .invalid := by
  rcases C83_response_read _ hw code hs hn with ⟨v, -, h⟩ | ⟨h, -⟩
  · exfalso
    cases h with
    | unit h1 h2 => exact hk _ h1 (lookup_declared.1 ⟨_, h2⟩)
    | newtypeVariant h1 h2 => exact hk _ h1 (lookup_declared.1 ⟨_, h2⟩)
    | structVariant h1 h2 => exact hk _ h1 (lookup_declared.1 ⟨_, h2⟩)
  · exact h

end

/-! ### Client and server of different versions -/

section
variable [LawfulFloatText]

omit [LawfulFloatText] in
theorem requestFields_lookup {α : Type} (p q h : Option α) :
    (requestFields p q h).lookup "path".toList = p ∧
      (requestFields p q h).lookup "query".toList = q ∧
      (requestFields p q h).lookup "header".toList = h := by
  cases p <;> cases q <;> cases h <;> exact ⟨rfl, rfl, rfl⟩

omit [LawfulFloatText] in
theorem requestFields_distinct {α : Type} (p q h : Option α) :
    DistinctNames (requestFields p q h) := by
  unfold DistinctNames
  cases p <;> cases q <;> cases h <;> simp [requestFields, optField]

/-- What the client sends, and what the server makes of its target. -/
theorem request_on_the_wire (o : UrlOracle) (m : Method) (e : EntryPoint) (hpc : PlainConsts e)
    {p q h : Option Val} {pt qt ht : Option Ty} {ss : List Str} (hp : PathPart e p pt ss)
    (hq : QueryPart q qt) (hh : HeaderPart h ht) (hpq : q ≠ none → p ≠ none)
    (hc : Carried (instantiate e ss)) (body : Bytes) :
    ∃ req text own, serRequest m e (.struct (requestFields p q h)) body = .ok req ∧
      req.headers = own ++ [contentLength body] ∧ requestQuery q = .ok text ∧
      requestHeaders h = .ok own ∧
      parseTarget o req.target =
        some ⟨some ((instantiate e ss).map encodeSegment), text⟩ := by
  obtain ⟨hp1, -⟩ := hp.sound hpc
  obtain ⟨text, hq1, hq2, -⟩ := hq.sound
  obtain ⟨own, hh1, -⟩ := hh.sound body
  have hser : serRequest m e (.struct (requestFields p q h)) body =
      .ok { method := m
            target := joinTarget ((instantiate e ss).foldl pushSegment ['/']) text
            headers := own ++ [contentLength body], body } := by
    rw [C23_in_order, if_neg (fun h => hpq h.2 h.1), requestOf, hp1, hq1, hh1]
    cases text <;> rfl
  exact ⟨_, text, own, hser, rfl, hq1, hh1, parseTarget_push o hc text hq2⟩

/-- The parameters of a request in the supported class. -/
theorem query_sent {q : Option Val} {qt : Option Ty} (hq : QueryPart q qt) {text : Option Str}
    (h : requestQuery q = .ok text) :
    (qt = none ∧ formParse (text.getD []) = []) ∨
    (∃ fs ts ps, q = some (.struct fs) ∧ qt = some (.struct ts) ∧ FieldTexts fs ps ∧
      formParse (text.getD []) = ps ∧ ∀ p ∈ ps, Declared ts p.1) ∨ ∃ k v, qt = some (.map k v) := by
  cases hq with
  | absent => cases h; exact .inl ⟨rfl, rfl⟩
  | @struct fs ts ps hp ht hd =>
    rw [requestQuery, serQuery_struct hp.sent] at h
    cases h
    refine .inr (.inl ⟨fs, ts, ps, rfl, rfl, hp, formParse_formText ps, fun p h => ?_⟩)
    unfold Declared
    rw [← HasTyFields_names ht]
    exact FieldEntries_name hp (List.mem_map.2 ⟨p, h, rfl⟩)
  | map => exact .inr (.inr ⟨_, _, rfl⟩)

/-- The names of the headers of a request in the supported class. -/
theorem headers_sent {h : Option Val} {ht : Option Ty} (hh : HeaderPart h ht) {own : List Header}
    (ho : requestHeaders h = .ok own) :
    AsciiNames own ∧ ((ht = none ∧ own = []) ∨
      ∃ ts, ht = some (.struct ts) ∧ ∀ x ∈ own, Declared ts (nameText x.1)) := by
  cases hh with
  | absent => cases ho; exact ⟨(by intro h hm; cases hm), .inl ⟨rfl, rfl⟩⟩
  | @struct fs ts es hp ht hd hl hc =>
    have hle : ∀ e ∈ es, Declared ts e.1 ∧ LowerName e.1 := by
      intro e he
      have := FieldEntries_name hp (List.mem_map.2 ⟨e, he, rfl⟩)
      unfold Declared at this
      rw [HasTyFields_names ht] at this
      obtain ⟨f, hf, hf'⟩ := List.mem_map.1 this
      exact ⟨this, hf' ▸ hl f hf⟩
    have := serHeaders_struct (Spec.HeaderFields.sent hp) []
    rw [requestHeaders, this] at ho
    cases ho
    refine ⟨fun x hx => ?_, .inr ⟨ts, rfl, fun x hx => ?_⟩⟩
    · obtain ⟨e, he, rfl⟩ := List.mem_map.1 hx
      exact utf8_lowerName_ascii (hle e he).2
    · obtain ⟨e, he, rfl⟩ := List.mem_map.1 hx
      rw [nameText_utf8 (hle e he).2]
      exact (hle e he).1

/-- **C101.** A client of the older version calls a server of the newer version: the request is
accepted, every field has the value that was sent and the added fields are `None`. -/
theorem C101_old_client {H : Type} (o : UrlOracle) (rs : List (Reg H)) (r : Reg H)
    (hr : r ∈ rs) (hcf : ConflictFree rs) (hpc : PlainConsts r.entry) (p q h : Option Val)
    (pt qt ht : Option Ty) (ss : List Str) (hp : PathPart r.entry p pt ss) (hq : QueryPart q qt)
    (hh : HeaderPart h ht) (hpq : q ≠ none → p ≠ none) (hc : Carried (instantiate r.entry ss))
    (hsh : ¬ Shadowed rs r.entry ((instantiate r.entry ss).map asSegment)) (body : Bytes)
    (new : List (Str × Ty)) (hg : RequestGrows (requestFields pt qt ht) new)
    (hwo : WellNamed (.struct (requestFields pt qt ht))) (hwn : WellNamed (.struct new))
    (hm : Mapless (.struct new)) (hcl : ¬ Declared (fieldsOf new "header".toList) "content-length".toList) :
    ∃ req target segs,
      serRequest r.method r.entry (.struct (requestFields p q h)) body = .ok req ∧
      parseTarget o req.target = some target ∧ target.segs = some segs ∧
      (registerAll rs Trie.empty).1.route req.method segs = .ok r.handler ∧
      ∀ pre post, AsciiNames pre → AsciiNames post →
        (∀ x ∈ pre ++ post, ¬ Declared (fieldsOf new "header".toList) (nameText x.1)) →
        deRequest r.entry (.struct new) target (pre ++ req.headers ++ post) =
          .ok (.struct (refitRequest new (requestFields p q h))) := by
  obtain ⟨req, target, segs, h1, hme, -, h2, h3, h4, h5⟩ := C27_request_end_to_end o rs r hr hcf hpc p q h
    pt qt ht ss hp hq hh hpq hc hsh body
  obtain ⟨req', text, own, k1, k2, k3, k4, k5⟩ := request_on_the_wire o r.method r.entry hpc hp hq hh hpq
    hc body
  rw [h1] at k1
  cases k1
  rw [h2] at k5
  cases k5
  cases h3
  refine ⟨req, _, _, h1, h2, rfl, h4, fun pre post ha hb hf => ?_⟩
  obtain ⟨l1, l2, l3⟩ := requestFields_lookup pt qt ht
  obtain ⟨ho, hown⟩ := headers_sent hh k4
  have hdn := hwn
  rw [WellNamed] at hdn
  have hnames : AsciiNames (pre ++ req.headers ++ post) := by
    rw [k2]
    exact (ha.append (ho.append (contentLength_ascii body))).append hb
  have hgrow : ∀ n ts, (requestFields pt qt ht).lookup n = some (.struct ts) →
      ∀ m, Declared ts m → Declared (fieldsOf new n) m := by
    intro n ts hl m hmd
    obtain ⟨t', hnew⟩ := lookup_declared.2 (hg.1 _ (mem_of_lookup hl))
    have := hg.2 _ (mem_of_lookup hnew)
    dsimp only at this hnew
    rw [hl] at this
    cases this with
    | same => rwa [fieldsOf_some hnew]
    | more _ hmf =>
      rw [fieldsOf_some hnew]
      obtain ⟨f, hf, e⟩ := List.mem_map.1 hmd
      exact e ▸ List.mem_map.2 ⟨f, hmf.1 f hf, rfl⟩
  have hmatch : Matches r.entry ((instantiate r.entry ss).map encodeSegment) :=
    matches_instantiate hpc ss
  have hold := h5 pre post ha hb
    (fun ts e x hx hd => hf x (List.mem_append_left _ hx)
      (hgrow _ ts (by rw [l3, e]) _ hd))
    (fun ts e x hx hd => hf x (List.mem_append_right _ hx)
      (hgrow _ ts (by rw [l3, e]) _ hd))
  rw [C82_request_iff _ _ hwn hm _ _ rfl hmatch _ hnames]
  refine C101_newer_server _ _ _ _ _ _ hg hwo ?_ ?_ hdn.1 _ ?_
  · rcases query_sent hq k3 with ⟨rfl, e⟩ | ⟨fs, ts, ps, rfl, rfl, -, e, hd⟩ | ⟨k, v, rfl⟩
    · right
      dsimp only
      rw [e]
      simp
    · right
      dsimp only
      rw [e, fieldsOf_some l2]
      exact hd
    · left
      obtain ⟨t', hnew⟩ := lookup_declared.2 (hg.1 _ (mem_of_lookup l2))
      have := hg.2 _ (mem_of_lookup hnew)
      dsimp only at this hnew
      rw [l2] at this
      cases this
      rw [l2, hnew]
  · intro x hx hd
    rw [k2] at hx
    simp only [List.mem_append] at hx hf
    rcases hx with (hx | hx | hx) | hx
    · exact absurd hd (hf x (.inl hx))
    · rcases hown with ⟨-, rfl⟩ | ⟨ts, rfl, hts⟩
      · cases hx
      · rw [fieldsOf_some l3]
        exact hts x hx
    · exact absurd hd (contentLength_foreign hcl body x hx)
    · exact absurd hd (hf x (.inr hx))
  · rcases C82_request_read _ _ hwo ⟨some ((instantiate r.entry ss).map encodeSegment), text⟩ _ rfl
      hmatch _ hnames with ⟨v, e, hv⟩ | ⟨e, -⟩
    · rw [hold] at e
      cases e
      exact hv
    · rw [hold] at e
      cases e

/-- **C101.** A client of the newer version calls a server of the older version: the request is
accepted and every field of the older version has the value that was sent, provided that no added
parameter but the last has the name of a parameter as its value (see C15). -/
theorem C101_new_client {H : Type} (o : UrlOracle) (rs : List (Reg H)) (r : Reg H)
    (hr : r ∈ rs) (hcf : ConflictFree rs) (hpc : PlainConsts r.entry) (p q h : Option Val)
    (pt qt ht : Option Ty) (ss : List Str) (hp : PathPart r.entry p pt ss) (hq : QueryPart q qt)
    (hh : HeaderPart h ht) (hpq : q ≠ none → p ≠ none) (hc : Carried (instantiate r.entry ss))
    (hsh : ¬ Shadowed rs r.entry ((instantiate r.entry ss).map asSegment)) (body : Bytes)
    (old : List (Str × Ty)) (hg : RequestGrows old (requestFields pt qt ht))
    (hwo : WellNamed (.struct old)) (hwn : WellNamed (.struct (requestFields pt qt ht)))
    (hm : Mapless (.struct old))
    (hsafe : ∀ fs ps, q = some (.struct fs) → FieldTexts fs ps →
      Tame (fieldsOf old "query".toList) ps) :
    ∃ req target segs,
      serRequest r.method r.entry (.struct (requestFields p q h)) body = .ok req ∧
      parseTarget o req.target = some target ∧ target.segs = some segs ∧
      (registerAll rs Trie.empty).1.route req.method segs = .ok r.handler ∧
      ∀ pre post, AsciiNames pre → AsciiNames post → Foreign ht pre → Foreign ht post →
        deRequest r.entry (.struct old) target (pre ++ req.headers ++ post) =
          .ok (.struct (refitRequest old (requestFields p q h))) := by
  obtain ⟨req, target, segs, h1, hme, -, h2, h3, h4, h5⟩ := C27_request_end_to_end o rs r hr hcf hpc p q h
    pt qt ht ss hp hq hh hpq hc hsh body
  obtain ⟨req', text, own, k1, k2, k3, k4, k5⟩ := request_on_the_wire o r.method r.entry hpc hp hq hh hpq
    hc body
  rw [h1] at k1
  cases k1
  rw [h2] at k5
  cases k5
  cases h3
  refine ⟨req, _, _, h1, h2, rfl, h4, fun pre post ha hb hf hf' => ?_⟩
  obtain ⟨l1, l2, l3⟩ := requestFields_lookup pt qt ht
  obtain ⟨ho, hown⟩ := headers_sent hh k4
  have hdo := hwo
  rw [WellNamed] at hdo
  have hnames : AsciiNames (pre ++ req.headers ++ post) := by
    rw [k2]
    exact (ha.append (ho.append (contentLength_ascii body))).append hb
  have hmatch : Matches r.entry ((instantiate r.entry ss).map encodeSegment) :=
    matches_instantiate hpc ss
  have hnew := h5 pre post ha hb hf hf'
  rw [C82_request_iff _ _ hwo hm _ _ rfl hmatch _ hnames]
  refine C101_older_server _ _ _ _ _ _ hg hwn hdo.1 ?_ (by rw [k2]; simp) _ ?_
  · rcases query_sent hq k3 with ⟨rfl, e⟩ | ⟨fs, ts, ps, rfl, rfl, hps, e, hd⟩ | ⟨k, v, rfl⟩
    · right
      dsimp only
      rw [e]
      exact ⟨by simp, by simp [Tame]⟩
    · right
      dsimp only
      rw [e, fieldsOf_some l2]
      exact ⟨hd, hsafe fs ps rfl hps⟩
    · left
      have := hg.2 _ (mem_of_lookup l2)
      dsimp only at this
      rw [l2]
      generalize old.lookup "query".toList = o at this
      cases this
      rfl
  · rcases C82_request_read _ _ hwn ⟨some ((instantiate r.entry ss).map encodeSegment), text⟩ _ rfl
      hmatch _ hnames with ⟨v, e, hv⟩ | ⟨e, -⟩
    · rw [hnew] at e
      cases e
      exact hv
    · rw [hnew] at e
      cases e

omit [LawfulFloatText] in
/-- **C101**: without the condition on the values it is false.  The older server takes the value of the
added parameter `lang` for a name and rejects the request. -/
theorem C101_value_like_name [FloatText] :
    ∃ (old new : List (Str × Ty)) (fs : List (Str × Val)) (q : Str), MoreFields old new ∧
      HasTyFields fs new ∧ serQuery (.struct fs) = .ok q ∧
      deQuery (.struct new) (some q) = .ok (.struct fs) ∧
      deQuery (.struct old) (some q) = .err .invalid := by
  have h1 : formParse ((some "lang=a&a=1".toList).getD []) =
    [("lang".toList, "a".toList), ("a".toList, "1".toList)] := by decide
  have h3 : parseInt .u8 ['1'] = some 1 := by decide
  have h4 : parseInt .u8 ['a'] = none := by decide
  refine ⟨[("a".toList, .int .u8)], [("lang".toList, .option .str), ("a".toList, .int .u8)],
    [("lang".toList, .some (.str "a".toList)), ("a".toList, .int .u8 1)], "lang=a&a=1".toList,
    ⟨by simp, fun f hf => ?_⟩, ?_, rfl, ?_, ?_⟩
  · simp only [List.mem_cons, List.not_mem_nil, or_false] at hf
    rcases hf with rfl | rfl
    · exact .inr ⟨by decide, rfl⟩
    · exact .inl (by simp)
  · exact .cons (.some (.str _)) (.cons (.int _ _ (by decide)) .nil)
  · rw [deQuery_texts, h1]
    simp [h3, gatherTexts, readText, assemble, List.lookup]
  · rw [deQuery_texts, h1]
    simp [h4, gatherTexts, readText, assemble, List.lookup]

/-! ### Examples -/

/-- `/users/_?a=…`; the newer version has the parameter `lang` and the header `trace`. -/
def exOld : List (Str × Ty) :=
  requestFields (some (.tuple [.str])) (some (.struct [("a".toList, .int .u8)])) none
def exNewQuery : List (Str × Ty) := [("lang".toList, .option .str), ("a".toList, .int .u8)]
def exNewHeader : List (Str × Ty) := [("trace".toList, .option .str)]
def exNew : List (Str × Ty) :=
  requestFields (some (.tuple [.str])) (some (.struct exNewQuery)) (some (.struct exNewHeader))

omit [LawfulFloatText] in
theorem exGrows : RequestGrows exOld exNew := by
  refine ⟨by decide, fun f hf => ?_⟩
  have hf' : f = ("path".toList, .tuple [.str]) ∨ f = ("query".toList, .struct exNewQuery) ∨
      f = ("header".toList, .struct exNewHeader) := by
    simpa [exNew, requestFields, optField] using hf
  rcases hf' with rfl | rfl | rfl
  · exact .same _
  · refine .more (.inl rfl) ⟨by simp [exNewQuery], fun f hf => ?_⟩
    simp only [exNewQuery, List.mem_cons, List.not_mem_nil, or_false] at hf
    rcases hf with rfl | rfl
    · exact .inr ⟨by decide, rfl⟩
    · exact .inl (by simp)
  · refine .added (.inr rfl) ⟨by simp, fun f hf => ?_⟩
    simp only [exNewHeader, List.mem_cons, List.not_mem_nil, or_false] at hf
    subst hf
    exact .inr ⟨by decide, rfl⟩

omit [LawfulFloatText] in
theorem exShadow : ¬ Shadowed [(⟨.other 0, exReqEntry, 2⟩ : Reg Nat)] exReqEntry
    ((instantiate exReqEntry exReqTexts).map asSegment) := by
  rintro ⟨pre, suf, p, h1, h2, r, hr, h3⟩
  simp only [List.mem_cons, List.not_mem_nil, or_false] at hr
  subst hr
  simp only [exReqEntry] at h1 h3
  match pre with
  | [] => cases h1
  | [a] => cases h1; simp at h3
  | a :: b :: pre =>
    simp only [List.cons_append, List.cons.injEq] at h1
    exact absurd h1.2.2 (by simp)

/-- `C101_newer_reader`, `C101_older_reader`: the newer version has the header `trace` and the variant
`NotFound`. -/
def exOldResponse : Ty := .enum [("Ok".toList, .struct [("header".toList, .struct [])])]
def exNewResponse : Ty := .enum [("Ok".toList, .struct [("header".toList, .struct exNewHeader)]),
  ("NotFound".toList, .unit)]

omit [LawfulFloatText] in
theorem exResponseGrows : ResponseGrows exOldResponse exNewResponse := by
  refine .enum fun n v h => ?_
  have h' := mem_of_lookup h
  simp only [List.mem_cons, List.not_mem_nil, or_false] at h'
  cases h'
  refine ⟨_, rfl, .struct ⟨⟨by decide, fun f hf => ?_⟩, by decide⟩⟩
  simp only [List.mem_cons, List.not_mem_nil, or_false] at hf
  subst hf
  refine .more (.inr rfl) ⟨by simp, fun f hf => ?_⟩
  simp only [exNewHeader, List.mem_cons, List.not_mem_nil, or_false] at hf
  subst hf
  exact .inr ⟨by decide, rfl⟩

example : letI := toyFloat
    deResponse exNewResponse 200 [(utf8 "Content-Length".toList, [48])] =
      .ok (.structVariant "Ok".toList [("header".toList, .struct [("trace".toList, .none)])]) := by
  let := toyFloat
  have h := C101_newer_reader _ _ exResponseGrows
    (by simp [exOldResponse, WellNamed, WellNamedVariants, WellNamedVariant, WellNamedFields, DistinctNames])
    (by simp [exNewResponse, exNewHeader, WellNamed, WellNamedVariants, WellNamedVariant,
      WellNamedFields, DistinctNames])
    (by simp [exNewResponse, exNewHeader, Mapless, MaplessVariants, MaplessVariant, MaplessFields])
    200 [(utf8 "Content-Length".toList, [48])] (by unfold AsciiNames; decide)
    (by
      intro x hx h
      rw [List.mem_singleton.1 hx] at h
      exfalso
      generalize hn : nameText (utf8 "Content-Length".toList, [48]).1 = n at h
      cases h with
      | variant h1 h2 h3 =>
        have h2' := mem_of_lookup h2
        simp only [List.mem_cons, List.not_mem_nil, or_false, Prod.mk.injEq, VTy.struct.injEq,
          reduceCtorEq, and_false] at h2'
        obtain ⟨-, rfl⟩ := h2'
        subst hn
        revert h3
        decide)
    (.structVariant "Ok".toList [("header".toList, .struct [])]) (by rfl)
  exact h

example : letI := toyFloat
    deResponse exOldResponse 200 [(utf8 "Trace".toList, [48])] =
      .ok (.structVariant "Ok".toList [("header".toList, .struct [])]) := by
  let := toyFloat
  exact C101_older_reader _ _ exResponseGrows
    (by simp [exOldResponse, WellNamed, WellNamedVariants, WellNamedVariant, WellNamedFields, DistinctNames])
    (by simp [exNewResponse, exNewHeader, WellNamed, WellNamedVariants, WellNamedVariant,
      WellNamedFields, DistinctNames])
    (by simp [exOldResponse, Mapless, MaplessVariants, MaplessVariant, MaplessFields])
    200 [(utf8 "Trace".toList, [48])] (by unfold AsciiNames; decide) (by simp)
    (by
      intro vs n e hn
      cases e
      rw [← statusCodeToStr_table] at hn
      cases hn
      decide)
    (.structVariant "Ok".toList [("header".toList,
      .struct [("trace".toList, .some (.str "0".toList))])]) (by rfl)

/-- `C101_unknown_status`: the older client gets the new status. -/
example : letI := toyFloat
    deResponse exOldResponse 404 [] = .err .invalid := by
  let := toyFloat
  refine C101_unknown_status _
    (by simp [WellNamed, WellNamedVariants, WellNamedVariant, WellNamedFields, DistinctNames])
    404 [] (by unfold AsciiNames; decide) fun n hn => ?_
  rw [← statusCodeToStr_table] at hn
  cases hn
  decide

/-- `C101_old_client`: `/users/a%2Fb%3F?a=1`. -/
example (o : UrlOracle) : letI := toyFloat
    ∃ req target, serRequest (.other 0) exReqEntry (.struct (requestFields (some exReqPath)
        (some (.struct [("a".toList, .int .u8 1)])) none)) [] = .ok req ∧
      parseTarget o req.target = some target ∧
      deRequest exReqEntry (.struct exNew) target ([] ++ req.headers ++ []) =
        .ok (.struct (requestFields (some exReqPath)
          (some (.struct [("lang".toList, .none), ("a".toList, .int .u8 1)]))
          (some (.struct [("trace".toList, .none)])))) := by
  let := toyFloat
  obtain ⟨req, target, segs, h1, h2, -, -, h3⟩ := C101_old_client o [⟨.other 0, exReqEntry, 2⟩]
    ⟨.other 0, exReqEntry, 2⟩ (by simp) (by unfold ConflictFree; decide) exReq_consts _ _ _ _ _ _ _
    exReq_path
    (.struct (fs := [("a".toList, .int .u8 1)]) (.present (.plain (.int _ _)) .nil)
      (.cons (.int .u8 1 (by decide)) .nil) (by unfold DistinctNames; decide))
    .absent (by simp) ⟨by decide, by decide, .inr ⟨_, rfl, by decide⟩⟩ exShadow []
    exNew exGrows
    (by simp [requestFields, optField, WellNamed, WellNamedFields, WellNamedAll, DistinctNames])
    (by simp [exNew, exNewQuery, exNewHeader, requestFields, optField, WellNamed, WellNamedFields,
      WellNamedAll, DistinctNames])
    (by simp [exNew, exNewQuery, exNewHeader, requestFields, optField, Mapless, MaplessFields,
      MaplessAll])
    (by decide)
  exact ⟨req, target, h1, h2, h3 [] [] (by intro h hm; cases hm) (by intro h hm; cases hm)
    (by simp)⟩

/-- `C101_new_client`: `/users/a%2Fb%3F?lang=de&a=1` with the header `trace: t`. -/
example (o : UrlOracle) : letI := toyFloat
    ∃ req target, serRequest (.other 0) exReqEntry (.struct (requestFields (some exReqPath)
        (some (.struct [("lang".toList, .some (.str "de".toList)), ("a".toList, .int .u8 1)]))
        (some (.struct [("trace".toList, .some (.str "t".toList))])))) [] = .ok req ∧
      parseTarget o req.target = some target ∧
      deRequest exReqEntry (.struct exOld) target ([] ++ req.headers ++ []) =
        .ok (.struct (requestFields (some exReqPath)
          (some (.struct [("a".toList, .int .u8 1)])) none)) := by
  let := toyFloat
  obtain ⟨req, target, segs, h1, h2, -, -, h3⟩ := C101_new_client o [⟨.other 0, exReqEntry, 2⟩]
    ⟨.other 0, exReqEntry, 2⟩ (by simp) (by unfold ConflictFree; decide) exReq_consts _ _ _ _ _ _ _
    exReq_path
    (.struct (ts := exNewQuery)
      (fs := [("lang".toList, .some (.str "de".toList)), ("a".toList, .int .u8 1)])
      (.present (.some (.plain (.str _))) (.present (.plain (.int _ _)) .nil))
      (.cons (.some (.str _)) (.cons (.int .u8 1 (by decide)) .nil)) (by unfold DistinctNames; decide))
    (.struct (ts := exNewHeader) (fs := [("trace".toList, .some (.str "t".toList))])
      (.present (.some (.plain (.str _))) .nil) (.cons (.some (.str _)) .nil)
      (by unfold DistinctNames; decide) (by decide) (by decide))
    (by simp) ⟨by decide, by decide, .inr ⟨_, rfl, by decide⟩⟩ exShadow []
    exOld exGrows
    (by simp [exOld, requestFields, optField, WellNamed, WellNamedFields, WellNamedAll, DistinctNames])
    (by simp [exNewQuery, exNewHeader, requestFields, optField, WellNamed, WellNamedFields,
      WellNamedAll, DistinctNames])
    (by simp [exOld, requestFields, optField, Mapless, MaplessFields, MaplessAll])
    (fun fs ps e h => by
      cases e
      have h1 : serQuery (.struct [("lang".toList, .some (.str "de".toList)),
        ("a".toList, .int .u8 1)]) = .ok "lang=de&a=1".toList := rfl
      rw [serQuery_struct h.sent] at h1
      have h2 : ps = formParse "lang=de&a=1".toList := by
        rw [← Res.ok.inj h1, formParse_formText]
      rw [h2]
      decide)
  exact ⟨req, target, h1, h2, h3 [] [] (by intro h hm; cases hm) (by intro h hm; cases hm)
    (by intro _ _ h hm; cases hm) (by intro _ _ h hm; cases hm)⟩

end

end Htrpc
