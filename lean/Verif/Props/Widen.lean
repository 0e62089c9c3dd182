/-
C116: types can be made wider without breaking the other side.
-/
import Verif.Spec.Widen
import Verif.Props.Evolve
import Verif.Props.Texts

namespace Htrpc
open Spec

section
variable [FloatText]

/-! ### What is read from one text -/

theorem scalar_present {t : Ty} {s : Str} {v : Val} (h : ScalarText t s v) : ¬ Omitted v := by
  rintro h'
  cases h <;> cases h'

theorem param_present {t : Ty} {s : Str} {v : Val} (h : ParamText t s v) : ¬ Omitted v := by
  induction h with
  | scalar h => exact scalar_present h
  | some _ ih => rintro (_ | h); exact ih h
  | newtype _ ih => rintro (_ | _ | h); exact ih h
  | _ => rintro ⟨⟩

theorem value_present {t : Ty} {b : Bytes} {v : Val} (h : ValueText t b v) : ¬ Omitted v := by
  induction h with
  | scalar h => exact scalar_present h
  | some _ ih => rintro (_ | h); exact ih h
  | newtype _ ih => rintro (_ | _ | h); exact ih h
  | _ => rintro ⟨⟩

omit [FloatText] in
theorem signed_wider {t u : IntTy} (h : ∀ i, InRange t i → InRange u i) (ht : isSigned t) :
    isSigned u := by
  by_contra hu
  have h1 := h (-1) (by
    unfold InRange; rw [if_pos ht]
    rcases ht with rfl | rfl | rfl | rfl <;> simp [bits])
  unfold InRange at h1
  rw [if_neg hu] at h1
  omega

theorem scalar_wider {t u : IntTy} (h : ∀ i, InRange t i → InRange u i) {s : Str} {v : Val}
    (hv : ScalarText (.int t) s v) : ∃ i, v = .int t i ∧ ScalarText (.int u) s (.int u i) := by
  cases hv with
  | int hd hr hs => exact ⟨_, rfl, .int hd (h _ hr) fun e => signed_wider h (hs e)⟩

theorem param_wider {t u : Ty} (h : Wider true t u) {s : Str} {v : Val} (hv : ParamText t s v) :
    ∃ w, ParamText u s w ∧ Alike ReadFrom true v w := by
  induction h generalizing v with
  | same => exact ⟨v, hv, .same v⟩
  | int h =>
    cases hv with
    | scalar hv =>
      obtain ⟨i, rfl, h'⟩ := scalar_wider h hv
      exact ⟨_, .scalar h', .int ..⟩
  | text ht =>
    cases hv with
    | scalar hv => exact ⟨_, .str s, .text ⟨_, hv⟩⟩
    | _ => cases ht
  | unwrap _ ih =>
    cases hv with
    | scalar hv => cases hv
    | newtype hv =>
      obtain ⟨w, h1, h2⟩ := ih hv
      exact ⟨w, h1, .unwrap h2⟩
  | wrap _ ih =>
    obtain ⟨w, h1, h2⟩ := ih hv
    exact ⟨_, .newtype h1, .wrap h2⟩
  | unSome ho _ ih =>
    cases hv with
    | scalar hv => cases hv
    | some hv =>
      obtain ⟨w, h1, h2⟩ := ih hv
      exact ⟨w, h1, .unSome rfl (param_present hv) h2⟩
  | some ho _ ih =>
    obtain ⟨w, h1, h2⟩ := ih hv
    exact ⟨_, .some h1, .some rfl (param_present h1) h2⟩

theorem value_wider {t u : Ty} (h : Wider true t u) {b : Bytes} {v : Val} (hv : ValueText t b v) :
    ∃ w, ValueText u b w ∧ Alike ReadFrom true v w := by
  induction h generalizing v with
  | same => exact ⟨v, hv, .same v⟩
  | int h =>
    cases hv with
    | scalar hv =>
      obtain ⟨i, rfl, h'⟩ := scalar_wider h hv
      exact ⟨_, .scalar h', .int ..⟩
  | text ht =>
    cases hv with
    | scalar hv => exact ⟨_, .str _, .text ⟨_, hv⟩⟩
    | _ => cases ht
  | unwrap _ ih =>
    cases hv with
    | scalar hv => cases hv
    | newtype hv =>
      obtain ⟨w, h1, h2⟩ := ih hv
      exact ⟨w, h1, .unwrap h2⟩
  | wrap _ ih =>
    obtain ⟨w, h1, h2⟩ := ih hv
    exact ⟨_, .newtype h1, .wrap h2⟩
  | unSome ho _ ih =>
    cases hv with
    | scalar hv => cases hv
    | some hv =>
      obtain ⟨w, h1, h2⟩ := ih hv
      exact ⟨w, h1, .unSome rfl (value_present hv) h2⟩
  | some ho _ ih =>
    obtain ⟨w, h1, h2⟩ := ih hv
    exact ⟨_, .some h1, .some rfl (value_present h1) h2⟩

theorem arg_wider {t u : Ty} (h : Wider false t u) {s : Str} {v : Val} (hv : ArgText t s v) :
    ∃ w, ArgText u s w ∧ Alike ReadFrom false v w := by
  induction h generalizing v with
  | same => exact ⟨v, hv, .same v⟩
  | int h =>
    cases hv with
    | scalar hv =>
      obtain ⟨i, rfl, h'⟩ := scalar_wider h hv
      exact ⟨_, .scalar h', .int ..⟩
  | text ht =>
    cases hv with
    | scalar hv => exact ⟨_, .str _, .text ⟨_, hv⟩⟩
    | _ => cases ht
  | unwrap _ ih =>
    cases hv with
    | scalar hv => cases hv
    | newtype hv =>
      obtain ⟨w, h1, h2⟩ := ih hv
      exact ⟨w, h1, .unwrap h2⟩
  | wrap _ ih =>
    obtain ⟨w, h1, h2⟩ := ih hv
    exact ⟨_, .newtype h1, .wrap h2⟩
  | unSome ho => cases ho
  | some ho => cases ho

/-! ### Paths -/

theorem readSegments_wider {ts us : List Ty} (h : List.Forall₂ (Wider false) ts us) {segs : List Str}
    {vs : List Val} (hv : readSegments ts segs = some vs) :
    ∃ ws, readSegments us segs = some ws ∧ List.Forall₂ (Alike ReadFrom false) vs ws := by
  induction h generalizing segs vs with
  | nil => exact ⟨vs, hv, by cases segs <;> cases hv; exact .nil⟩
  | cons hx _ ih =>
    cases segs with
    | nil => cases hv
    | cons s segs =>
      rw [readSegments] at hv
      split at hv
      · rename_i v vs h1 h2
        cases hv
        obtain ⟨x, h3, h4⟩ := Option.bind_eq_some_iff.1 h1
        obtain ⟨w, h5, h6⟩ := arg_wider hx ((C89_arguments ..).1 h4)
        obtain ⟨ws, h7, h8⟩ := ih h2
        refine ⟨w :: ws, ?_, .cons h6 h8⟩
        rw [readSegments, h7, readSegment, h3]
        simp only [Option.bind_some, (C89_arguments ..).2 h5]
      · cases hv

theorem readPath_tuple {t : Ty} {ts : List Ty} (h : TupleTy t ts) {segs : List Str} {v : Val}
    (hv : readPath t segs = some v) :
    ∃ vs, ArgTuple v vs ∧ readSegments ts (segs.take ts.length) = some vs := by
  induction h generalizing v with
  | tuple ts => obtain ⟨vs, h, rfl⟩ := Option.map_eq_some_iff.1 hv; exact ⟨vs, .tuple vs, h⟩
  | tupleStruct ts =>
    obtain ⟨vs, h, rfl⟩ := Option.map_eq_some_iff.1 hv; exact ⟨vs, .tupleStruct vs, h⟩
  | newtype _ ih =>
    obtain ⟨v, h, rfl⟩ := Option.map_eq_some_iff.1 hv
    obtain ⟨vs, h1, h2⟩ := ih h
    exact ⟨vs, .newtype h1, h2⟩

theorem readPath_of_tuple {t : Ty} {ts : List Ty} (h : TupleTy t ts) {segs : List Str} {vs : List Val}
    (hv : readSegments ts (segs.take ts.length) = some vs) :
    ∃ v, ArgTuple v vs ∧ readPath t segs = some v := by
  induction h with
  | tuple ts => exact ⟨_, .tuple vs, by rw [readPath, hv]; rfl⟩
  | tupleStruct ts => exact ⟨_, .tupleStruct vs, by rw [readPath, hv]; rfl⟩
  | newtype _ ih =>
    obtain ⟨v, h1, h2⟩ := ih hv
    exact ⟨_, .newtype h1, by rw [readPath, h2]; rfl⟩

theorem readPath_wider {t u : Ty} {ts us : List Ty} (ht : TupleTy t ts) (hu : TupleTy u us)
    (h : List.Forall₂ (Wider false) ts us) {segs : List Str} {v : Val} (hv : readPath t segs = some v) :
    ∃ w, readPath u segs = some w ∧ AlikePart ReadFrom "path".toList v w := by
  obtain ⟨vs, h1, h2⟩ := readPath_tuple ht hv
  rw [h.length_eq] at h2
  obtain ⟨ws, h3, h4⟩ := readSegments_wider h h2
  obtain ⟨w, h5, h6⟩ := readPath_of_tuple hu h3
  exact ⟨w, h6, .path h1 h5 h4⟩

/-! ### Queries and headers -/

theorem fields_wider {β : Type} {read : Ty → β → Option Val}
    (hread : ∀ t u b v, Wider true t u → read t b = some v →
      ∃ w, read u b = some w ∧ Alike ReadFrom true v w)
    {fs gs : List (Str × Ty)} (h : WiderFields fs gs) {es : List (Str × β)} {v : Val}
    (hv : readStruct read fs es = some v) :
    ∃ w, readStruct read gs es = some w ∧ AlikeTable ReadFrom v w := by
  obtain ⟨vs, rfl, hf⟩ := readStruct_fields.1 hv
  suffices ∃ ws, Fields (fun n t v => fieldValue read es n t = some v) gs ws ∧
      AlikeFields ReadFrom vs ws by
    obtain ⟨ws, h1, h2⟩ := this
    exact ⟨_, readStruct_fields.2 ⟨ws, rfl, h1⟩, .struct h2⟩
  clear hv
  induction h generalizing vs with
  | nil => cases hf; exact ⟨[], .nil, .nil⟩
  | @cons f g fs gs hx _ ih =>
    obtain ⟨n, t⟩ := f
    obtain ⟨n', u⟩ := g
    obtain ⟨e, hw, ho⟩ := hx
    cases e
    cases hf with
    | @cons _ _ x _ xs h1 h2 =>
      obtain ⟨ws, h3, h4⟩ := ih _ h2
      suffices ∃ w, fieldValue read es n u = some w ∧ Alike ReadFrom true x w by
        obtain ⟨w, h5, h6⟩ := this
        exact ⟨_, .cons h5 h3, .cons ⟨rfl, h6⟩ h4⟩
      rw [fieldValue] at h1 ⊢
      split at h1
      · split at h1
        · cases h1
          rename_i h5
          exact ⟨_, if_pos (ho h5), .same _⟩
        · cases h1
      · exact hread _ _ _ _ hw h1
      · cases h1

omit [FloatText] in
theorem effective_names {α β : Type} {fs : List (Str × α)} {gs : List (Str × β)}
    (h : fs.map Prod.fst = gs.map Prod.fst) : ∀ l : List Str, effective fs l = effective gs l := by
  have hd : ∀ n, Declared fs n ↔ Declared gs n := fun n => by unfold Declared; rw [h]
  suffices ∀ n (l : List Str), l.length ≤ n → effective fs l = effective gs l from
    fun l => this _ l (Nat.le_refl _)
  intro n
  induction n with
  | zero => intro l hl; rw [List.length_eq_zero_iff.1 (Nat.le_zero.1 hl)]; simp [effective]
  | succ n ih =>
    intro l hl
    match l with
    | [] => simp [effective]
    | [_] => simp [effective]
    | k :: x :: rest =>
      simp only [List.length_cons] at hl
      rw [effective, effective, ih rest (by omega), ih (x :: rest) (by simp; omega)]
      simp only [hd]

omit [FloatText] in
theorem wider_names {fs gs : List (Str × Ty)} (h : WiderFields fs gs) :
    fs.map Prod.fst = gs.map Prod.fst := by
  induction h with
  | nil => rfl
  | cons hx _ ih => simp [hx.1, ih]

theorem query_wider {t u : Ty} (h : WiderTable t u) {ps : List (Str × Str)} {v : Val}
    (hv : ReadsQuery ps t v) : ∃ w, ReadsQuery ps u w ∧ AlikeTable ReadFrom v w := by
  induction h generalizing v with
  | same => exact ⟨v, hv, .same v⟩
  | struct h =>
    cases hv with
    | struct hv =>
      rw [effective_names (wider_names h)] at hv
      obtain ⟨w, h1, h2⟩ := fields_wider (fun t u b v hw hr => by
        obtain ⟨w, h1, h2⟩ := param_wider hw ((C89_parameters ..).1 hr)
        exact ⟨w, (C89_parameters ..).2 h1, h2⟩) h hv
      exact ⟨w, .struct h1, h2⟩
    | single hs => cases hs
  | unwrap _ ih =>
    cases hv with
    | single hs => cases hs
    | newtype hv =>
      obtain ⟨w, h1, h2⟩ := ih hv
      exact ⟨w, h1, .unwrap h2⟩
  | wrap _ ih =>
    obtain ⟨w, h1, h2⟩ := ih hv
    exact ⟨_, .newtype h1, .wrap h2⟩
  | unSome _ ih =>
    cases hv with
    | single hs => cases hs
    | some hv =>
      obtain ⟨w, h1, h2⟩ := ih hv
      exact ⟨w, h1, .unSome h2⟩
  | some _ ih =>
    obtain ⟨w, h1, h2⟩ := ih hv
    exact ⟨_, .some h1, .some h2⟩

theorem headers_wider {t u : Ty} (h : WiderTable t u) {hs : List Header} {v : Val}
    (hv : ReadsHeaders hs t v) : ∃ w, ReadsHeaders hs u w ∧ AlikeTable ReadFrom v w := by
  induction h generalizing v with
  | same => exact ⟨v, hv, .same v⟩
  | struct h =>
    cases hv with
    | struct hv =>
      obtain ⟨w, h1, h2⟩ := fields_wider (fun t u b v hw hr => by
        obtain ⟨w, h1, h2⟩ := value_wider hw ((C89_values ..).1 hr)
        exact ⟨w, (C89_values ..).2 h1, h2⟩) h hv
      exact ⟨w, .struct h1, h2⟩
    | single hs => cases hs
  | unwrap _ ih =>
    cases hv with
    | single hs => cases hs
    | newtype hv =>
      obtain ⟨w, h1, h2⟩ := ih hv
      exact ⟨w, h1, .unwrap h2⟩
  | wrap _ ih =>
    obtain ⟨w, h1, h2⟩ := ih hv
    exact ⟨_, .newtype h1, .wrap h2⟩
  | unSome _ ih =>
    cases hv with
    | single hs => cases hs
    | some hv =>
      obtain ⟨w, h1, h2⟩ := ih hv
      exact ⟨w, h1, .unSome h2⟩
  | some _ ih =>
    obtain ⟨w, h1, h2⟩ := ih hv
    exact ⟨_, .some h1, .some h2⟩

/-! ### Requests -/

theorem part_wider {n : Str} {t u : Ty} (h : WiderPart n t u) {e : EntryPoint} {segs : List Str}
    {ps : List (Str × Str)} {hs : List Header} {v : Val} (hv : RequestField e segs ps hs n t v) :
    ∃ w, RequestField e segs ps hs n u w ∧ AlikePart ReadFrom n v w := by
  cases h with
  | same => exact ⟨v, hv, .same ..⟩
  | path ht hu h =>
    generalize hn : "path".toList = n at hv
    cases hv with
    | path hv =>
      obtain ⟨w, h1, h2⟩ := readPath_wider ht hu h hv
      exact ⟨w, .path h1, h2⟩
    | query => exact absurd hn (by decide)
    | header => exact absurd hn (by decide)
    | other h1 => exact absurd hn.symm h1
  | query h =>
    generalize hn : "query".toList = n at hv
    cases hv with
    | query hv =>
      obtain ⟨w, h1, h2⟩ := query_wider h hv
      exact ⟨w, .query h1, .query h2⟩
    | path => exact absurd hn (by decide)
    | header => exact absurd hn (by decide)
    | other _ h1 => exact absurd hn.symm h1
  | header h =>
    generalize hn : "header".toList = n at hv
    cases hv with
    | header hv =>
      obtain ⟨w, h1, h2⟩ := headers_wider h hv
      exact ⟨w, .header h1, .header h2⟩
    | path => exact absurd hn (by decide)
    | query => exact absurd hn (by decide)
    | other _ _ h1 => exact absurd hn.symm h1

omit [FloatText] in
theorem all_wider {P : Str → Ty → Val → Prop} {A : Str → Ty → Ty → Prop} {B : Str → Val → Val → Prop}
    (hP : ∀ n t u v, A n t u → P n t v → ∃ w, P n u w ∧ B n v w) {fs gs : List (Str × Ty)}
    (h : List.Forall₂ (fun f g => f.1 = g.1 ∧ A f.1 f.2 g.2) fs gs) {vs : List (Str × Val)}
    (hv : Fields P fs vs) : ∃ ws, Fields P gs ws ∧
      List.Forall₂ (fun f g => f.1 = g.1 ∧ B f.1 f.2 g.2) vs ws := by
  induction h generalizing vs with
  | nil => cases hv; exact ⟨[], .nil, .nil⟩
  | @cons f g fs gs hx _ ih =>
    obtain ⟨n, t⟩ := f
    obtain ⟨n', u⟩ := g
    obtain ⟨e, hx⟩ := hx
    cases e
    cases hv with
    | cons h1 h2 =>
      obtain ⟨ws, h3, h4⟩ := ih h2
      obtain ⟨w, h5, h6⟩ := hP _ _ _ _ hx h1
      exact ⟨_, .cons h5 h3, .cons ⟨rfl, h6⟩ h4⟩

omit [FloatText] in
theorem same_declared {A : Str × Ty → Str × Ty → Prop} {fs gs : List (Str × Ty)}
    (h : List.Forall₂ (fun f g => f.1 = g.1 ∧ A f g) fs gs) (n : Str) :
    Declared fs n ↔ Declared gs n := by
  have : fs.map Prod.fst = gs.map Prod.fst := by
    induction h with
    | nil => rfl
    | cons hx _ ih => simp [hx.1, ih]
  unfold Declared
  rw [this]

theorem request_wider {t u : Ty} (h : WiderRequest t u) {e : EntryPoint} {segs : List Str}
    {ps : List (Str × Str)} {hs : List Header} {v : Val} (hv : ReadsRequest e segs ps hs t v) :
    ∃ w, ReadsRequest e segs ps hs u w ∧ AlikeRequest ReadFrom v w := by
  induction h generalizing v with
  | struct h =>
    cases hv with
    | struct h1 h2 =>
      obtain ⟨ws, h3, h4⟩ := all_wider (P := RequestField e segs ps hs)
        (fun _ _ _ _ hw hp => part_wider hw hp) h h2
      exact ⟨_, .struct (h1.imp_left (same_declared h _).1) h3, .struct h4⟩
  | unwrap _ ih =>
    cases hv with
    | newtype hv =>
      obtain ⟨w, h1, h2⟩ := ih hv
      exact ⟨w, h1, .unwrap h2⟩
  | wrap _ ih =>
    obtain ⟨w, h1, h2⟩ := ih hv
    exact ⟨_, .newtype h1, .wrap h2⟩

/-! ### Responses -/

omit [FloatText] in
theorem range_code {t u : IntTy} (h : ∀ i, InRange t i → InRange u i) {i : Int}
    (h1 : t.min ≤ i) (h2 : i ≤ t.max) : u.min ≤ i ∧ i ≤ u.max :=
  (range_iff u i).1 (h i ((range_iff t i).2 ⟨h1, h2⟩))

theorem field_wider {n : Str} {t u : Ty} (h : WiderField n t u) {code : Nat} {hs : List Header}
    {whole : Bool} {v : Val} (hv : ResponseField code hs whole n t v) :
    ∃ w, ResponseField code hs whole n u w ∧ AlikeField ReadFrom n v w := by
  cases h with
  | same => exact ⟨v, hv, .same ..⟩
  | status h =>
    generalize hn : "status".toList = n at hv
    cases hv with
    | status hw hv =>
      cases hv with
      | int h1 h2 =>
        obtain ⟨h3, h4⟩ := range_code h h1 h2
        exact ⟨_, .status hw (.int h3 h4), .status ..⟩
    | header => exact absurd hn (by decide)
  | header h =>
    generalize hn : "header".toList = n at hv
    cases hv with
    | header hv =>
      obtain ⟨w, h1, h2⟩ := headers_wider h hv
      exact ⟨w, .header h1, .header h2⟩
    | status => exact absurd hn (by decide)
    | other _ h1 => exact absurd hn.symm h1

theorem response_wider {t u : Ty} (h : WiderResponse t u) {code : Nat} {hs : List Header}
    {whole : Bool} {v : Val} (hv : ReadsResponse code hs whole t v) :
    ∃ w, ReadsResponse code hs whole u w ∧ AlikeResponse ReadFrom v w := by
  induction h generalizing v whole with
  | struct h =>
    cases hv with
    | struct h1 h2 =>
      obtain ⟨ws, h3, h4⟩ := all_wider (P := ResponseField code hs whole)
        (fun _ _ _ _ hw hp => field_wider hw hp) h h2
      exact ⟨_, .struct (h1.imp_left (same_declared h _).1) h3, .struct h4⟩
  | enum inner hu hst hnt _ ih =>
    cases hv with
    | unit hm hl => exact ⟨_, .unit hm (hu _ hl), .unit _⟩
    | newtypeVariant hm hl hv =>
      obtain ⟨w, h1, h2⟩ := ih _ _ hl hv
      exact ⟨_, .newtypeVariant hm (hnt _ _ hl) h1, .newtypeVariant h2⟩
    | structVariant hm hl hd hv =>
      obtain ⟨gs, h1, h2⟩ := hst _ _ hl
      obtain ⟨ws, h3, h4⟩ := all_wider (P := ResponseField code hs false)
        (fun _ _ _ _ hw hp => field_wider hw hp) h2 hv
      exact ⟨_, .structVariant hm h1 (hd.imp_left (same_declared h2 _).1) h3, .structVariant h4⟩
  | unwrap _ ih =>
    cases hv with
    | newtype hv =>
      obtain ⟨w, h1, h2⟩ := ih hv
      exact ⟨w, h1, .unwrap h2⟩
  | wrap _ ih =>
    obtain ⟨w, h1, h2⟩ := ih hv
    exact ⟨_, .newtype h1, .wrap h2⟩

/-- **C116.** A server whose procedure has a wider type of requests accepts every request, from whatever
client, that it accepted before, and gets the same values in the new types. -/
theorem C116_wider_server (e : EntryPoint) (old new : Ty) (h : WiderRequest old new)
    (ho : WellNamed old) (hn : WellNamed new) (hm : Mapless new) (target : Target) (segs : List Str)
    (hsegs : target.segs = some segs) (hmatch : Matches e segs) (hs : List Header)
    (ha : AsciiNames hs) (v : Val) (hv : deRequest e old target hs = .ok v) :
    ∃ w, deRequest e new target hs = .ok w ∧ AlikeRequest ReadFrom v w := by
  obtain ⟨w, h1, h2⟩ := request_wider h
    ((C82_request_read e old ho target segs hsegs hmatch hs ha).ok_iff hv)
  exact ⟨w, (C82_request_iff e new hn hm target segs hsegs hmatch hs ha w).2 h1, h2⟩

/-- **C116.** A client that expects a wider type of responses reads every response, from whatever
server, that it read before, and gets the same values in the new types. -/
theorem C116_wider_client (old new : Ty) (h : WiderResponse old new) (ho : WellNamed old)
    (hn : WellNamed new) (hm : Mapless new) (code : Nat) (hs : List Header) (ha : AsciiNames hs)
    (v : Val) (hv : deResponse old code hs = .ok v) :
    ∃ w, deResponse new code hs = .ok w ∧ AlikeResponse ReadFrom v w := by
  obtain ⟨w, h1, h2⟩ := response_wider h ((C83_response_read old ho code hs ha).ok_iff hv)
  exact ⟨w, (C83_response_iff new hn hm code hs ha w).2 h1, h2⟩

/-! ### What is written -/

theorem pathSer_alike {v w : Val} (h : Alike SentAs false v w) (st : PathSer) :
    PathSer.ser v st = PathSer.ser w st := by
  induction h with
  | same => rfl
  | int => simp only [PathSer.ser]
  | text h => rw [PathSer.ser_sentAs h, PathSer.ser]
  | unwrap _ ih => rw [PathSer.ser, ih]
  | wrap _ ih => rw [PathSer.ser, ih]
  | unSome ho => cases ho
  | some ho => cases ho

theorem querySer_alike {v w : Val} (h : Alike SentAs true v w) (st : QuerySer) :
    QuerySer.ser v st = QuerySer.ser w st := by
  induction h with
  | same => rfl
  | int => simp only [QuerySer.ser]
  | text h => rw [QuerySer.ser_sentAs h, QuerySer.ser]
  | unwrap _ ih => rw [QuerySer.ser, ih]
  | wrap _ ih => rw [QuerySer.ser, ih]
  | unSome _ _ _ ih => rw [QuerySer.ser, ih]
  | some _ _ _ ih => rw [QuerySer.ser, ih]

theorem headerSer_alike {v w : Val} (h : Alike SentAs true v w) (st : HeaderSer) :
    HeaderSer.ser v st = HeaderSer.ser w st := by
  induction h with
  | same => rfl
  | int => simp only [HeaderSer.ser]
  | text h => rw [HeaderSer.ser_sentAs h, HeaderSer.ser]
  | unwrap _ ih => rw [HeaderSer.ser, ih]
  | wrap _ ih => rw [HeaderSer.ser, ih]
  | unSome _ _ _ ih => rw [HeaderSer.ser, ih]
  | some _ _ _ ih => rw [HeaderSer.ser, ih]

theorem serAll_alike {vs ws : List Val} (h : List.Forall₂ (Alike SentAs false) vs ws) (st : PathSer) :
    PathSer.serAll vs st = PathSer.serAll ws st := by
  induction h generalizing st with
  | nil => rfl
  | cons hx _ ih => simp only [PathSer.serAll, pathSer_alike hx, ih]

theorem pathSer_tuple {v : Val} {vs : List Val} (h : ArgTuple v vs) (st : PathSer) :
    PathSer.ser v st = PathSer.ser (.tuple vs) st := by
  induction h with
  | tuple => rfl
  | tupleStruct => simp only [PathSer.ser]
  | newtype _ ih => rw [PathSer.ser, ih]

theorem serPath_alike {v w : Val} {vs ws : List Val} (hv : ArgTuple v vs) (hw : ArgTuple w ws)
    (h : List.Forall₂ (Alike SentAs false) vs ws) (e : EntryPoint) (p : Str) :
    serPath e p v = serPath e p w := by
  simp only [serPath, pathSer_tuple hv, pathSer_tuple hw, PathSer.ser, h.length_eq, serAll_alike h]

theorem queryFields_alike {fs gs : List (Str × Val)} (h : AlikeFields SentAs fs gs) (st : QuerySer) :
    QuerySer.serFields fs st = QuerySer.serFields gs st := by
  induction h generalizing st with
  | nil => rfl
  | @cons f g fs gs hx _ ih =>
    obtain ⟨n, v⟩ := f
    obtain ⟨n', w⟩ := g
    obtain ⟨e, hx⟩ := hx
    cases e
    simp only [QuerySer.serFields, querySer_alike hx, ih]

theorem headerFields_alike {fs gs : List (Str × Val)} (h : AlikeFields SentAs fs gs)
    (st : HeaderSer) : HeaderSer.serFields fs st = HeaderSer.serFields gs st := by
  induction h generalizing st with
  | nil => rfl
  | @cons f g fs gs hx _ ih =>
    obtain ⟨n, v⟩ := f
    obtain ⟨n', w⟩ := g
    obtain ⟨e, hx⟩ := hx
    cases e
    simp only [HeaderSer.serFields, headerSer_alike hx, ih]

theorem query_alike {v w : Val} (h : AlikeTable SentAs v w) (st : QuerySer) :
    QuerySer.ser v st = QuerySer.ser w st := by
  induction h with
  | same => rfl
  | struct h => simp only [QuerySer.ser, queryFields_alike h]
  | unwrap _ ih => rw [QuerySer.ser, ih]
  | wrap _ ih => rw [QuerySer.ser, ih]
  | unSome _ ih => rw [QuerySer.ser, ih]
  | some _ ih => rw [QuerySer.ser, ih]

theorem headers_alike {v w : Val} (h : AlikeTable SentAs v w) (hs : List Header) :
    serHeaders hs v = serHeaders hs w := by
  suffices ∀ st, HeaderSer.ser v st = HeaderSer.ser w st by simp only [serHeaders, this]
  intro st
  induction h with
  | same => rfl
  | struct h => simp only [HeaderSer.ser, headerFields_alike h]
  | unwrap _ ih => rw [HeaderSer.ser, ih]
  | wrap _ ih => rw [HeaderSer.ser, ih]
  | unSome _ ih => rw [HeaderSer.ser, ih]
  | some _ ih => rw [HeaderSer.ser, ih]

theorem serField_query_without {e : EntryPoint} {v : Val} {st : ReqSer} (hp : st.pathInit = false) :
    ReqSer.serField e "query".toList v st = .err .invalid := by
  rw [ReqSer.serField, if_neg ReqSer.query_ne_path, if_pos rfl]
  cases hc : st.conn with
  | false => rfl
  | true =>
    simp only [hp, Res.check, if_true, Res.bind_ok, Bool.false_eq_true, if_false]
    rcases (serPath_sat e st.path v).ok_or_invalid with ⟨p, h⟩ | h
    · simp only [h, Res.bind_ok, querySer_of_serPath h]; rfl
    · rw [h]; rfl

theorem serField_alike {n : Str} {v w : Val} (h : AlikePart SentAs n v w) (e : EntryPoint)
    (st : ReqSer) : ReqSer.serField e n v st = ReqSer.serField e n w st := by
  cases h with
  | same => rfl
  | path hv hw h => simp only [ReqSer.serField, if_true, serPath_alike hv hw h]
  | query h =>
    cases hp : st.pathInit with
    | false => rw [serField_query_without hp, serField_query_without hp]
    | true =>
      simp only [ReqSer.serField, if_neg ReqSer.query_ne_path, if_true, hp, query_alike h]
  | header h => simp only [ReqSer.serField_header, headers_alike h]

/-- **C116.** A request of other types with the same values is written with the same bytes: numbers and
booleans may become strings and integers change their widths, values may be put into newtypes, and in
queries and headers into `Some`. -/
theorem C116_same_request (v w : Val) (h : AlikeRequest SentAs v w) (m : Method) (e : EntryPoint)
    (body : Bytes) : serRequest m e v body = serRequest m e w body := by
  suffices ∀ st, ReqSer.ser e v st = ReqSer.ser e w st by simp only [serRequest, this]
  intro st
  induction h with
  | @struct fs gs h =>
    simp only [ReqSer.ser]
    induction h generalizing st with
    | nil => rfl
    | @cons f g fs gs hx _ ih =>
      obtain ⟨n, v⟩ := f
      obtain ⟨n', w⟩ := g
      obtain ⟨e, hx⟩ := hx
      cases e
      simp only [ReqSer.serFields, serField_alike hx, ih]
  | unwrap _ ih => rw [ReqSer.ser, ih]
  | wrap _ ih => rw [ReqSer.ser, ih]

theorem addHeaders_alike {v w : Val} (h : AlikeTable SentAs v w) (st : RespSer) :
    RespSer.addHeaders v st = RespSer.addHeaders w st := by
  simp only [RespSer.addHeaders, headers_alike h]

theorem respField_alike {n : Str} {v w : Val} (h : AlikeField SentAs n v w) (st : RespSer) :
    RespSer.serField n v st = RespSer.serField n w st := by
  cases h with
  | same => rfl
  | status => simp only [RespSer.serField, if_true, RespSer.jsonU16]
  | header h =>
    simp only [RespSer.serField, if_neg (show ("header".toList : Str) ≠ "status".toList by decide),
      addHeaders_alike h]

theorem respVariantField_alike {n : Str} {v w : Val} (h : AlikeField SentAs n v w) (st : RespSer) :
    RespSer.serVariantField n v st = RespSer.serVariantField n w st := by
  cases h with
  | same => rfl
  | status =>
    rw [RespSer.serVariantField, RespSer.serVariantField, if_neg (by decide), if_neg (by decide)]
  | header h => simp only [RespSer.serVariantField, addHeaders_alike h]

/-- **C116.** The same for responses. -/
theorem C116_same_response (v w : Val) (h : AlikeResponse SentAs v w) (body : Bytes) :
    serResponse v body = serResponse w body := by
  suffices ∀ st, RespSer.ser v st = RespSer.ser w st by simp only [serResponse, this]
  intro st
  induction h generalizing st with
  | unit => rfl
  | @struct fs gs h =>
    simp only [RespSer.ser]
    induction h generalizing st with
    | nil => rfl
    | @cons f g fs gs hx _ ih =>
      obtain ⟨n, v⟩ := f
      obtain ⟨n', w⟩ := g
      obtain ⟨e, hx⟩ := hx
      cases e
      simp only [RespSer.serFields, respField_alike hx, ih]
  | @structVariant n fs gs h =>
    simp only [RespSer.ser]
    suffices ∀ st, RespSer.serVariantFields fs st = RespSer.serVariantFields gs st by simp only [this]
    clear st
    induction h with
    | nil => intro st; rfl
    | @cons f g fs gs hx _ ih =>
      intro st
      obtain ⟨n, v⟩ := f
      obtain ⟨n', w⟩ := g
      obtain ⟨e, hx⟩ := hx
      cases e
      simp only [RespSer.serVariantFields, respVariantField_alike hx, ih]
  | newtypeVariant _ ih => rw [RespSer.ser, RespSer.ser, ih]
  | unwrap _ ih => rw [RespSer.ser, ih]
  | wrap _ ih => rw [RespSer.ser, ih]

/-- **C116 (finding).** An optional field must not be put into a newtype: then it is no longer optional.
A query without it is refused. -/
theorem C116_wrapped_option (n : Str) (t : Ty) (hw : WellNamed t) (q : Str)
    (hq : ∀ p ∈ formParse q, p.1 ≠ n) (ht : Tame [(n, t)] (formParse q)) :
    deQuery (.struct [(n, .option t)]) (some q) = .ok (.struct [(n, .none)]) ∧
      deQuery (.struct [(n, .newtypeStruct (.option t))]) (some q) = .err .invalid := by
  have htame : ∀ u : Ty, Tame [(n, u)] (formParse q) := fun u => by simpa [Tame, Declared] using ht
  constructor
  · rw [C89_query _ (by simp [DistinctNames]) _ (htame _)]
    exact ⟨_, rfl, .absent hq .nil⟩
  · rcases deQuery_gives (.struct [(n, .newtypeStruct (.option t))])
      (by simp [WellNamed, WellNamedFields, DistinctNames, hw]) (some q) with ⟨v, h, -⟩ | ⟨h, -⟩
    · rw [C89_query _ (by simp [DistinctNames]) _ (htame _)] at h
      obtain ⟨vs, -, h⟩ := h
      cases h with
      | @present _ _ a x b _ _ _ h =>
        rw [Option.getD_some] at h
        exact absurd rfl (hq (n, x) (by rw [h]; simp))
    · exact h

omit [FloatText] in
theorem fieldsFrom_newtype {β : Type} {means : Ty → β → Val → Prop} {es : List (Str × β)}
    {ts : List (Str × Ty)} {vs : List (Str × Val)} (h : FieldsFrom means es ts vs) {n : Str} {t : Ty}
    (hm : (n, .newtypeStruct t) ∈ ts) : ∃ e ∈ es, e.1 = n := by
  induction h with
  | nil => cases hm
  | @present m u a x b _ _ _ h _ _ _ _ ih =>
    rcases List.mem_cons.1 hm with hm | hm
    · cases hm
      exact ⟨(n, x), by rw [h]; simp, rfl⟩
    · exact ih hm
  | absent _ _ ih =>
    rcases List.mem_cons.1 hm with hm | hm
    · cases hm
    · exact ih hm

/-- **C116 (finding).** The same with any further fields: a query without the parameter of a field that
is a newtype is refused, whatever is in the newtype. -/
theorem C116_wrapped_query (ts : List (Str × Ty)) (hd : DistinctNames ts) (hw : WellNamed (.struct ts))
    (n : Str) (t : Ty) (hm : (n, .newtypeStruct t) ∈ ts) (q : Option Str)
    (ht : Tame ts (formParse (q.getD []))) (hq : ∀ p ∈ formParse (q.getD []), p.1 ≠ n) :
    deQuery (.struct ts) q = .err .invalid := by
  rcases deQuery_gives (.struct ts) hw q with ⟨v, h, -⟩ | ⟨h, -⟩
  · obtain ⟨vs, -, h⟩ := (C89_query ts hd q ht v).1 h
    obtain ⟨e, he, hn⟩ := fieldsFrom_newtype h hm
    exact absurd hn (hq e he)
  · exact h

/-- **C116 (finding).** The same for headers. -/
theorem C116_wrapped_header (ts : List (Str × Ty)) (hd : DistinctNames ts) (hw : WellNamed (.struct ts))
    (n : Str) (t : Ty) (hm : (n, .newtypeStruct t) ∈ ts) (hs : List Header) (ha : AsciiNames hs)
    (hh : ∀ h ∈ hs, nameText h.1 ≠ n) : deHeaders (.struct ts) hs = .err .invalid := by
  rcases deHeaders_gives (.struct ts) hw ha with ⟨v, h, -⟩ | ⟨h, -⟩
  · obtain ⟨vs, -, h⟩ := (C89_headers ts hd hs ha v).1 h
    obtain ⟨e, he, hn⟩ := fieldsFrom_newtype h hm
    obtain ⟨x, hx, rfl⟩ := List.mem_map.1 he
    exact absurd hn (hh x hx)
  · exact h

end

namespace WidenExamples

/-- `GET /users/12?a=7`, as it was declared first. -/
def exOldTy : Ty :=
  .struct [("path".toList, .tuple [.int .u16]), ("query".toList, .struct [("a".toList, .option (.int .u8)),
    ("b".toList, .option .bool)])]

/-- And later. -/
def exNewTy : Ty :=
  .newtypeStruct (.struct [("path".toList, .tupleStruct [.newtypeStruct (.int .u32)]),
    ("query".toList, .option (.struct [("a".toList, .option .str), ("b".toList, .option .bool)]))])

theorem u16_u32 (i : Int) (h : InRange .u16 i) : InRange .u32 i := by
  rw [range_iff] at h ⊢
  simp only [IntTy.min, IntTy.max] at h ⊢
  omega

theorem exWider : WiderRequest exOldTy exNewTy :=
  .wrap (.struct (.cons ⟨rfl, .path (.tuple _) (.tupleStruct _) (.cons (.wrap (.int u16_u32)) .nil)⟩
    (.cons ⟨rfl, .query (.some (.struct (.cons ⟨rfl, .unSome rfl (.some rfl (.text rfl)), fun _ => rfl⟩
      (.cons ⟨rfl, .same _, id⟩ .nil))))⟩ .nil)))

/-- `C116_wider_server`. -/
example : letI := toyFloat
    ∃ w, deRequest [.val "users".toList, .var] exNewTy
        ⟨some ["users".toList, "12".toList], some "a=7".toList⟩ [(utf8 "Host".toList, [])] = .ok w ∧
      AlikeRequest ReadFrom (.struct [("path".toList, .tuple [.int .u16 12]),
        ("query".toList, .struct [("a".toList, .some (.int .u8 7)), ("b".toList, .none)])]) w := by
  let := toyFloat
  have ha : AsciiNames [(utf8 "Host".toList, ([] : Bytes))] := by unfold AsciiNames; decide
  have ho : WellNamed exOldTy := by
    simp [exOldTy, WellNamed, WellNamedFields, WellNamedAll, DistinctNames]
  refine C116_wider_server [.val "users".toList, .var] _ _ exWider ho
    (by simp [exNewTy, WellNamed, WellNamedFields, WellNamedAll, DistinctNames])
    (by simp [exNewTy, Mapless, MaplessFields, MaplessAll])
    ⟨some ["users".toList, "12".toList], some "a=7".toList⟩ _ rfl (.cons rfl (.cons trivial .nil)) _ ha _ ?_
  refine (C82_request_iff [.val "users".toList, .var] _ ho
    (by simp [exOldTy, Mapless, MaplessFields, MaplessAll])
    ⟨some ["users".toList, "12".toList], some "a=7".toList⟩ _ rfl (.cons rfl (.cons trivial .nil)) _ ha _).2
    (.struct (.inr (by simp)) (.cons (.path ?_) (.cons (.query (.struct ?_)) .nil)))
  · decide
  · have hp : formParse ((some "a=7".toList).getD []) = [("a".toList, "7".toList)] := by decide
    rw [hp]
    have he : effective [("a".toList, Ty.option (.int .u8)), ("b".toList, .option .bool)]
        (row [("a".toList, "7".toList)]) = [("a".toList, "7".toList)] := by
      simp [row, effective, Declared]
    rw [he]
    decide

/-- `C116_same_request`: the client may be changed in the same way. -/
example (m : Method) (body : Bytes) : letI := toyFloat
    serRequest m [.val "users".toList, .var] (.struct [("path".toList, .tuple [.int .u16 12]),
        ("query".toList, .struct [("a".toList, .some (.int .u8 7)), ("b".toList, .none)])]) body =
      serRequest m [.val "users".toList, .var] (.newtypeStruct (.struct
        [("path".toList, .tupleStruct [.newtypeStruct (.int .u32 12)]),
        ("query".toList, .some (.struct [("a".toList, .some (.str "7".toList)), ("b".toList, .none)]))]))
        body := by
  let := toyFloat
  have h7 : SentAs (.int .u8 7) "7".toList := by
    have : showInt 7 = "7".toList := by decide
    rw [← this]; exact .int ..
  refine C116_same_request _ _ ?_ m _ body
  exact .wrap (.struct (.cons ⟨rfl, .path (.tuple _) (.tupleStruct _)
    (.cons (.wrap (.int ..)) .nil)⟩ (.cons ⟨rfl, .query (.some (.struct (.cons ⟨rfl,
      .unSome rfl (by rintro ⟨⟩) (.some rfl (by rintro ⟨⟩) (.text h7))⟩ (.cons ⟨rfl, .same _⟩ .nil))))⟩
      .nil)))

/-- `C116_wider_client`: the status gets another type, and the header becomes optional. -/
example : letI := toyFloat
    ∃ w, deResponse (.struct [("status".toList, .int .u32),
        ("header".toList, .struct [("x".toList, .option (.int .u8))])]) 404
          [(utf8 "X".toList, utf8 "5".toList)] = .ok w ∧
      AlikeResponse ReadFrom (.struct [("status".toList, .int .u16 404),
        ("header".toList, .struct [("x".toList, .int .u8 5)])]) w := by
  let := toyFloat
  refine C116_wider_client (.struct [("status".toList, .int .u16),
    ("header".toList, .struct [("x".toList, .int .u8)])]) _ ?_
    (by simp [WellNamed, WellNamedFields, DistinctNames])
    (by simp [WellNamed, WellNamedFields, DistinctNames]) (by simp [Mapless, MaplessFields]) 404 _
    ?_ _ (by rfl)
  · exact .struct (.cons ⟨rfl, .status u16_u32⟩ (.cons ⟨rfl, .header (.struct (.cons
      ⟨rfl, .some rfl (.same _), nofun⟩ .nil))⟩ .nil))
  · unfold AsciiNames; decide

/-- `C116_same_response`. -/
example (body : Bytes) : letI := toyFloat
    serResponse (.structVariant "NotFound".toList [("header".toList,
        .struct [("x".toList, .int .u8 5)])]) body =
      serResponse (.structVariant "NotFound".toList [("header".toList,
        .struct [("x".toList, .some (.newtypeStruct (.int .i64 5)))])]) body := by
  let := toyFloat
  refine C116_same_response _ _ ?_ body
  exact .structVariant (.cons ⟨rfl, .header (.struct (.cons ⟨rfl,
    .some rfl (by rintro (_ | _ | ⟨⟨⟩⟩)) (.wrap (.int ..))⟩ .nil))⟩ .nil)

/-- `C116_wrapped_option`: a query with another parameter. -/
example : letI := toyFloat
    deQuery (.struct [("a".toList, .newtypeStruct (.option .str))]) (some "b=1".toList) =
      .err .invalid := by
  let := toyFloat
  have hp : formParse "b=1".toList = [("b".toList, "1".toList)] := by decide
  exact (C116_wrapped_option "a".toList .str (by simp [WellNamed]) _ (by rw [hp]; decide)
    (by rw [hp]; simp [Tame])).2

/-- `C116_wrapped_query`: the same beside a field that is given. -/
example : letI := toyFloat
    deQuery (.struct [("b".toList, .str), ("a".toList, .newtypeStruct (.option .str))])
      (some "b=1".toList) = .err .invalid := by
  let := toyFloat
  have hp : formParse ((some "b=1".toList).getD []) = [("b".toList, "1".toList)] := by decide
  exact C116_wrapped_query _ (by unfold DistinctNames; decide)
    (by simp [WellNamed, WellNamedFields, DistinctNames]) "a".toList (.option .str) (by simp) _
    (by rw [hp]; decide) (by rw [hp]; decide)

/-- `C116_wrapped_header`: a response with another header; without the newtype it is read. -/
example : letI := toyFloat
    deHeaders (.struct [("a".toList, .newtypeStruct (.option .str))])
        [(utf8 "B".toList, utf8 "1".toList)] = .err .invalid ∧
      deHeaders (.struct [("a".toList, .option .str)]) [(utf8 "B".toList, utf8 "1".toList)] =
        .ok (.struct [("a".toList, .none)]) := by
  let := toyFloat
  constructor
  · exact C116_wrapped_header _ (by unfold DistinctNames; decide)
      (by simp [WellNamed, WellNamedFields, DistinctNames]) "a".toList (.option .str) (by simp) _
      (by unfold AsciiNames; decide) (by decide)
  · exact (C89_headers _ (by unfold DistinctNames; decide) _ (by unfold AsciiNames; decide) _).2
      ⟨_, rfl, .absent (by decide) .nil⟩

end WidenExamples

end Htrpc
