/-
Which requests can be passed on to another server (C117).
-/
import Verif.Props.Typed
import Verif.Props.Accept
import Verif.Props.ExactRequest
import Verif.Spec.PassOn

namespace Htrpc
open Spec
section
variable [FloatText]

theorem simple_sent {t : Ty} (h : SimpleTy t) {v : Val} (hv : HasTy v t) : ∃ s, SentAs v s := by
  induction h generalizing v with
  | scalar h => cases hv <;> cases h <;> exact ⟨_, by constructor⟩
  | str => cases hv; exact ⟨_, .str _⟩
  | newtype _ ih =>
    cases hv with
    | newtypeStruct hv =>
      obtain ⟨s, hs⟩ := ih hv
      exact ⟨s, .newtypeStruct hs⟩

theorem simple_plain {t : Ty} (h : SimpleTy t) {v : Val} (hv : HasTy v t) (ht : ¬ HasTrue v)
    (hn : ¬ HasNaN v) {s : Str} (hs : SentAs v s) : PlainArg v s := by
  induction h generalizing v with
  | scalar h =>
    cases hv <;> cases h <;> cases hs
    · rename_i b
      cases b
      · exact .false
      · exact absurd .true ht
    · exact .int _ _
    · exact .f32 _ (by cases hx : isNaN32 _ with | false => rfl | true => exact absurd (.here (.f32 hx)) hn)
    · exact .f64 _ (by cases hx : isNaN64 _ with | false => rfl | true => exact absurd (.here (.f64 hx)) hn)
  | str => cases hv; cases hs; exact .str _
  | newtype _ ih =>
    cases hv with
    | newtypeStruct hv =>
      cases hs with
      | newtypeStruct hs =>
        exact .newtype (ih hv (fun h => ht (.newtypeStruct h)) (fun h => hn (.newtypeStruct h)) hs)

theorem plain_not_true {v : Val} {s : Str} (h : PlainArg v s) : ¬ HasTrue v := by
  induction h with
  | newtype _ ih => intro h; cases h with | newtypeStruct h => exact ih h
  | _ => intro h; cases h

theorem plainOpt_not_true {v : Val} {s : Str} (h : PlainOpt v s) : ¬ HasTrue v := by
  induction h with
  | plain h => exact plain_not_true h
  | some _ ih => intro h; cases h with | some h => exact ih h
  | newtype _ ih => intro h; cases h with | newtypeStruct h => exact ih h

theorem plainHeader_not_true {v : Val} {b : Bytes} (h : PlainHeader v b) : ¬ HasTrue v := by
  induction h with
  | plain h => exact plain_not_true h
  | some _ ih => intro h; cases h with | some h => exact ih h
  | newtype _ ih => intro h; cases h with | newtypeStruct h => exact ih h
  | _ => intro h; cases h

omit [FloatText] in
theorem entries_not_true {β : Type} {present : Val → β → Prop} (hp : ∀ v x, present v x → ¬ HasTrue v)
    {fs : List (Str × Val)} {es : List (Str × β)} (h : FieldEntries present (· = Val.none) fs es) :
    ∀ n w, (n, w) ∈ fs → ¬ HasTrue w := by
  induction h with
  | nil => nofun
  | absent h _ ih =>
    intro n w hm
    rcases List.mem_cons.1 hm with hm | hm
    · cases hm; cases h; nofun
    · exact ih n w hm
  | present h _ ih =>
    intro n w hm
    rcases List.mem_cons.1 hm with hm | hm
    · cases hm; exact hp _ _ h
    · exact ih n w hm

omit [FloatText] in
/-- The fields of a struct whose types are simple, as they are written. -/
theorem fields_written {β : Type} {present : Val → β → Prop} {absent : Val → Prop}
    (ha : absent .none) {P : Val → Prop} {fs : List (Str × Val)} {ts : List (Str × Ty)}
    (ht : ∀ f ∈ ts, SimpleField f.2)
    (hp : ∀ v t, SimpleTy t → HasTy v t → P v → ∃ x, present v x)
    (hs : ∀ v x, present v x → present (.some v) x) (hv : HasTyFields fs ts)
    (hf : ∀ n w, (n, w) ∈ fs → P w) (hps : ∀ v, P (.some v) → P v) :
    ∃ es, FieldEntries present absent fs es := by
  induction ts generalizing fs with
  | nil => cases hv; exact ⟨[], .nil⟩
  | cons f ts ih =>
    cases hv with
    | cons hv hvs =>
      obtain ⟨es, he⟩ := ih (fun f hf => ht f (List.mem_cons_of_mem _ hf)) hvs
        (fun n w hm => hf n w (List.mem_cons_of_mem _ hm))
      have h1 := hf _ _ List.mem_cons_self
      cases ht _ List.mem_cons_self with
      | single h =>
        obtain ⟨x, hx⟩ := hp _ _ h hv h1
        exact ⟨_, .present hx he⟩
      | option h =>
        cases hv with
        | none => exact ⟨_, .absent ha he⟩
        | some hv =>
          obtain ⟨x, hx⟩ := hp _ _ h hv (hps _ h1)
          exact ⟨_, .present (hs _ _ hx) he⟩

omit [FloatText] in
theorem tuple_typed {t : Ty} {ts : List Ty} (h : TupleTy t ts) {v : Val} (hv : HasTy v t) :
    ∃ vs, ArgTuple v vs ∧ HasTys vs ts := by
  induction h generalizing v with
  | tuple => cases hv with | tuple h => exact ⟨_, .tuple _, h⟩
  | tupleStruct => cases hv with | tupleStruct h => exact ⟨_, .tupleStruct _, h⟩
  | newtype _ ih =>
    cases hv with
    | newtypeStruct hv =>
      obtain ⟨vs, h1, h2⟩ := ih hv
      exact ⟨vs, .newtype h1, h2⟩

omit [FloatText] in
theorem tuple_true {v : Val} {vs : List Val} (h : ArgTuple v vs) : HasTrue v ↔ ∃ w ∈ vs, HasTrue w := by
  induction h with
  | tuple =>
    exact ⟨fun h => by cases h with | tuple h1 h2 => exact ⟨_, h1, h2⟩, fun ⟨_, h1, h2⟩ => .tuple h1 h2⟩
  | tupleStruct =>
    exact ⟨fun h => by cases h with | tupleStruct h1 h2 => exact ⟨_, h1, h2⟩,
      fun ⟨_, h1, h2⟩ => .tupleStruct h1 h2⟩
  | newtype _ ih =>
    rw [← ih]
    exact ⟨fun h => by cases h with | newtypeStruct h => exact h, .newtypeStruct⟩

omit [FloatText] in
theorem tuple_nan {v : Val} {vs : List Val} (h : ArgTuple v vs) {w : Val} (hm : w ∈ vs)
    (hw : HasNaN w) : HasNaN v := by
  induction h with
  | tuple => exact .tuple hm hw
  | tupleStruct => exact .tupleStruct hm hw
  | newtype _ ih => exact .newtypeStruct (ih hm)

theorem args_sent {ts : List Ty} (h : ∀ u ∈ ts, SimpleTy u) {vs : List Val} (hv : HasTys vs ts) :
    vs.length = ts.length ∧ ∃ ss, SentAll vs ss := by
  induction ts generalizing vs with
  | nil => cases hv; exact ⟨rfl, _, .nil⟩
  | cons t ts ih =>
    cases hv with
    | cons hv hvs =>
      obtain ⟨h1, ss, h2⟩ := ih (fun u hu => h u (List.mem_cons_of_mem _ hu)) hvs
      obtain ⟨s, hs⟩ := simple_sent (h _ List.mem_cons_self) hv
      exact ⟨by simp [h1], _, .cons hs h2⟩

theorem args_plain {ts : List Ty} (h : ∀ u ∈ ts, SimpleTy u) {vs : List Val} (hv : HasTys vs ts)
    (ht : ∀ w ∈ vs, ¬ HasTrue w) (hn : ∀ w ∈ vs, ¬ HasNaN w) {ss : List Str} (hs : SentAll vs ss) :
    PlainArgs vs ss := by
  induction ts generalizing vs ss with
  | nil => cases hv; cases hs; exact .nil
  | cons t ts ih =>
    cases hv with
    | cons hv hvs =>
      cases hs with
      | cons hs hss =>
        exact .cons (simple_plain (h _ List.mem_cons_self) hv (ht _ List.mem_cons_self)
            (hn _ List.mem_cons_self) hs)
          (ih (fun u hu => h u (List.mem_cons_of_mem _ hu)) hvs
            (fun w hw => ht w (List.mem_cons_of_mem _ hw))
            (fun w hw => hn w (List.mem_cons_of_mem _ hw)) hss)

theorem args_not_true {vs : List Val} {ss : List Str} (h : PlainArgs vs ss) :
    (∀ w ∈ vs, ¬ HasTrue w) ∧ SentAll vs ss := by
  induction h with
  | nil => exact ⟨nofun, .nil⟩
  | cons h _ ih =>
    exact ⟨List.forall_mem_cons.2 ⟨plain_not_true h, ih.1⟩, .cons h.sentAs ih.2⟩

omit [FloatText] in
/-- The parts of a request of a simple type. -/
theorem parts_typed {tp tq th : Option Ty} {v : Val}
    (hv : HasTy v (.struct (requestFields tp tq th))) :
    ∃ p q h, v = .struct (requestFields p q h) ∧
      (∀ t, tp = some t → ∃ w, p = some w ∧ HasTy w t) ∧ (tp = none → p = none) ∧
      (∀ t, tq = some t → ∃ w, q = some w ∧ HasTy w t) ∧ (tq = none → q = none) ∧
      (∀ t, th = some t → ∃ w, h = some w ∧ HasTy w t) ∧ (th = none → h = none) := by
  have one : ∀ (n : Str) (t : Option Ty) (ts : List (Str × Ty)) (fs : List (Str × Val)),
      HasTyFields fs (optField n t ++ ts) → ∃ w gs, fs = optField n w ++ gs ∧ HasTyFields gs ts ∧
        (∀ u, t = some u → ∃ x, w = some x ∧ HasTy x u) ∧ (t = none → w = none) := by
    intro n t ts fs h
    cases t with
    | none => exact ⟨none, fs, rfl, h, nofun, fun _ => rfl⟩
    | some t =>
      cases h with
      | cons h hs => exact ⟨some _, _, rfl, hs, fun u hu => by cases hu; exact ⟨_, rfl, h⟩, nofun⟩
  cases hv with
  | @struct fs _ hv =>
    rw [requestFields, List.append_assoc] at hv
    obtain ⟨p, gs, rfl, hv, hp⟩ := one _ _ _ _ hv
    obtain ⟨q, gs, rfl, hv, hq⟩ := one _ _ _ _ hv
    obtain ⟨h, gs, rfl, hv, hh⟩ := one _ th [] _ (by rwa [List.append_nil])
    cases hv
    exact ⟨p, q, h, by rw [requestFields, List.append_nil, List.append_assoc], hp.1, hp.2, hq.1, hq.2,
      hh.1, hh.2⟩

omit [FloatText] in
theorem argTuple_pathArgs {v : Val} {vs : List Val} (h : ArgTuple v vs) : PathArgs v vs := by
  induction h with
  | tuple => exact .tuple _
  | tupleStruct => exact .tupleStruct _
  | newtype _ ih => exact .newtypeStruct ih

omit [FloatText] in
theorem argTuple_unique {v : Val} {vs ws : List Val} (h : ArgTuple v vs) (h' : ArgTuple v ws) :
    vs = ws := by
  induction h with
  | tuple => cases h'; rfl
  | tupleStruct => cases h'; rfl
  | newtype _ ih => cases h' with | newtype h' => exact ih h'

theorem simple_path_sent {e : EntryPoint} {p : Option Val} {tp : Option Ty}
    (h1 : ∀ t, tp = some t → ∃ ts, TupleTy t ts ∧ ts.length = e.countP (· = Seg.var) ∧
      ∀ u ∈ ts, SimpleTy u) (h2 : tp = none → Seg.var ∉ e)
    (p1 : ∀ t, tp = some t → ∃ w, p = some w ∧ HasTy w t) (p2 : tp = none → p = none) :
    ∃ path, requestPath e p = .ok path := by
  cases tp with
  | none => rw [p2 rfl, requestPath, if_neg (h2 rfl)]; exact ⟨_, rfl⟩
  | some t =>
    obtain ⟨w, rfl, hw⟩ := p1 t rfl
    obtain ⟨ts, ht, hl, hs⟩ := h1 t rfl
    obtain ⟨vs, ha, hvs⟩ := tuple_typed ht hw
    obtain ⟨hlen, ss, hss⟩ := args_sent hs hvs
    rw [requestPath]
    exact ⟨_, (C69_path e _ w).1 vs ss (argTuple_pathArgs ha) hss (by rw [hlen, hl, varCount_eq_countP])⟩

theorem simple_path_intact {e : EntryPoint} {p q h : Option Val} {tp : Option Ty}
    (h1 : ∀ t, tp = some t → ∃ ts, TupleTy t ts ∧ ts.length = e.countP (· = Seg.var) ∧
      ∀ u ∈ ts, SimpleTy u) (h2 : tp = none → Seg.var ∉ e)
    (p1 : ∀ t, tp = some t → ∃ w, p = some w ∧ HasTy w t) (p2 : tp = none → p = none)
    (hn : ∀ w, p = some w → ¬ HasNaN w) :
    (∃ ss, PathPart e p tp ss ∧ Carried (instantiate e ss)) ↔
      (∀ w, p = some w → ¬ HasTrue w) ∧ PathPasses e (.struct (requestFields p q h)) := by
  have l : (requestFields p q h).lookup "path".toList = p := by
    cases p <;> cases q <;> cases h <;> rfl
  constructor
  · rintro ⟨ss, hp, hc⟩
    cases hp with
    | absent => exact ⟨nofun, [], .none l, nofun, hc⟩
    | args ha _ hs _ h3 h4 =>
      obtain ⟨k1, k2⟩ := args_not_true hs
      refine ⟨fun w hw => ?_, ss, .args l ha k2, fun s hs => ⟨h3 s hs, h4 s hs⟩, hc⟩
      cases hw
      rw [tuple_true ha]
      rintro ⟨x, hx, hx'⟩
      exact k1 x hx hx'
  · rintro ⟨ht, ss, hss, hplain, hc⟩
    refine ⟨ss, ?_, hc⟩
    cases tp with
    | none =>
      cases p2 rfl
      cases hss with
      | none => exact .absent (h2 rfl)
      | args hl => rw [l] at hl; cases hl
    | some t =>
      obtain ⟨w, rfl, hw⟩ := p1 t rfl
      obtain ⟨ts, htt, hl, hs⟩ := h1 t rfl
      cases hss with
      | none hl => rw [l] at hl; cases hl
      | args hl' ha hss =>
        rw [l] at hl'
        cases hl'
        obtain ⟨vs, ha', hvs⟩ := tuple_typed htt hw
        obtain rfl := argTuple_unique ha ha'
        have hlen := (args_sent hs hvs).1
        refine .args ha hw (args_plain hs hvs (fun x hx hx' => ht _ rfl ((tuple_true ha).2 ⟨x, hx, hx'⟩))
          (fun x hx hx' => hn _ rfl (tuple_nan ha hx hx')) hss) (by rw [hlen, hl])
          (fun s hs => (hplain s hs).1) fun s hs => (hplain s hs).2

theorem simple_query_sent {q : Option Val} {tq : Option Ty}
    (h3 : ∀ t, tq = some t → ∃ ts, t = .struct ts ∧ DistinctNames ts ∧ ∀ f ∈ ts, SimpleField f.2)
    (q1 : ∀ t, tq = some t → ∃ w, q = some w ∧ HasTy w t) (q2 : tq = none → q = none) :
    ∃ s, requestQuery q = .ok s := by
  cases tq with
  | none => cases q2 rfl; exact ⟨_, rfl⟩
  | some t =>
    obtain ⟨w, rfl, hw⟩ := q1 t rfl
    obtain ⟨ts, rfl, -, hs⟩ := h3 t rfl
    cases hw with
    | struct hw =>
      obtain ⟨es, he⟩ := fields_written (present := SentOpt) (absent := Omitted) .none
        (P := fun _ => True) hs (fun v t h hv _ => by
          obtain ⟨s, hs⟩ := simple_sent h hv
          exact ⟨s, .sent hs⟩) (fun _ _ h => .some h) hw (fun _ _ _ => trivial) (fun _ _ => trivial)
      rw [requestQuery, serQuery_struct he]
      exact ⟨_, rfl⟩

theorem simple_query_intact {q : Option Val} {tq : Option Ty}
    (h3 : ∀ t, tq = some t → ∃ ts, t = .struct ts ∧ DistinctNames ts ∧ ∀ f ∈ ts, SimpleField f.2)
    (q1 : ∀ t, tq = some t → ∃ w, q = some w ∧ HasTy w t) (q2 : tq = none → q = none)
    (hn : ∀ w, q = some w → ¬ HasNaN w) :
    (∀ w, q = some w → QueryIntact w) ↔ ∀ w, q = some w → ¬ HasTrue w := by
  cases tq with
  | none => cases q2 rfl; exact ⟨nofun, nofun⟩
  | some t =>
    obtain ⟨w, rfl, hw⟩ := q1 t rfl
    obtain ⟨ts, rfl, -, hs⟩ := h3 t rfl
    cases hw with
    | @struct fs _ hw =>
      simp only [Option.some.injEq, forall_eq']
      constructor
      · intro h ht
        cases h with
        | struct h =>
          cases ht with
          | struct hm ht => exact entries_not_true (fun _ _ => plainOpt_not_true) h _ _ hm ht
      · intro ht
        obtain ⟨es, he⟩ := fields_written (present := PlainOpt) (absent := (· = Val.none)) rfl
          (P := fun v => ¬ HasTrue v ∧ ¬ HasNaN v) hs (fun v t h hv hp => by
            obtain ⟨s, hs⟩ := simple_sent h hv
            exact ⟨s, .plain (simple_plain h hv hp.1 hp.2 hs)⟩) (fun _ _ h => .some h) hw
          (fun n w hm => ⟨fun h => ht (.struct hm h), fun h => hn _ rfl (.struct hm h)⟩)
          (fun v h => ⟨fun k => h.1 (.some k), fun k => h.2 (.some k)⟩)
        exact .struct he

theorem simple_header_sent {h : Option Val} {th : Option Ty}
    (h4 : ∀ t, th = some t → ∃ ts, t = .struct ts ∧ DistinctNames ts ∧
      (∀ f ∈ ts, SimpleField f.2 ∧ LowerName f.1) ∧ ¬ Declared ts "content-length".toList)
    (g1 : ∀ t, th = some t → ∃ w, h = some w ∧ HasTy w t) (g2 : th = none → h = none) :
    ∃ hs, requestHeaders h = .ok hs ∧ AsciiNames hs := by
  cases th with
  | none => cases g2 rfl; exact ⟨_, rfl, nofun⟩
  | some t =>
    obtain ⟨w, rfl, hw⟩ := g1 t rfl
    obtain ⟨ts, rfl, -, hs, -⟩ := h4 t rfl
    cases hw with
    | @struct fs _ hw =>
      obtain ⟨es, he⟩ := fields_written (present := SentHeader) (absent := Omitted) .none
        (P := fun _ => True) (fun f hf => (hs f hf).1) (fun v t h hv _ => by
          obtain ⟨s, hs⟩ := simple_sent h hv
          exact ⟨_, .sent hs⟩) (fun _ _ h => .some h) hw (fun _ _ _ => trivial) (fun _ _ => trivial)
      rw [requestHeaders, serHeaders_struct he]
      refine ⟨_, rfl, ?_⟩
      intro x hx b hb
      obtain ⟨y, hy, rfl⟩ := List.mem_map.1 hx
      have hmem : ∀ {fs es}, FieldEntries SentHeader Omitted fs es → ∀ y ∈ es,
          y.1 ∈ fs.map Prod.fst := by
        intro fs es he
        induction he with
        | nil => nofun
        | absent _ _ ih => intro y hy; exact List.mem_cons_of_mem _ (ih y hy)
        | present _ _ ih =>
          intro y hy
          rcases List.mem_cons.1 hy with rfl | hy
          · exact List.mem_cons_self
          · exact List.mem_cons_of_mem _ (ih y hy)
      have hy := hmem he y hy
      rw [HasTyFields_names hw] at hy
      obtain ⟨f, hf, hfy⟩ := List.mem_map.1 hy
      exact utf8_lowerName_ascii (hs f hf).2 b (by rw [hfy]; exact hb)

theorem simple_header_intact {h : Option Val} {th : Option Ty}
    (h4 : ∀ t, th = some t → ∃ ts, t = .struct ts ∧ DistinctNames ts ∧
      (∀ f ∈ ts, SimpleField f.2 ∧ LowerName f.1) ∧ ¬ Declared ts "content-length".toList)
    (g1 : ∀ t, th = some t → ∃ w, h = some w ∧ HasTy w t) (g2 : th = none → h = none)
    (hn : ∀ w, h = some w → ¬ HasNaN w) :
    (∀ w, h = some w → HeaderIntact w) ↔ ∀ w, h = some w → ¬ HasTrue w := by
  cases th with
  | none => cases g2 rfl; exact ⟨nofun, nofun⟩
  | some t =>
    obtain ⟨w, rfl, hw⟩ := g1 t rfl
    obtain ⟨ts, rfl, -, hs, -⟩ := h4 t rfl
    cases hw with
    | @struct fs _ hw =>
      simp only [Option.some.injEq, forall_eq']
      constructor
      · intro h ht
        cases h with
        | struct h =>
          cases ht with
          | struct hm ht => exact entries_not_true (fun _ _ => plainHeader_not_true) h _ _ hm ht
      · intro ht
        obtain ⟨es, he⟩ := fields_written (present := PlainHeader) (absent := (· = Val.none)) rfl
          (P := fun v => ¬ HasTrue v ∧ ¬ HasNaN v) (fun f hf => (hs f hf).1) (fun v t h hv hp => by
            obtain ⟨s, hs⟩ := simple_sent h hv
            exact ⟨_, .plain (simple_plain h hv hp.1 hp.2 hs)⟩) (fun _ _ h => .some h) hw
          (fun n w hm => ⟨fun h => ht (.struct hm h), fun h => hn _ rfl (.struct hm h)⟩)
          (fun v h => ⟨fun k => h.1 (.some k), fun k => h.2 (.some k)⟩)
        refine .struct he fun f hf => .inl ?_
        obtain ⟨u, hu, -⟩ := HasTyFields_type hw (n := f.1) (v := f.2) hf
        exact (hs _ hu).2

omit [FloatText] in
theorem simple_requestTy {tp tq th : Option Ty}
    (h3 : ∀ t, tq = some t → ∃ ts, t = .struct ts ∧ DistinctNames ts ∧ ∀ f ∈ ts, SimpleField f.2)
    (h4 : ∀ t, th = some t → ∃ ts, t = .struct ts ∧ DistinctNames ts ∧
      (∀ f ∈ ts, SimpleField f.2 ∧ LowerName f.1) ∧ ¬ Declared ts "content-length".toList) :
    RequestTy (.struct (requestFields tp tq th)) where
  fields ts h := by
    cases h
    cases tp <;> cases tq <;> cases th <;> simp [DistinctNames, requestFields, optField]
  query ts u h hl := by
    cases h
    have : tq = some u := by
      rw [← hl]; cases tp <;> cases tq <;> cases th <;> rfl
    obtain ⟨ts, rfl, hd, -⟩ := h3 u this
    exact hd
  header ts u h hl := by
    cases h
    have : th = some u := by
      rw [← hl]; cases tp <;> cases tq <;> cases th <;> rfl
    obtain ⟨ts, rfl, hd, hs, hc⟩ := h4 u this
    have hlow : (names (.struct ts)).map lowerText = ts.map Prod.fst := by
      rw [names, List.map_map]
      exact List.map_congr_left fun f hf => lowerText_lower (hs f hf).2
    refine ⟨rfl, ?_, ?_⟩
    · rw [hlow]; exact hd
    · rw [hlow]; exact hc

omit [FloatText] in
theorem simple_wellNamedTy {t : Ty} (h : SimpleTy t) : WellNamed t := by
  induction h with
  | @scalar t h => cases t <;> trivial
  | str => trivial
  | newtype _ ih => exact ih

omit [FloatText] in
theorem simple_wellNamedAll {ts : List Ty} (h : ∀ t ∈ ts, SimpleTy t) : WellNamedAll ts := by
  induction ts with
  | nil => trivial
  | cons t ts ih =>
    exact ⟨simple_wellNamedTy (h t List.mem_cons_self), ih fun u hu => h u (List.mem_cons_of_mem _ hu)⟩

omit [FloatText] in
theorem simple_wellNamedFields {fs : List (Str × Ty)} (h : ∀ f ∈ fs, SimpleField f.2) :
    WellNamedFields fs := by
  induction fs with
  | nil => trivial
  | cons f fs ih =>
    refine ⟨?_, ih fun u hu => h u (List.mem_cons_of_mem _ hu)⟩
    cases f with
    | mk n t =>
      have := h _ List.mem_cons_self
      cases this with
      | single h' => exact simple_wellNamedTy h'
      | @option u h' =>
        show WellNamed (Ty.option u)
        rw [WellNamed]
        exact simple_wellNamedTy h'

omit [FloatText] in
theorem simple_wellNamedTuple {t : Ty} {ts : List Ty} (h : TupleTy t ts) (hs : ∀ u ∈ ts, SimpleTy u) :
    WellNamed t := by
  induction h with
  | tuple => exact simple_wellNamedAll hs
  | tupleStruct => exact simple_wellNamedAll hs
  | newtype _ ih => exact ih hs

omit [FloatText] in
theorem wellNamedFields_append {fs gs : List (Str × Ty)} (h : WellNamedFields fs)
    (h' : WellNamedFields gs) : WellNamedFields (fs ++ gs) := by
  induction fs with
  | nil => exact h'
  | cons f fs ih => exact ⟨h.1, ih h.2⟩

omit [FloatText] in
theorem wellNamedFields_opt {n : Str} {t : Option Ty} (h : ∀ u, t = some u → WellNamed u) :
    WellNamedFields (optField n t) := by
  cases t with
  | none => trivial
  | some u => exact ⟨h u rfl, trivial⟩

omit [FloatText] in
theorem simple_wellNamed {e : EntryPoint} {t : Ty} (h : SimpleRequest e t) : WellNamed t := by
  cases h with
  | @struct tp tq th h1 h2 h3 h4 =>
    refine ⟨(simple_requestTy (tp := tp) h3 h4).fields _ (.struct _), ?_⟩
    refine wellNamedFields_append (wellNamedFields_append (wellNamedFields_opt fun u hu => ?_)
      (wellNamedFields_opt fun u hu => ?_)) (wellNamedFields_opt fun u hu => ?_)
    · obtain ⟨ts, ht, -, hs⟩ := h1 u hu
      exact simple_wellNamedTuple ht hs
    · obtain ⟨ts, rfl, hd, hs⟩ := h3 u hu
      exact ⟨hd, simple_wellNamedFields hs⟩
    · obtain ⟨ts, rfl, hd, hs, -⟩ := h4 u hu
      exact ⟨hd, simple_wellNamedFields fun f hf => (hs f hf).1⟩

end

section
variable [LawfulFloatText]

/-- **C117.** Requests of simple types are always sent. They arrive at a server with the same type of
requests if and only if there is no `true` in them and the arguments of the path are in ASCII without tabs
and line breaks, making up a path that a URL can carry. -/
theorem C117_simple_arrives (o : UrlOracle) (m : Method) (e : EntryPoint) (hpc : PlainConsts e) (t : Ty)
    (hty : SimpleRequest e t) (v : Val) (hv : HasTy v t) (hn : ¬ HasNaN v) (body : Bytes) :
    ∃ r, serRequest m e v body = .ok r ∧ r.method = m ∧ r.body = body ∧ AsciiNames r.headers ∧
      ∀ hs', hs' ≠ [] → AsciiNames hs' →
        (∀ ts u, StructOf t ts → ts.lookup "header".toList = some u →
          askedFor u hs' = askedFor u r.headers) →
        ((∃ target segs, parseTarget o r.target = some target ∧ target.segs = some segs ∧
          Matches e segs ∧ deRequest e t target hs' = .ok v) ↔ ¬ HasTrue v ∧ PathPasses e v) := by
  cases hty with
  | @struct tp tq th h1 h2 h3 h4 =>
    obtain ⟨p, q, h, rfl, p1, p2, q1, q2, g1, g2⟩ := parts_typed hv
    obtain ⟨path, k1⟩ := simple_path_sent h1 (fun h => (h2 h).1) p1 p2
    obtain ⟨query, k2⟩ := simple_query_sent h3 q1 q2
    obtain ⟨own, k3, k4⟩ := simple_header_sent h4 g1 g2
    have hser : serRequest m e (.struct (requestFields p q h)) body =
        .ok { method := m
              target := joinTarget path query
              headers := own ++ [contentLength body], body } := by
      rw [C23_in_order, if_neg, requestOf, k1, k2, k3]
      · cases query <;> rfl
      · rintro ⟨rfl, hq⟩
        refine hq (q2 ?_)
        cases tp with
        | none => exact (h2 rfl).2
        | some t => obtain ⟨w, hw, -⟩ := p1 t rfl; cases hw
    have ha : AsciiNames (own ++ [contentLength body]) :=
      Spec.AsciiNames.append k4 (contentLength_ascii body)
    refine ⟨_, hser, rfl, rfl, ha, ?_⟩
    intro hs' hne hna hsame
    have hp := RequestParts.struct p q h tp tq th
    have hnn := hp.noNaN hn
    rw [C108_request o m e hpc _ _ hv (simple_requestTy h3 h4) hn body _ hser ha hs' hne hna hsame]
    simp only [hp.intact]
    have := simple_path_intact (q := q) (h := h) h1 (fun h => (h2 h).1) p1 p2 (fun w hw => hnn w (.inl hw))
    rw [simple_query_intact h3 q1 q2 (fun w hw => hnn w (.inr (.inl hw))),
      simple_header_intact h4 g1 g2 (fun w hw => hnn w (.inr (.inr hw))), exists_and_right, this]
    constructor
    · rintro ⟨⟨a, b⟩, c, d⟩
      refine ⟨?_, b⟩
      intro ht
      cases ht with
      | struct hm ht =>
        rw [requestFields, List.mem_append, List.mem_append] at hm
        rcases hm with (hm | hm) | hm
        · cases p <;> simp only [optField, List.not_mem_nil, List.mem_singleton, Prod.mk.injEq] at hm
          exact a _ rfl (hm.2 ▸ ht)
        · cases q <;> simp only [optField, List.not_mem_nil, List.mem_singleton, Prod.mk.injEq] at hm
          exact c _ rfl (hm.2 ▸ ht)
        · cases h <;> simp only [optField, List.not_mem_nil, List.mem_singleton, Prod.mk.injEq] at hm
          exact d _ rfl (hm.2 ▸ ht)
    · rintro ⟨a, b⟩
      refine ⟨⟨?_, b⟩, ?_, ?_⟩ <;> rintro w rfl hw <;>
        exact a (.struct (by simp [requestFields, optField]; first | exact .inl rfl | exact .inr (.inl rfl) | exact .inr (.inr rfl)) hw)

/-- **C117.** A gateway: whatever request a server has read, at any entry point, can be sent on, to any
entry point with as many variables. The request that arrives there is the one that was read if and only
if there is no `true` in it and its path passes. -/
theorem C117_passed_on (o : UrlOracle) (e₀ : EntryPoint) (target₀ : Target) (segs₀ : List Str)
    (hsegs : target₀.segs = some segs₀) (hm : Matches e₀ segs₀) (hs : List Header) (ha : AsciiNames hs)
    (m : Method) (e : EntryPoint) (hpc : PlainConsts e) (t : Ty) (hty : SimpleRequest e t) (v : Val)
    (hv : deRequest e₀ t target₀ hs = .ok v) (hn : ¬ HasNaN v) (body : Bytes) :
    ∃ r, serRequest m e v body = .ok r ∧ r.method = m ∧ r.body = body ∧
      ∀ hs', hs' ≠ [] → AsciiNames hs' →
        (∀ ts u, StructOf t ts → ts.lookup "header".toList = some u →
          askedFor u hs' = askedFor u r.headers) →
        ((∃ target segs, parseTarget o r.target = some target ∧ target.segs = some segs ∧
          Matches e segs ∧ deRequest e t target hs' = .ok v) ↔ ¬ HasTrue v ∧ PathPasses e v) := by
  obtain ⟨r, h1, h2, h3, -, h4⟩ := C117_simple_arrives o m e hpc t hty v
    (C117_request_typed e₀ t (simple_wellNamed hty) target₀ segs₀ hsegs hm hs ha v hv) hn body
  exact ⟨r, h1, h2, h3, h4⟩

end

/-! ### Examples -/

namespace PassOnExamples

def exTy : Ty := .struct (requestFields (some (.tuple [.str])) (some (.struct [("all".toList, .bool)])) none)

def exVal (s : Str) (b : Bool) : Val :=
  .struct (requestFields (some (.tuple [.str s])) (some (.struct [("all".toList, .bool b)])) none)

theorem exTy_simple : SimpleRequest exReqEntry exTy := by
  refine .struct ?_ nofun ?_ nofun
  · rintro _ ⟨⟩
    exact ⟨_, .tuple _, rfl, by rintro _ (_ | ⟨_, ⟨⟩⟩); exact .str⟩
  · rintro _ ⟨⟩
    exact ⟨_, rfl, List.nodup_singleton _, by rintro _ (_ | ⟨_, ⟨⟩⟩); exact .single (.scalar rfl)⟩

theorem exVal_typed (s : Str) (b : Bool) : HasTy (exVal s b) exTy :=
  .struct (.cons (.tuple (.cons (.str _) .nil)) (.cons (.struct (.cons (.bool _) .nil)) .nil))

theorem exVal_true (s : Str) (b : Bool) : HasTrue (exVal s b) ↔ b = true := by
  constructor
  · intro h
    cases h with
    | struct hm h =>
      rcases hm with _ | ⟨_, _ | ⟨_, ⟨⟩⟩⟩
      · cases h with
        | tuple hm h => rcases hm with _ | ⟨_, ⟨⟩⟩; cases h
      · cases h with
        | struct hm h => rcases hm with _ | ⟨_, ⟨⟩⟩; cases h; rfl
  · rintro rfl
    exact .struct (.tail _ (.head _)) (.struct (.head _) .true)

theorem exVal_passes [FloatText] (s : Str) (b : Bool) :
    PathPasses exReqEntry (exVal s b) ↔ Ascii s ∧ NoTabNl s ∧ ¬ Dots s := by
  constructor
  · rintro ⟨ss, h, hp, hc⟩
    cases h with
    | none h => cases h
    | args h ha hs =>
      cases h
      cases ha
      cases hs with
      | cons h1 h2 =>
        cases h1
        cases h2
        exact ⟨(hp s List.mem_cons_self).1, (hp s List.mem_cons_self).2,
          hc.2.1 s (by simp [exReqEntry, instantiate])⟩
  · rintro ⟨h1, h2, h3⟩
    refine ⟨[s], .args rfl (.tuple _) (.cons (.str s) .nil),
      fun x hx => List.mem_singleton.1 hx ▸ ⟨h1, h2⟩,
      by simp [exReqEntry, instantiate], ?_, .inr ⟨"users".toList, rfl, by decide⟩⟩
    intro x hx
    rcases List.mem_cons.1 hx with rfl | hx
    · decide
    · rw [List.mem_singleton.1 hx]; exact h3

theorem exVal_noNaN (s : Str) (b : Bool) : ¬ HasNaN (exVal s b) := by
  intro h
  cases h with
  | here h => cases h
  | struct hm h =>
    rcases hm with _ | ⟨_, _ | ⟨_, ⟨⟩⟩⟩
    · cases h with
      | here h => cases h
      | tuple hm h =>
        rcases hm with _ | ⟨_, ⟨⟩⟩
        cases h with
        | here h => cases h
    · cases h with
      | here h => cases h
      | struct hm h =>
        rcases hm with _ | ⟨_, ⟨⟩⟩
        cases h with
        | here h => cases h

/-- `C117_simple_arrives`: of the requests with one text and one flag, exactly those arrive whose flag is
`false` and whose text is in ASCII without tabs and line breaks, and neither `.` nor `..`. -/
example (o : UrlOracle) (m : Method) (s : Str) (b : Bool) (body : Bytes) : letI := toyFloat
    ∃ r, serRequest m exReqEntry (exVal s b) body = .ok r ∧
      ((∃ target segs, parseTarget o r.target = some target ∧ target.segs = some segs ∧
        Matches exReqEntry segs ∧
        deRequest exReqEntry exTy target [(utf8 "Host".toList, [])] = .ok (exVal s b)) ↔
        b = false ∧ Ascii s ∧ NoTabNl s ∧ ¬ Dots s) := by
  let := toyFloat
  obtain ⟨r, h, -, -, -, h'⟩ := C117_simple_arrives o m exReqEntry exReq_consts exTy exTy_simple _
    (exVal_typed s b) (exVal_noNaN s b) body
  refine ⟨r, h, (h' [(utf8 "Host".toList, [])] (by simp) (by unfold AsciiNames; decide) ?_).trans ?_⟩
  · intro ts u h hl
    cases h
    cases hl
  · rw [exVal_true, exVal_passes, Bool.not_eq_true]

/-- `C117_passed_on`: the server reads `/users/%C3%A9?all=true`, and what it sends on does not arrive. -/
example (o : UrlOracle) (m : Method) (body : Bytes) : letI := toyFloat
    ∃ v r, deRequest exReqEntry exTy
        { segs := some ["users".toList, "é".toList], query := some "all=true".toList }
        [(utf8 "Host".toList, [])] = .ok v ∧
      serRequest m exReqEntry v body = .ok r ∧
      ¬ ∃ target segs, parseTarget o r.target = some target ∧ target.segs = some segs ∧
        Matches exReqEntry segs ∧ deRequest exReqEntry exTy target [(utf8 "Host".toList, [])] = .ok v := by
  let := toyFloat
  have hv : deRequest exReqEntry exTy
      { segs := some ["users".toList, "é".toList], query := some "all=true".toList }
        [(utf8 "Host".toList, [])] =
      .ok (exVal "é".toList true) := by
    refine (C82_request_iff exReqEntry exTy (simple_wellNamed exTy_simple)
      (by simp [exTy, requestFields, optField, Mapless, MaplessFields, MaplessAll])
      ⟨some ["users".toList, "é".toList], some "all=true".toList⟩ _ rfl
      (.cons rfl (.cons trivial .nil)) _ (by unfold AsciiNames; decide) _).2 ?_
    have hp : formParse ((some "all=true".toList).getD []) = [("all".toList, "true".toList)] := by decide
    refine .struct (.inr (List.cons_ne_nil _ _)) (.cons (.path ?_) (.cons (.query (.struct ?_)) .nil))
    · rfl
    · rw [hp]
      simp [row, effective, Declared, readStruct, collectFields, fieldValue, readText]
      rfl
  obtain ⟨r, h, -, -, h'⟩ := C117_passed_on o exReqEntry _ _ rfl
    (.cons rfl (.cons trivial .nil)) _ (by unfold AsciiNames; decide) m exReqEntry exReq_consts exTy exTy_simple _ hv
    (exVal_noNaN _ _) body
  refine ⟨_, r, hv, h, ?_⟩
  rw [h' [(utf8 "Host".toList, [])] (by simp) (by unfold AsciiNames; decide)
    (by intro ts u h hl; cases h; cases hl), exVal_true]
  simp

end PassOnExamples

end Htrpc
