/-
Different calls of a procedure are different on the wire (C113).
-/
import Verif.Props.SentTarget
import Verif.Props.ExactRequest
import Verif.Props.ExactResponse
import Verif.Spec.Told

namespace Htrpc
open Spec Http

/-! ### Single values -/

section
variable [FloatText]

theorem sentHeader_newtype {v : Val} {b : Bytes} (h : SentHeader (.newtypeStruct v) b) :
    SentHeader v b := by
  cases h with
  | sent h => cases h with | newtypeStruct h => exact .sent h
  | newtypeStruct h => exact h

theorem sentHeader_some {v : Val} {b : Bytes} (h : SentHeader (.some v) b) : SentHeader v b := by
  cases h with
  | sent h => cases h
  | some h => exact h

theorem sentHeader_none {b : Bytes} (h : SentHeader .none b) : False := by
  cases h with | sent h => cases h

theorem entries_not_single {t : Ty} (h : ToldEntries t) {v : Val} (ht : HasTy v t) {b : Bytes} :
    ¬ SentHeader v b := by
  induction h generalizing v with
  | newtypeStruct _ ih =>
    cases ht with | newtypeStruct ht => exact fun h => ih ht (sentHeader_newtype h)
  | struct => cases ht; intro h; cases h with | sent h => cases h
  | map => cases ht; intro h; cases h with | sent h => cases h

theorem sentHeader_of_opt {v : Val} {s : Str} (h : SentOpt v s) : SentHeader v (utf8 s) := by
  induction h with
  | sent h => exact .sent h
  | some _ ih => exact .some ih
  | newtypeStruct _ ih => exact .newtypeStruct ih
  | newtypeVariant _ ih => exact .newtypeVariant ih

omit [FloatText] in
theorem told_not_omitted {t : Ty} (h : ToldText t) {v : Val} (ht : HasTy v t) : ¬ Omitted v := by
  induction h generalizing v with
  | newtypeStruct _ ih =>
    cases ht with
    | newtypeStruct ht => intro h; cases h with | newtypeStruct h => exact ih ht h
  | enum hu =>
    cases ht with
    | newtypeVariant hm _ => cases hu _ hm
    | _ => nofun
  | _ => cases ht; nofun
end

section
variable [LawfulFloatText]

omit [LawfulFloatText] in
theorem showInt_told {t : IntTy} {i j : Int} (hi : t.fits i = true) (hj : t.fits j = true)
    (h : showInt i = showInt j) : i = j := by
  have h1 := parseInt_showInt hi
  rw [h, parseInt_showInt hj] at h1
  exact (Option.some.inj h1).symm

theorem told_text {t : Ty} (h : ToldText t) {v v' : Val} (ht : HasTy v t) (ht' : HasTy v' t)
    (hn : ¬ HasNaN v) (hn' : ¬ HasNaN v') {b : Bytes} (hs : SentHeader v b) (hs' : SentHeader v' b) :
    v = v' := by
  induction h generalizing v v' with
  | newtypeStruct _ ih =>
    cases ht with | newtypeStruct ht =>
    cases ht' with | newtypeStruct ht' =>
    rw [ih ht ht' (fun h => hn (.newtypeStruct h)) (fun h => hn' (.newtypeStruct h))
      (sentHeader_newtype hs) (sentHeader_newtype hs')]
  | enum hu =>
    cases ht with
    | unitVariant hm =>
      cases ht' with
      | unitVariant hm' =>
        cases hs with | sent hs =>
        cases hs
        generalize hb : utf8 _ = b at hs'
        cases hs' with | sent hs' =>
        cases hs'
        rw [utf8_injective hb]
      | newtypeVariant hm _ => cases hu _ hm
      | tupleVariant hm _ => cases hu _ hm
      | structVariant hm _ => cases hu _ hm
    | newtypeVariant hm _ => cases hu _ hm
    | tupleVariant hm _ => cases hu _ hm
    | structVariant hm _ => cases hu _ hm
  | unitStruct => cases ht; cases ht'; rfl
  | bytes =>
    cases ht; cases ht'
    cases hs with
    | sent hs => cases hs
    | bytes =>
      cases hs' with
      | sent hs => cases hs
      | bytes => rfl
  | bool =>
    cases ht with | bool x =>
    cases ht' with | bool y =>
    cases hs with | sent hs =>
    cases hs
    generalize hb : utf8 _ = b at hs'
    cases hs' with | sent hs' =>
    cases hs'
    have := utf8_injective hb
    cases x <;> cases y <;> first | rfl | simp at this
  | int t =>
    cases ht with | int _ x hx =>
    cases ht' with | int _ y hy =>
    cases hs with | sent hs =>
    cases hs
    generalize hb : utf8 _ = b at hs'
    cases hs' with | sent hs' =>
    cases hs'
    rw [showInt_told hx hy (utf8_injective hb)]
  | f32 =>
    cases ht with | f32 x =>
    cases ht' with | f32 y =>
    cases hs with | sent hs =>
    cases hs
    generalize hb : utf8 _ = b at hs'
    cases hs' with | sent hs' =>
    cases hs'
    have h1 := LawfulFloatText.parse32_show64 x (by
      by_contra hc; exact hn (.here (.f32 (by simpa using hc))))
    have h2 := LawfulFloatText.parse32_show64 y (by
      by_contra hc; exact hn' (.here (.f32 (by simpa using hc))))
    rw [utf8_injective hb, h2] at h1
    rw [Option.some.inj h1]
  | f64 =>
    cases ht with | f64 x =>
    cases ht' with | f64 y =>
    cases hs with | sent hs =>
    cases hs
    generalize hb : utf8 _ = b at hs'
    cases hs' with | sent hs' =>
    cases hs'
    have h1 := LawfulFloatText.parse64_show64 x (by
      by_contra hc; exact hn (.here (.f64 (by simpa using hc))))
    have h2 := LawfulFloatText.parse64_show64 y (by
      by_contra hc; exact hn' (.here (.f64 (by simpa using hc))))
    rw [utf8_injective hb, h2] at h1
    rw [Option.some.inj h1]
  | char =>
    cases ht; cases ht'
    cases hs with | sent hs =>
    cases hs
    generalize hb : utf8 _ = b at hs'
    cases hs' with | sent hs' =>
    cases hs'
    have := utf8_injective hb
    cases this
    rfl
  | str =>
    cases ht; cases ht'
    cases hs with | sent hs =>
    cases hs
    generalize hb : utf8 _ = b at hs'
    cases hs' with | sent hs' =>
    cases hs'
    rw [utf8_injective hb]

/-! ### Fields -/

theorem told_field {t : Ty} (h : ToldField t) {v v' : Val} (ht : HasTy v t) (ht' : HasTy v' t)
    (hn : ¬ HasNaN v) (hn' : ¬ HasNaN v') :
    (∀ b, SentHeader v b → SentHeader v' b → v = v') ∧ (Omitted v → Omitted v' → v = v') := by
  induction h generalizing v v' with
  | told h =>
    exact ⟨fun b hs hs' => told_text h ht ht' hn hn' hs hs',
      fun ho => absurd ho (told_not_omitted h ht)⟩
  | option h =>
    cases ht with
    | none =>
      refine ⟨fun b hs => (sentHeader_none hs).elim, fun _ ho => ?_⟩
      cases ht' with
      | none => rfl
      | some ht' => cases ho with | some ho => exact absurd ho (told_not_omitted h ht')
    | some ht =>
      refine ⟨fun b hs hs' => ?_, fun ho => (by
        cases ho with | some ho => exact absurd ho (told_not_omitted h ht))⟩
      cases ht' with
      | none => exact (sentHeader_none hs').elim
      | some ht' =>
        rw [told_text h ht ht' (fun h => hn (.some h)) (fun h => hn' (.some h)) (sentHeader_some hs)
          (sentHeader_some hs')]
  | newtypeStruct _ ih =>
    cases ht with | newtypeStruct ht =>
    cases ht' with | newtypeStruct ht' =>
    obtain ⟨h1, h2⟩ := ih ht ht' (fun h => hn (.newtypeStruct h)) (fun h => hn' (.newtypeStruct h))
    refine ⟨fun b hs hs' => by rw [h1 b (sentHeader_newtype hs) (sentHeader_newtype hs')],
      fun ho ho' => ?_⟩
    cases ho with | newtypeStruct ho =>
    cases ho' with | newtypeStruct ho' =>
    rw [h2 ho ho']

omit [LawfulFloatText] in
theorem entries_named {β : Type} {present : Val → β → Prop} {fs : List (Str × Val)}
    {es : List (Str × β)} (h : FieldEntries present Omitted fs es) : ∀ e ∈ es, e.1 ∈ fs.map Prod.fst := by
  induction h with
  | nil => simp
  | absent _ _ ih => exact fun e he => List.mem_cons_of_mem _ (ih e he)
  | present _ _ ih =>
    intro e he
    rcases List.mem_cons.1 he with rfl | he
    · exact List.mem_cons_self
    · exact List.mem_cons_of_mem _ (ih e he)

theorem told_fields {β : Type} {present : Val → β → Prop}
    (hb : ∀ v v' x, present v x → present v' x → ∃ b, SentHeader v b ∧ SentHeader v' b)
    {ts : List (Str × Ty)} (hd : DistinctNames ts) (htold : ∀ x ∈ ts, ToldField x.2)
    {fs fs' : List (Str × Val)} (ht : HasTyFields fs ts) (ht' : HasTyFields fs' ts)
    (hn : ∀ x ∈ fs, ¬ HasNaN x.2) (hn' : ∀ x ∈ fs', ¬ HasNaN x.2) {es : List (Str × β)}
    (h : FieldEntries present Omitted fs es) (h' : FieldEntries present Omitted fs' es) : fs = fs' := by
  induction ts generalizing fs fs' es with
  | nil => cases ht; cases ht'; rfl
  | cons x ts ih =>
    cases ht with | @cons n v t fs _ htv ht =>
    cases ht' with | @cons _ v' _ fs' _ htv' ht' =>
    have hnot : n ∉ ts.map Prod.fst := by
      rw [DistinctNames, List.map_cons, List.nodup_cons] at hd; exact hd.1
    have hd' : DistinctNames ts := by
      rw [DistinctNames, List.map_cons, List.nodup_cons] at hd; exact hd.2
    obtain ⟨k1, k2⟩ := told_field (htold _ List.mem_cons_self) htv htv' (hn _ List.mem_cons_self)
      (hn' _ List.mem_cons_self)
    have rest : ∀ es, FieldEntries present Omitted fs es → FieldEntries present Omitted fs' es →
        fs = fs' := fun es h h' => ih hd' (fun x hx => htold x (List.mem_cons_of_mem _ hx)) ht ht'
      (fun x hx => hn x (List.mem_cons_of_mem _ hx)) (fun x hx => hn' x (List.mem_cons_of_mem _ hx)) h h'
    cases h with
    | absent ho h =>
      cases h' with
      | absent ho' h' => rw [k2 ho ho', rest _ h h']
      | present hp h' =>
        have := entries_named h _ List.mem_cons_self
        rw [HasTyFields_names ht] at this
        exact absurd this hnot
    | present hp h =>
      cases h' with
      | absent ho' h' =>
        have := entries_named h' _ List.mem_cons_self
        rw [HasTyFields_names ht'] at this
        exact absurd this hnot
      | present hp' h' =>
        obtain ⟨b, hb1, hb2⟩ := hb _ _ _ hp hp'
        rw [k1 b hb1 hb2, rest _ h h']

theorem told_map {β : Type} {sent : Val → β → Prop}
    (hb : ∀ v v' x, sent v x → sent v' x → ∃ b, SentHeader v b ∧ SentHeader v' b)
    {k t : Ty} (hk : ToldText k) (hv : ToldText t) {kvs kvs' : List (Val × Val)}
    (ht : HasTyMap kvs k t) (ht' : HasTyMap kvs' k t)
    (hn : ∀ x ∈ kvs, ¬ HasNaN x.1 ∧ ¬ HasNaN x.2) (hn' : ∀ x ∈ kvs', ¬ HasNaN x.1 ∧ ¬ HasNaN x.2)
    {es : List (β × β)} (h : MapEntries sent kvs es) (h' : MapEntries sent kvs' es) : kvs = kvs' := by
  induction h generalizing kvs' with
  | nil =>
    cases h' with
    | nil => rfl
    | absent _ ho _ => cases ht' with | cons _ hb _ => exact absurd ho (told_not_omitted hv hb)
  | absent _ ho _ => cases ht with | cons _ hb _ => exact absurd ho (told_not_omitted hv hb)
  | present h1 h2 _ ih =>
    cases ht with | cons ha hc ht =>
    cases h' with
    | absent _ ho _ => cases ht' with | cons _ hb _ => exact absurd ho (told_not_omitted hv hb)
    | present h1' h2' h' =>
      cases ht' with | cons ha' hc' ht' =>
      obtain ⟨b, b1, b2⟩ := hb _ _ _ h1 h1'
      obtain ⟨c, c1, c2⟩ := hb _ _ _ h2 h2'
      obtain ⟨n1, n2⟩ := hn _ List.mem_cons_self
      obtain ⟨n1', n2'⟩ := hn' _ List.mem_cons_self
      rw [told_text hk ha ha' n1 n1' b1 b2, told_text hv hc hc' n2 n2' c1 c2,
        ih ht ht' (fun x hx => hn x (List.mem_cons_of_mem _ hx))
          (fun x hx => hn' x (List.mem_cons_of_mem _ hx)) h']

theorem told_entries {β : Type} {sent : Val → β → Prop} {name : Str → β}
    (hb : ∀ v v' x, sent v x → sent v' x → ∃ b, SentHeader v b ∧ SentHeader v' b)
    (hs : ∀ v x, sent v x → ∃ b, SentHeader v b)
    (hname : ∀ m n, name m = name n → m = n)
    {t : Ty} (h : ToldEntries t) {v v' : Val} (ht : HasTy v t) (ht' : HasTy v' t)
    (hn : ¬ HasNaN v) (hn' : ¬ HasNaN v') {es : List (β × β)} (hw : Written sent name v es)
    (hw' : Written sent name v' es) : v = v' := by
  induction h generalizing v v' with
  | @newtypeStruct t h ih =>
    have inner : ∀ {v}, HasTy v t → Written sent name (.newtypeStruct v) es → Written sent name v es := by
      intro v hv hw
      cases hw with
      | single hx =>
        obtain ⟨b, hb⟩ := hs _ _ hx
        exact absurd (sentHeader_newtype hb) (entries_not_single h hv)
      | newtypeStruct h => exact h
    cases ht with | newtypeStruct ht =>
    cases ht' with | newtypeStruct ht' =>
    rw [ih ht ht' (fun h => hn (.newtypeStruct h)) (fun h => hn' (.newtypeStruct h))
      (inner ht hw) (inner ht' hw')]
  | @struct ts hd hf =>
    cases ht with | @struct fs _ ht =>
    cases ht' with | @struct fs' _ ht' =>
    have hnames : ∀ {fs : List (Str × Val)}, Written sent name (.struct fs) es →
        ∃ xs, es = xs.map (fun e => (name e.1, e.2)) ∧ FieldEntries sent Omitted fs xs := by
      intro fs hw
      cases hw with
      | single h =>
        obtain ⟨b, hb⟩ := hs _ _ h
        cases hb with | sent hb => cases hb
      | struct h => exact ⟨_, rfl, h⟩
    obtain ⟨xs, he, h1⟩ := hnames hw
    obtain ⟨xs', he', h2⟩ := hnames hw'
    have hx : xs = xs' := by
      refine List.map_injective_iff.2 ?_ (he.symm.trans he')
      rintro ⟨a, b⟩ ⟨c, d⟩ h
      simp only [Prod.mk.injEq] at h
      rw [hname _ _ h.1, h.2]
    rw [told_fields hb hd hf ht ht' (fun x hx h => hn (.struct (n := x.1) hx h))
      (fun x hx h => hn' (.struct (n := x.1) hx h)) h1 (hx ▸ h2)]
  | @map k t hk hv =>
    cases ht with | @map kvs _ _ ht =>
    cases ht' with | @map kvs' _ _ ht' =>
    have hm : ∀ {kvs : List (Val × Val)}, Written sent name (.map kvs) es → MapEntries sent kvs es := by
      intro fs hw
      cases hw with
      | single h =>
        obtain ⟨b, hb⟩ := hs _ _ h
        cases hb with | sent hb => cases hb
      | map h => exact h
    rw [told_map hb hk hv ht ht' (fun x hx => ⟨fun h => hn (.key (w := x.2) hx h),
        fun h => hn (.value (k := x.1) hx h)⟩)
      (fun x hx => ⟨fun h => hn' (.key (w := x.2) hx h), fun h => hn' (.value (k := x.1) hx h)⟩)
      (hm hw) (hm hw')]

/-! ### Paths -/

theorem told_args {ts : List Ty} (h : ∀ t ∈ ts, ToldText t) {vs vs' : List Val} (ht : HasTys vs ts)
    (ht' : HasTys vs' ts) (hn : ∀ v ∈ vs, ¬ HasNaN v) (hn' : ∀ v ∈ vs', ¬ HasNaN v) {ss : List Str}
    (hs : SentAll vs ss) (hs' : SentAll vs' ss) : vs = vs' := by
  induction hs generalizing vs' ts with
  | nil => cases hs'; rfl
  | cons h1 _ ih =>
    cases hs' with | cons h1' hs' =>
    cases ht with | cons hv ht =>
    cases ht' with | cons hv' ht' =>
    rw [told_text (h _ List.mem_cons_self) hv hv' (hn _ List.mem_cons_self) (hn' _ List.mem_cons_self)
      (.sent h1) (.sent h1'), ih (fun t ht => h t (List.mem_cons_of_mem _ ht)) ht ht'
      (fun v hv => hn v (List.mem_cons_of_mem _ hv)) (fun v hv => hn' v (List.mem_cons_of_mem _ hv)) hs']

theorem told_path {t : Ty} (h : ToldPath t) {v v' : Val} (ht : HasTy v t) (ht' : HasTy v' t)
    (hn : ¬ HasNaN v) (hn' : ¬ HasNaN v') {vs vs' : List Val} (hp : PathArgs v vs)
    (hp' : PathArgs v' vs') {ss : List Str} (hs : SentAll vs ss) (hs' : SentAll vs' ss) : v = v' := by
  induction h generalizing v v' with
  | unit => cases ht; cases ht'; rfl
  | unitStruct => cases ht; cases ht'; rfl
  | tuple h =>
    cases ht with | tuple ht =>
    cases ht' with | tuple ht' =>
    cases hp; cases hp'
    rw [told_args h ht ht' (fun v hv h => hn (.tuple hv h)) (fun v hv h => hn' (.tuple hv h)) hs hs']
  | tupleStruct h =>
    cases ht with | tupleStruct ht =>
    cases ht' with | tupleStruct ht' =>
    cases hp; cases hp'
    rw [told_args h ht ht' (fun v hv h => hn (.tupleStruct hv h))
      (fun v hv h => hn' (.tupleStruct hv h)) hs hs']
  | newtypeStruct _ ih =>
    cases ht with | newtypeStruct ht =>
    cases ht' with | newtypeStruct ht' =>
    cases hp with | newtypeStruct hp =>
    cases hp' with | newtypeStruct hp' =>
    rw [ih ht ht' (fun h => hn (.newtypeStruct h)) (fun h => hn' (.newtypeStruct h)) hp hp']

omit [LawfulFloatText] in
theorem asSegment_told {s s' : Str} (h : asSegment s = asSegment s') : strip s = strip s' := by
  rw [← encode_written, ← encode_written] at h
  exact encodeSegment_injective h

omit [LawfulFloatText] in
theorem instantiate_told (e : EntryPoint) {ss ss' : List Str} (hl : ss.length = varCount e)
    (hl' : ss'.length = varCount e)
    (h : (instantiate e ss).map asSegment = (instantiate e ss').map asSegment) :
    ss.map strip = ss'.map strip := by
  induction e generalizing ss ss' with
  | nil =>
    rw [List.eq_nil_of_length_eq_zero hl, List.eq_nil_of_length_eq_zero hl']
  | cons x e ih =>
    cases x with
    | val c =>
      simp only [instantiate, List.map_cons, List.cons.injEq] at h
      exact ih hl hl' h.2
    | var =>
      have hv : varCount (Seg.var :: e) = varCount e + 1 := by simp [varCount]
      cases ss with
      | nil => rw [hv] at hl; cases hl
      | cons a ss =>
      cases ss' with
      | nil => rw [hv] at hl'; cases hl'
      | cons b ss' =>
      simp only [instantiate, List.map_cons, List.cons.injEq] at h
      rw [List.map_cons, List.map_cons, asSegment_told h.1,
        ih (by rw [hv] at hl; simpa using hl) (by rw [hv] at hl'; simpa using hl') h.2]

omit [LawfulFloatText] in
theorem sentAll_length [FloatText] {vs : List Val} {ss : List Str} (h : SentAll vs ss) :
    ss.length = vs.length := by
  induction h with
  | nil => rfl
  | cons _ _ ih => simp [ih]

/-! ### Requests -/

omit [LawfulFloatText] in
theorem length_told {hs hs' : List Header} {n k : Bytes} {a b : Bytes}
    (h : hs ++ [(n, utf8 (showNat a.length))] = hs' ++ [(k, utf8 (showNat b.length))]) :
    a.length = b.length := by
  have h1 := (List.append_inj' h rfl).2
  simp only [List.cons.injEq, Prod.mk.injEq, and_true] at h1
  have h2 := parseDigits_showNat a.length
  rw [utf8_injective h1.2, parseDigits_showNat] at h2
  exact (Option.some.inj h2).symm

/-- Requests whose parts cannot be confused are not confused. -/
theorem told_parts {m m' : Method} {e : EntryPoint} {ts : List (Str × Ty)} (hd : DistinctNames ts)
    (hp : ∀ t, ts.lookup "path".toList = some t → ToldPath t)
    (hq : ∀ t, ts.lookup "query".toList = some t → ToldEntries t)
    (hh : ∀ t, ts.lookup "header".toList = some t → ToldEntries t) {fs fs' : List (Str × Val)}
    (ht : HasTyFields fs ts) (ht' : HasTyFields fs' ts) (hn : ¬ HasNaN (.struct fs))
    (hn' : ¬ HasNaN (.struct fs')) (hf : PathFits e (.struct fs)) (hf' : PathFits e (.struct fs'))
    {body body' : Bytes} {r r' : Request} (hr : serRequest m e (.struct fs) body = .ok r)
    (hr' : serRequest m' e (.struct fs') body' = .ok r') (htg : r.target = r'.target)
    (hhd : r.headers = r'.headers) : fs = fs' := by
  have hd1 : DistinctNames fs := by rw [DistinctNames, HasTyFields_names ht]; exact hd
  have hd2 : DistinctNames fs' := by rw [DistinctNames, HasTyFields_names ht']; exact hd
  obtain ⟨texts, ps, segs, k1, k2, k3, k4, -⟩ := C94_sent_target m e fs hd1 body r hr
  obtain ⟨texts', ps', segs', k1', k2', k3', k4', -⟩ := C94_sent_target m' e fs' hd2 body' r' hr'
  rw [← htg] at k3'
  obtain ⟨rfl, rfl⟩ := C94_unique _ _ _ _ _ k3 k3'
  obtain ⟨p, q, h, rfl, -, j1⟩ := C23_only_in_order m e fs hd1 body r hr
  obtain ⟨p', q', h', rfl, -, j2⟩ := C23_only_in_order m' e fs' hd2 body' r' hr'
  have l1 : ∀ {α : Type} (p q h : Option α), (requestFields p q h).lookup "path".toList = p := by
    intro α p q h; cases p <;> cases q <;> cases h <;> rfl
  have l2 : ∀ {α : Type} (p q h : Option α), (requestFields p q h).lookup "query".toList = q := by
    intro α p q h; cases p <;> cases q <;> cases h <;> rfl
  have l3 : ∀ {α : Type} (p q h : Option α), (requestFields p q h).lookup "header".toList = h := by
    intro α p q h; cases p <;> cases q <;> cases h <;> rfl
  obtain ⟨tp, tq, th, rfl, t1, t2, t3⟩ := requestFields_typed ht
  obtain ⟨tp', tq', th', he, t1', t2', t3'⟩ := requestFields_typed ht'
  obtain ⟨rfl, rfl, rfl⟩ := requestFields_inj he
  rw [l1] at k1 k1' hp
  rw [l2] at k2 k2' hq
  rw [l3] at hh
  have n1 := (RequestParts.struct p q h tp tq th).noNaN hn
  have n2 := (RequestParts.struct p' q' h' tp tq th).noNaN hn'
  have e1 : p = p' := by
    rcases t1 with ⟨rfl, rfl⟩ | ⟨v, t, rfl, rfl, hv⟩
    · rcases t1' with ⟨rfl, -⟩ | ⟨_, _, _, h, _⟩
      · rfl
      · cases h
    · rcases t1' with ⟨-, h⟩ | ⟨v', t', rfl, h, hv'⟩
      · cases h
      · cases h
        cases k1 with | args a1 a2 a3 =>
        cases k1' with | args b1 b2 b3 =>
        obtain ⟨c1, c2⟩ := hf v _ _ (.struct (l1 _ _ _)) a1 a2
        obtain ⟨d1, d2⟩ := hf' v' _ _ (.struct (l1 _ _ _)) b1 b2
        have hss := instantiate_told e (by rw [sentAll_length a2, a3]) (by rw [sentAll_length b2, b3])
          ((k4.2 c1).symm.trans (k4'.2 d1))
        rw [List.map_congr_left c2, List.map_congr_left d2, List.map_id', List.map_id'] at hss
        rw [told_path (hp t rfl) hv hv' (n1 v (.inl rfl)) (n2 v' (.inl rfl)) a1 b1 a2 (hss ▸ b2)]
  have e2 : q = q' := by
    rcases t2 with ⟨rfl, rfl⟩ | ⟨v, t, rfl, rfl, hv⟩
    · rcases t2' with ⟨rfl, -⟩ | ⟨_, _, _, h, _⟩
      · rfl
      · cases h
    · rcases t2' with ⟨-, h⟩ | ⟨v', t', rfl, h, hv'⟩
      · cases h
      · cases h
        cases k2 with | some a =>
        cases k2' with | some b =>
        rw [told_entries (sent := SentOpt) (name := id)
          (fun v v' x h h' => ⟨_, sentHeader_of_opt h, sentHeader_of_opt h'⟩)
          (fun v x h => ⟨_, sentHeader_of_opt h⟩) (fun _ _ h => h) (hq t rfl) hv hv'
          (n1 v (.inr (.inl rfl))) (n2 v' (.inr (.inl rfl))) a b]
  have e3 : h = h' := by
    rcases t3 with ⟨rfl, rfl⟩ | ⟨v, t, rfl, rfl, hv⟩
    · rcases t3' with ⟨rfl, -⟩ | ⟨_, _, _, h, _⟩
      · rfl
      · cases h
    · rcases t3' with ⟨-, h⟩ | ⟨v', t', rfl, h, hv'⟩
      · cases h
      · cases h
        rw [requestOf] at j1 j2
        obtain ⟨_, -, j1⟩ := Res.bind_ok_eq j1
        obtain ⟨_, -, j1⟩ := Res.bind_ok_eq j1
        obtain ⟨own, o1, j1⟩ := Res.bind_ok_eq j1
        obtain ⟨_, -, j2⟩ := Res.bind_ok_eq j2
        obtain ⟨_, -, j2⟩ := Res.bind_ok_eq j2
        obtain ⟨own', o2, j2⟩ := Res.bind_ok_eq j2
        cases j1
        cases j2
        have ho := (List.append_inj' hhd rfl).1
        obtain ⟨x, x1, x2⟩ := serHeaders_written o1
        obtain ⟨y, y1, y2⟩ := serHeaders_written o2
        rw [List.nil_append] at x1 y1
        rw [← x1] at x2
        rw [← y1, ← ho] at y2
        rw [told_entries (sent := SentHeader) (name := utf8) (fun v v' x h h' => ⟨_, h, h'⟩)
          (fun v x h => ⟨_, h⟩) (fun _ _ h => utf8_injective h) (hh t rfl) hv hv'
          (n1 v (.inr (.inr rfl))) (n2 v' (.inr (.inr rfl))) x2 y2]
  rw [e1, e2, e3]

/-- **C113.** Let two requests without NaN be sent to the same entry point, of a type whose values have
different texts, and let a URL be able to carry their paths. If they have the same target and the same
headers, they are the same request. -/
theorem C113_requests (m m' : Method) (e : EntryPoint) (t : Ty) (hty : ToldRequest t) (v v' : Val)
    (ht : HasTy v t) (ht' : HasTy v' t) (hn : ¬ HasNaN v) (hn' : ¬ HasNaN v') (hf : PathFits e v)
    (hf' : PathFits e v') (body body' : Bytes) (r r' : Request)
    (hr : serRequest m e v body = .ok r) (hr' : serRequest m' e v' body' = .ok r')
    (htg : r.target = r'.target) (hhd : r.headers = r'.headers) : v = v' := by
  induction hty generalizing v v' with
  | struct hd hp hq hh =>
    cases ht with | struct ht =>
    cases ht' with | struct ht' =>
    rw [told_parts hd hp hq hh ht ht' hn hn' hf hf' hr hr' htg hhd]
  | newtypeStruct _ ih =>
    cases ht with | newtypeStruct ht =>
    cases ht' with | newtypeStruct ht' =>
    rw [ih _ _ ht ht' (fun h => hn (.newtypeStruct h)) (fun h => hn' (.newtypeStruct h))
      (fun p vs ss h => hf p vs ss (.newtypeStruct h)) (fun p vs ss h => hf' p vs ss (.newtypeStruct h))
      hr hr']

/-- **C113** on the wire. If the same bytes are sent for both, then it is the same call: the method, the
request and the body are the same, and what follows them. -/
theorem C113_on_the_wire [MethodNames] (m m' : Method) (e : EntryPoint) (t : Ty) (hty : ToldRequest t)
    (v v' : Val) (ht : HasTy v t) (ht' : HasTy v' t) (hn : ¬ HasNaN v) (hn' : ¬ HasNaN v')
    (hf : PathFits e v) (hf' : PathFits e v') (body body' : Bytes) (r r' : Request)
    (hr : serRequest m e v body = .ok r) (hr' : serRequest m' e v' body' = .ok r')
    (hs : SafeHeaders r.headers) (hs' : SafeHeaders r'.headers) (more more' : Bytes)
    (hw : writeRequest r ++ more = writeRequest r' ++ more') :
    m = m' ∧ v = v' ∧ body = body' ∧ more = more' := by
  have h1 := (C67_request_iff m e v body r hr).2 hs more
  have h2 := (C67_request_iff m' e v' body' r' hr').2 hs' more'
  rw [hw, h2] at h1
  obtain ⟨hh, hb⟩ := Parsed.done.inj h1
  obtain ⟨rfl, htg, hhd⟩ := ReqHead.mk.inj hh
  obtain ⟨b1, -, hs1, c1⟩ := C26_request_content_length m' e v body r hr
  obtain ⟨b2, -, hs2, c2⟩ := C26_request_content_length m' e v' body' r' hr'
  rw [c1, c2, b1, b2] at hhd
  have hl := length_told hhd
  refine ⟨rfl, C113_requests m' m' e t hty v v' ht ht' hn hn' hf hf' body body' r r' hr hr' htg.symm
    (by rw [c1, c2, b1, b2, hhd]), ?_⟩
  obtain ⟨h1, h2⟩ := List.append_inj hb hl
  exact ⟨h1.symm, h2.symm⟩

/-! ### Responses -/

omit [LawfulFloatText] in
theorem statusNumber_told {v v' : Val} {t : Ty} {c : Nat} (ht : HasTy v t) (ht' : HasTy v' t)
    (h : StatusNumber v c) (h' : StatusNumber v' c) : v = v' := by
  induction h generalizing v' t with
  | int => cases ht; cases ht'; cases h'; rfl
  | some _ ih =>
    cases ht with | some ht =>
    cases h' with
    | int => cases ht'
    | newtype => cases ht'
    | some h' => cases ht' with | some ht' => rw [ih ht ht' h']
  | newtype _ ih =>
    cases ht with | newtypeStruct ht =>
    cases h' with
    | int => cases ht'
    | some => cases ht'
    | newtype h' => cases ht' with | newtypeStruct ht' => rw [ih ht ht' h']

theorem header_told {t : Option Ty} (hty : ∀ u, t = some u → ToldEntries u) {h h' : Option Val}
    (ht : (h = none ∧ t = none) ∨ ∃ v u, h = some v ∧ t = some u ∧ HasTy v u)
    (ht' : (h' = none ∧ t = none) ∨ ∃ v u, h' = some v ∧ t = some u ∧ HasTy v u)
    (hn : ∀ v, h = some v → ¬ HasNaN v) (hn' : ∀ v, h' = some v → ¬ HasNaN v) {own : List Header}
    (ho : requestHeaders h = .ok own) (ho' : requestHeaders h' = .ok own) : h = h' := by
  rcases ht with ⟨rfl, rfl⟩ | ⟨v, u, rfl, rfl, hv⟩
  · rcases ht' with ⟨rfl, -⟩ | ⟨_, _, _, h, _⟩
    · rfl
    · cases h
  · rcases ht' with ⟨-, h⟩ | ⟨v', u', rfl, h, hv'⟩
    · cases h
    · cases h
      obtain ⟨x, x1, x2⟩ := serHeaders_written ho
      obtain ⟨y, y1, y2⟩ := serHeaders_written ho'
      rw [List.nil_append] at x1 y1
      rw [← x1] at x2
      rw [← y1] at y2
      rw [told_entries (sent := SentHeader) (name := utf8) (fun v v' x h h' => ⟨_, h, h'⟩)
        (fun v x h => ⟨_, h⟩) (fun _ _ h => utf8_injective h) (hty u rfl) hv hv'
        (hn v rfl) (hn' v' rfl) x2 y2]

omit [LawfulFloatText] in
theorem status_told {n n' : Str} {s : Status} (h : statusFromStr n = some s)
    (h' : statusFromStr n' = some s) : n = n' :=
  table_name ((statusCodeToStr_table _ _).1 (C28_one_to_one.2.2.1 _ _ h))
    ((statusCodeToStr_table _ _).1 (C28_one_to_one.2.2.1 _ _ h'))

omit [LawfulFloatText] in
theorem told_distinct {t : Ty} (hty : ToldResponse t) : ∀ ts, FieldsOf t ts → DistinctNames ts := by
  induction hty with
  | enum _ h =>
    intro ts hf
    cases hf with
    | variant hm =>
      rcases h _ hm with h | ⟨ts', h, hd, -⟩
      · cases h
      · cases h; exact hd
    | newtypeVariant hm _ =>
      rcases h _ hm with h | ⟨ts', h, hd, -⟩ <;> cases h
  | struct hd => intro ts hf; cases hf; exact hd
  | newtypeStruct _ ih =>
    intro ts hf
    cases hf with | newtypeStruct hf => exact ih ts hf

theorem told_sent {t : Ty} (hty : ToldResponse t) {v v' : Val} (ht : HasTy v t) (ht' : HasTy v' t)
    (hn : ¬ HasNaN v) (hn' : ¬ HasNaN v') {s : Status} {own : List Header}
    (h : SentResponse v s own) (h' : SentResponse v' s own) : v = v' := by
  induction hty generalizing v v' with
  | newtypeStruct _ ih =>
    cases ht with | newtypeStruct ht =>
    cases ht' with | newtypeStruct ht' =>
    cases h with | newtypeStruct h =>
    cases h' with | newtypeStruct h' =>
    rw [ih ht ht' (fun h => hn (.newtypeStruct h)) (fun h => hn' (.newtypeStruct h)) h h']
  | struct hd hh =>
    cases h with
    | newtypeStruct => cases ht
    | newtypeVariant => cases ht
    | unit => cases ht
    | variant => cases ht
    | struct hs ho =>
    cases h' with
    | newtypeStruct => cases ht'
    | newtypeVariant => cases ht'
    | unit => cases ht'
    | variant => cases ht'
    | struct hs' ho' =>
    cases ht with | struct ht =>
    cases ht' with | struct ht' =>
    cases ht with | cons hx ht =>
    cases ht' with | cons hx' ht' =>
    obtain ⟨u, rfl, hu⟩ := header_field ht
    obtain ⟨u', he, hu'⟩ := header_field ht'
    have : u = u' := by cases u <;> cases u' <;> simp_all [optField]
    subst this
    rw [statusNumber_told hx hx' hs hs', header_told (fun t ht => hh t (by subst ht; rfl)) hu hu'
      (fun v hv h => hn (.struct (n := "header".toList) (by subst hv; simp [optField]) h))
      (fun v hv h => hn' (.struct (n := "header".toList) (by subst hv; simp [optField]) h)) ho ho']
  | enum hd hh =>
    have same : ∀ {n x y}, (n, x) ∈ _ → (n, y) ∈ _ → x = y := fun {n x y} h h' =>
      Option.some.inj ((lookup_of_mem hd h).symm.trans (lookup_of_mem hd h'))
    cases ht with
    | tupleVariant => cases h
    | newtypeVariant hm => rcases hh _ hm with h | ⟨_, h, _⟩ <;> cases h
    | unitVariant hm =>
      cases h with | unit hs =>
      cases ht' with
      | tupleVariant => cases h'
      | newtypeVariant hm => rcases hh _ hm with h | ⟨_, h, _⟩ <;> cases h
      | unitVariant hm' =>
        cases h' with | unit hs' =>
        rw [status_told hs hs']
      | structVariant hm' =>
        cases h' with | variant hs' =>
        cases status_told hs hs'
        cases same hm hm'
    | structVariant hm ht =>
      generalize he : Val.structVariant _ _ = v at h
      cases h with
      | variant hs ho =>
        cases he
        cases ht' with
        | tupleVariant => cases h'
        | newtypeVariant hm => rcases hh _ hm with h | ⟨_, h, _⟩ <;> cases h
        | unitVariant hm' =>
          cases h' with | unit hs' =>
          cases status_told hs hs'
          cases same hm hm'
        | structVariant hm' ht' =>
          generalize he : Val.structVariant _ _ = v at h'
          cases h' with
          | variant hs' ho' =>
            cases he
            cases status_told hs hs'
            cases same hm hm'
            rcases hh _ hm with h | ⟨ts, h, -, hh⟩
            · cases h
            · cases h
              obtain ⟨u, rfl, hu⟩ := header_field ht
              obtain ⟨u', he, hu'⟩ := header_field ht'
              have : u = u' := by cases u <;> cases u' <;> simp_all [optField]
              subst this
              rw [header_told (fun t ht => hh t (by subst ht; rfl)) hu hu'
                (fun v hv h => hn (.structVariant (n := "header".toList) (by subst hv; simp [optField]) h))
                (fun v hv h => hn' (.structVariant (n := "header".toList) (by subst hv; simp [optField]) h))
                ho ho']
          | _ => cases he
      | _ => cases he

/-- **C113** for responses. Let two responses without NaN be sent, of a type whose values have different
texts. If they have the same status and the same headers, they are the same response. -/
theorem C113_responses (t : Ty) (hty : ToldResponse t) (v v' : Val) (ht : HasTy v t) (ht' : HasTy v' t)
    (hn : ¬ HasNaN v) (hn' : ¬ HasNaN v') (body body' : Bytes) (r r' : Response)
    (hr : serResponse v body = .ok r) (hr' : serResponse v' body' = .ok r')
    (hst : r.status = r'.status) (hhd : r.headers = r'.headers) : v = v' := by
  obtain ⟨own, h1, h2, -⟩ := serResponse_sent ht (told_distinct hty) hr
  obtain ⟨own', h1', h2', -⟩ := serResponse_sent ht' (told_distinct hty) hr'
  rw [h2, h2'] at hhd
  rw [← hst, ← (List.append_inj' hhd rfl).1] at h1'
  exact told_sent hty ht ht' hn hn' h1 h1'

/-- **C113** for responses on the wire. If the same bytes are sent for both, then they are the same
response and, unless the request was `HEAD`, have the same body, and the same follows them. -/
theorem C113_responses_on_the_wire (t : Ty) (hty : ToldResponse t) (v v' : Val) (ht : HasTy v t)
    (ht' : HasTy v' t) (hn : ¬ HasNaN v) (hn' : ¬ HasNaN v') (body body' : Bytes) (r r' : Response)
    (hr : serResponse v body = .ok r) (hr' : serResponse v' body' = .ok r')
    (hs : SafeHeaders r.headers) (hs' : SafeHeaders r'.headers) (phrase phrase' : Bytes)
    (hp : ∀ b ∈ phrase, ValueByte b) (hp' : ∀ b ∈ phrase', ValueByte b) (rh : ReqHead)
    (more more' : Bytes) (hw : writeResponse phrase (onWire rh r) ++ more =
      writeResponse phrase' (onWire rh r') ++ more') :
    v = v' ∧ (rh.method ≠ .head → body = body') ∧ more = more' := by
  have key : ∀ {v body r phrase}, serResponse v body = .ok r → SafeHeaders r.headers →
      (∀ b ∈ phrase, ValueByte b) → ∀ more,
      readResponseHead (writeResponse phrase (onWire rh r) ++ more) =
        .done (r.status.code, r.headers) ((if rh.method = .head then [] else body) ++ more) := by
    intro v body r phrase h hs hp more
    obtain ⟨hb, -⟩ := C26_response_content_length v body r h
    have hw : (onWire rh r).headers = r.headers ∧ (onWire rh r).status = r.status ∧
        (onWire rh r).body = if rh.method = .head then [] else body := by
      rw [onWire]
      cases rh.method with
      | head => exact ⟨rfl, rfl, rfl⟩
      | other k => exact ⟨rfl, rfl, by simpa using hb⟩
    rw [readResponseHead_write hp (hw.1 ▸ hs), hw.1, hw.2.1, hw.2.2]
  have h1 := key hr hs hp more
  rw [hw, key hr' hs' hp' more'] at h1
  obtain ⟨hh, hb⟩ := Parsed.done.inj h1
  obtain ⟨hst, hhd⟩ := Prod.mk.inj hh
  have hst' : r.status = r'.status := by
    have h1 := (statusOfCode_iff _ _).2 hst
    rw [(statusOfCode_iff _ r.status).2 rfl] at h1
    exact Option.some.inj h1
  obtain ⟨own, -, h2, -⟩ := serResponse_sent ht (told_distinct hty) hr
  obtain ⟨own', -, h2', -⟩ := serResponse_sent ht' (told_distinct hty) hr'
  have hl := length_told (a := body) (b := body') (by rw [← contentLength, ← contentLength, ← h2, ← h2', hhd])
  refine ⟨C113_responses t hty v v' ht ht' hn hn' body body' r r' hr hr' hst' hhd.symm, ?_⟩
  by_cases hm : rh.method = .head
  · simp only [if_pos hm, List.nil_append] at hb
    exact ⟨fun h => absurd hm h, hb.symm⟩
  · simp only [if_neg hm] at hb
    obtain ⟨b1, b2⟩ := List.append_inj hb hl.symm
    exact ⟨fun _ => b1.symm, b2.symm⟩

end
end Htrpc
