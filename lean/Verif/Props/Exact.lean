/-
Exactly which structs arrive as queries (C12) and as headers (C19).
-/
import Verif.Props.Integrity

namespace Htrpc
open Spec

section
variable [LawfulFloatText]

theorem plainArg_of_read {v : Val} {s : Str} (h : SentAs v s) {t : Ty} (ht : HasTy v t)
    (hw : readText t s = some v) (hn : ¬ NaNField v) : PlainArg v s := by
  induction h generalizing t with
  | bool b =>
    cases ht
    cases b
    · exact .false
    · cases hw
  | int => exact .int _ _
  | f32 x =>
    refine .f32 x ?_
    cases h : isNaN32 x with
    | false => rfl
    | true => exact absurd (.f32 h) hn
  | f64 x =>
    refine .f64 x ?_
    cases h : isNaN64 x with
    | false => rfl
    | true => exact absurd (.f64 h) hn
  | char => cases ht; cases hw
  | str s => exact .str s
  | unitVariant => cases ht; cases hw
  | newtypeStruct _ ih =>
    cases ht with
    | newtypeStruct ht =>
      rw [readText] at hw
      obtain ⟨y, hy, he⟩ := Option.map_eq_some_iff.1 hw
      cases he
      exact .newtype (ih ht hy fun h => hn (.newtypeStruct h))
  | newtypeVariant => cases ht; cases hw

theorem plainOpt_of_read {v : Val} {s : Str} (h : SentOpt v s) {t : Ty} (ht : HasTy v t)
    (hw : readText t s = some v) (hn : ¬ NaNField v) : PlainOpt v s := by
  induction h generalizing t with
  | sent h => exact .plain (plainArg_of_read h ht hw hn)
  | some _ ih =>
    cases ht with
    | some ht =>
      rw [readText] at hw
      obtain ⟨y, hy, he⟩ := Option.map_eq_some_iff.1 hw
      cases he
      exact .some (ih ht hy fun h => hn (.some h))
  | newtypeStruct _ ih =>
    cases ht with
    | newtypeStruct ht =>
      rw [readText] at hw
      obtain ⟨y, hy, he⟩ := Option.map_eq_some_iff.1 hw
      cases he
      exact .newtype (ih ht hy fun h => hn (.newtypeStruct h))
  | newtypeVariant => cases ht; cases hw

theorem readText_of_readBytes {v : Val} {s : Str} (h : SentAs v s) {t : Ty} (ht : HasTy v t) {w : Val}
    (hw : readBytes t (utf8 s) = some w) : readText t s = some w := by
  induction h generalizing t w with
  | newtypeStruct _ ih =>
    cases ht with
    | newtypeStruct ht =>
      rw [readBytes] at hw
      obtain ⟨y, hy, rfl⟩ := Option.map_eq_some_iff.1 hw
      rw [readText, ih ht hy]
      rfl
  | _ =>
    cases ht
    all_goals first | (rw [readBytes, fromUtf8_utf8] at hw; exact hw) | cases hw

theorem plainHeader_of_read {v : Val} {b : Bytes} (h : SentHeader v b) {t : Ty} (ht : HasTy v t)
    (hw : readBytes t b = some v) (hn : ¬ NaNField v) : PlainHeader v b := by
  induction h generalizing t with
  | sent h => exact .plain (plainArg_of_read h ht (readText_of_readBytes h ht hw) hn)
  | bytes b => exact .bytes b
  | unitStruct n => exact .unitStruct n
  | some _ ih =>
    cases ht with
    | some ht =>
      rw [readBytes] at hw
      obtain ⟨y, hy, he⟩ := Option.map_eq_some_iff.1 hw
      cases he
      exact .some (ih ht hy fun h => hn (.some h))
  | newtypeStruct _ ih =>
    cases ht with
    | newtypeStruct ht =>
      rw [readBytes] at hw
      obtain ⟨y, hy, he⟩ := Option.map_eq_some_iff.1 hw
      cases he
      exact .newtype (ih ht hy fun h => hn (.newtypeStruct h))
  | newtypeVariant => cases ht; cases hw

omit [LawfulFloatText] in
theorem sentOpt_not_omitted [FloatText] {v : Val} {s : Str} (h : SentOpt v s) : ¬ Omitted v := by
  induction h with
  | sent h =>
    induction h with
    | newtypeStruct _ ih => intro ho; cases ho with | newtypeStruct ho => exact ih ho
    | newtypeVariant _ ih => intro ho; cases ho with | newtypeVariant ho => exact ih ho
    | _ => intro ho; cases ho
  | some _ ih => intro ho; cases ho with | some ho => exact ih ho
  | newtypeStruct _ ih => intro ho; cases ho with | newtypeStruct ho => exact ih ho
  | newtypeVariant _ ih => intro ho; cases ho with | newtypeVariant ho => exact ih ho

omit [LawfulFloatText] in
theorem sentHeader_not_omitted [FloatText] {v : Val} {s : Bytes} (h : SentHeader v s) :
    ¬ Omitted v := by
  induction h with
  | sent h => exact sentOpt_not_omitted (.sent h)
  | bytes b => intro ho; cases ho
  | unitStruct n => intro ho; cases ho
  | some _ ih => intro ho; cases ho with | some ho => exact ih ho
  | newtypeStruct _ ih => intro ho; cases ho with | newtypeStruct ho => exact ih ho
  | newtypeVariant _ ih => intro ho; cases ho with | newtypeVariant ho => exact ih ho

omit [LawfulFloatText] in
/-- If the struct that was sent is read, then each of its fields is one that can be read. -/
theorem entries_of_read {β : Type} {read : Ty → β → Option Val} {present present' : Val → β → Prop}
    {fs : List (Str × Val)} {es : List (Str × β)} {ts : List (Str × Ty)}
    (h : FieldEntries present Omitted fs es) (ht : HasTyFields fs ts) (hd : DistinctNames ts)
    (hx : ∀ v x, present v x → ¬ Omitted v)
    (hr : ∀ n v x t, (n, v) ∈ fs → present v x → HasTy v t → read t x = some v → present' v x)
    (hc : readStruct read ts es = some (.struct fs)) :
    FieldEntries present' (· = Val.none) fs es := by
  have hdf : DistinctNames fs := by unfold DistinctNames; rw [HasTyFields_names ht]; exact hd
  obtain ⟨fs', hc, he⟩ := Option.map_eq_some_iff.1 hc
  cases he
  have hval : ∀ n v, (n, v) ∈ fs → ∃ t, HasTy v t ∧ fieldValue read es n t = some v := by
    intro n v hm
    obtain ⟨t, ht1, ht2⟩ := HasTyFields_type ht hm
    obtain ⟨w, h1, h2⟩ := mem_collect hc ht1
    have : w = v := by
      have h3 := lookup_of_mem hdf h2
      rw [lookup_of_mem hdf hm] at h3
      exact (Option.some.inj h3).symm
    exact ⟨t, ht2, this ▸ h1⟩
  have key : ∀ (fs' : List (Str × Val)) (es' : List (Str × β)), FieldEntries present Omitted fs' es' →
      (∀ p ∈ fs', p ∈ fs) → (∀ e ∈ es', e ∈ es) → FieldEntries present' (· = Val.none) fs' es' := by
    intro fs' es' h'
    induction h' with
    | nil => intro _ _; exact .nil
    | @absent n v fs' es' ho _ ih =>
      intro h1 h2
      refine .absent ?_ (ih (fun p hp => h1 p (List.mem_cons_of_mem _ hp)) h2)
      obtain ⟨t, -, hv⟩ := hval n v (h1 _ (List.mem_cons_self ..))
      rcases FieldEntries_filter h hdf (h1 _ (List.mem_cons_self ..)) with ⟨-, hf⟩ | ⟨x, hp, -⟩
      · simp only [fieldValue, hf] at hv
        split at hv
        · cases hv; rfl
        · cases hv
      · exact absurd ho (hx v x hp)
    | @present n v x fs' es' hp _ ih =>
      intro h1 h2
      refine .present ?_ (ih (fun p hp => h1 p (List.mem_cons_of_mem _ hp))
        fun e he => h2 e (List.mem_cons_of_mem _ he))
      obtain ⟨t, htv, hv⟩ := hval n v (h1 _ (List.mem_cons_self ..))
      rcases FieldEntries_filter h hdf (h1 _ (List.mem_cons_self ..)) with ⟨ho, -⟩ | ⟨y, -, hf⟩
      · exact absurd ho (hx v x hp)
      · have hm : (n, x) ∈ es.filter (fun e => decide (e.1 = n)) :=
          List.mem_filter.2 ⟨h2 _ (List.mem_cons_self ..), by simp⟩
        rw [hf] at hm
        cases List.mem_singleton.1 hm
        simp only [fieldValue, hf] at hv
        exact hr n v x t (h1 _ (List.mem_cons_self ..)) hp htv hv
  exact key fs es h (fun _ h => h) fun _ h => h

/-- **C12.** Exactly which structs arrive: a struct without NaN that can be sent as a query is received
unchanged if and only if each of its fields is `None`, or `false`, an integer, a float or a string,
inside of any newtypes and `Some`. -/
theorem C12_arrives_iff (fs : List (Str × Val)) (ts : List (Str × Ty)) (ht : HasTyFields fs ts)
    (hd : DistinctNames ts) (hn : ∀ n v, (n, v) ∈ fs → ¬ NaNField v) (q : Str)
    (hq : serQuery (.struct fs) = .ok q) :
    deQuery (.struct ts) (some q) = .ok (.struct fs) ↔ ∃ ps, FieldTexts fs ps := by
  constructor
  · intro hr
    have h := serQuery_written hq
    generalize hp : formParse q = ps at h
    cases h with
    | single h => exact absurd h (by intro h; cases h with | sent h => cases h)
    | @struct _ es h =>
      have he : (es.map fun e => (id e.1, e.2)) = es := by simp
      rw [he] at hp
      rw [deQuery_tame hd, Option.getD_some, hp] at hr
      · refine ⟨es, entries_of_read (read := readText) h ht hd (fun v x => sentOpt_not_omitted)
          (fun n v x t hm hx ht hw => plainOpt_of_read hx ht hw (hn n v hm)) ?_⟩
        cases hs : readStruct readText ts es with
        | none => rw [hs] at hr; cases hr
        | some u => rw [hs] at hr; cases hr; rfl
      · rw [Option.getD_some, hp]
        refine .of_declared fun p hp => ?_
        have := FieldEntries_name h (List.mem_map.2 ⟨p, hp, rfl⟩)
        unfold Declared at this ⊢
        rwa [HasTyFields_names ht] at this
  · rintro ⟨ps, hp⟩
    obtain ⟨q', h1, h2⟩ := C12_query_round_trip_partial fs ts ps hp ht hd
    rw [hq] at h1
    cases h1
    exact h2

/-- **C19.** Exactly which structs arrive as headers: a struct without NaN and with names in lower case
that can be sent is received unchanged if and only if each of its fields is `None`, or `false`, an
integer, a float, a string, bytes or a unit struct, inside of any newtypes and `Some`. -/
theorem C19_arrives_iff (fs : List (Str × Val)) (ts : List (Str × Ty)) (ht : HasTyFields fs ts)
    (hd : DistinctNames ts) (hl : ∀ f ∈ ts, LowerName f.1)
    (hn : ∀ n v, (n, v) ∈ fs → ¬ NaNField v) (before own : List Header)
    (hs : serHeaders before (.struct fs) = .ok (before ++ own)) (hs' : List Header) (ha : AsciiNames hs')
    (ho : (hs'.filter fun h => decide (Declared ts (nameText h.1))) = own) :
    deHeaders (.struct ts) hs' = .ok (.struct fs) ↔ ∃ es, HeaderFields fs es := by
  constructor
  · intro hr
    obtain ⟨own', h1, h⟩ := serHeaders_written hs
    rw [← List.append_cancel_left h1] at h
    generalize hown : own = w at h
    cases h with
    | @single _ x h =>
      exfalso
      generalize hv : Val.struct fs = v at h
      cases h with
      | sent h => subst hv; cases h
      | _ => cases hv
    | @struct _ es h =>
      have hle : ∀ e ∈ es, LowerName e.1 := by
        intro e he
        have := FieldEntries_name h (List.mem_map.2 ⟨e, he, rfl⟩)
        unfold Declared at this
        rw [HasTyFields_names ht] at this
        obtain ⟨f, hf, hf'⟩ := List.mem_map.1 this
        exact hf' ▸ hl f hf
      have he : own = headersOf es := hown
      rw [deHeaders_struct hd ha, ← readStruct_filter, ← entries_filter, ho, he,
        entries_headersOf hle] at hr
      refine ⟨es, entries_of_read (read := readBytes) h ht hd (fun v x => sentHeader_not_omitted)
        (fun n v x t hm hx ht hw => plainHeader_of_read hx ht hw (hn n v hm)) ?_⟩
      cases hs : readStruct readBytes ts es with
      | none => rw [hs] at hr; cases hr
      | some u => rw [hs] at hr; cases hr; rfl
  · rintro ⟨es, hp⟩
    obtain ⟨own', h1, h2⟩ := C19_header_round_trip fs ts es hp ht hd hl
    rw [h1 before] at hs
    have := Res.ok.inj hs
    exact h2 hs' ha (ho.trans (List.append_cancel_left this).symm)

end

/-! ### Examples -/

section Examples

/-- `C12_arrives_iff`, from left to right: a flag in a newtype does not arrive. -/
example : letI := toyFloat
    ¬ ∃ ps, FieldTexts [("f".toList, .newtypeStruct (.bool true))] ps := by
  let := toyFloat
  intro h
  obtain ⟨q, h1, h2⟩ := C12_true_field_fails [("f".toList, .newtypeStruct (.bool true))] _ _
    (.present (.newtypeStruct (.sent (.bool true))) .nil) (.cons (.newtypeStruct (.bool _)) .nil)
    (by unfold DistinctNames; decide) ⟨_, _, List.mem_cons_self .., .newtype .true⟩
  have := (C12_arrives_iff _ _ (.cons (.newtypeStruct (.bool _)) .nil)
    (by unfold DistinctNames; decide) (by
      intro n v hm hn
      rcases List.mem_singleton.1 hm with h
      cases h
      cases hn with | newtypeStruct hn => cases hn) q h1).2 h
  rw [h2] at this
  cases this

end Examples

end Htrpc
