/-
Exactly which responses arrive (C109).
-/
import Verif.Props.ExactRequest
import Verif.Props.IntegrityResponse

namespace Htrpc
open Spec

section
variable [LawfulFloatText]

/-- The optional header field, read. -/
theorem readPart_header {h : Option Val} {u : Option Ty} {ts : List (Str × Ty)} {hs : List Header}
    (hl : ts.lookup "header".toList = u) (hu : (h = none ∧ u = none) ∨ ∃ v t, h = some v ∧ u = some t)
    (hne : hs ≠ []) (acc : List (Str × Val)) :
    readPart ts "header".toList (fun t => deHeaders t hs) (ignoreHeaders hs) acc =
        .ok (acc ++ optField "header".toList h) ↔
      ∀ v t, h = some v → u = some t → deHeaders t hs = .ok v := by
  constructor
  · intro hr v t h1 h2
    obtain ⟨x, h3, h4⟩ := readPart_ok hr
    rw [hl] at h4
    rcases h4 with ⟨h4, -⟩ | ⟨t', w, h4, rfl, h5⟩
    · rw [h2] at h4; cases h4
    · rw [h2] at h4
      cases h4
      rw [h1] at h3
      have := List.append_cancel_left h3
      cases this
      exact h5
  · intro k
    refine readPart_opt hl ?_
    rcases hu with ⟨rfl, rfl⟩ | ⟨v, t, rfl, rfl⟩
    · exact .inl ⟨rfl, rfl, ignoreHeaders_ok hne⟩
    · exact .inr ⟨t, v, rfl, rfl, k v t rfl rfl⟩

omit [LawfulFloatText] in
/-- Only the name of a status has its code. -/
theorem table_name {n m : Str} {c : Nat} (h : (n, c) ∈ statusTable) (h' : (m, c) ∈ statusTable) :
    n = m := by
  have h1 := (statusCodeToStr_table c n).2 h
  rw [(statusCodeToStr_table c m).2 h'] at h1
  exact (Option.some.inj h1).symm

omit [LawfulFloatText] in
theorem optField_inj {k : Str} {h h' : Option Val} (he : optField k h = optField k h') : h = h' := by
  cases h <;> cases h' <;> simp_all [optField]

theorem intact_sent {v : Val} {s : Status} {own : List Header} (h : SentResponse v s own)
    {t : Ty} (ht : HasTy v t) (hty : ResponseTy t) (hnan : ¬ HasNaN v) (body : Bytes)
    (hr : AsciiNames own) {hs : List Header} (hne : hs ≠ []) (hn : AsciiNames hs)
    (ho : ∀ ts u, FieldsOf t ts → ts.lookup "header".toList = some u →
      askedFor u hs = askedFor u (own ++ [contentLength body])) (inside : Bool) :
    RespDe.de ⟨s.code, hs⟩ t (startPhase inside) = .ok v ↔ ResponseIntact inside v s.code := by
  induction h generalizing t inside with
  | @unit n s hs =>
    have hc := C28_one_to_one.2.2.1 _ _ hs
    refine iff_of_true ?_ (.unit ((statusCodeToStr_table _ _).1 hc))
    cases ht with
    | @unitVariant _ vs hm =>
      rw [RespDe.de]
      simp only [hc, Res.ofOption, Res.bind_ok]
      rw [deVariant_lookup _ _ _ _ (lookup_of_mem (hty.variants _ (.enum _)) hm), RespDe.deContent]
  | @variant n s h own hs' hown =>
    cases ht with
    | @structVariant _ _ ts vs hm ht =>
      have hc := C28_one_to_one.2.2.1 _ _ hs'
      obtain ⟨u, rfl, hu⟩ := header_field ht
      have hl : (optField "header".toList u).lookup "header".toList = u := by cases u <;> rfl
      have hpart : (∀ v t, h = some v → u = some t → deHeaders t hs = .ok v) ↔
          ∀ v, h = some v → HeaderIntact v := by
        rcases hu with ⟨rfl, rfl⟩ | ⟨v, t, rfl, rfl, hvt⟩
        · simp
        · obtain ⟨k1, k2, k3⟩ := hty.header _ t (.variant hm) rfl
          have := header_part_iff hvt k1 k2 k3
            (fun h => hnan (.structVariant (List.mem_cons_self ..) h)) body hown hr hn
            (ho _ t (.variant hm) rfl)
          constructor
          · intro h _ h'; cases h'; exact this.1 (h v t rfl rfl)
          · intro h _ _ h1 h2; cases h1; cases h2; exact this.2 (h v rfl)
      have hu' := hu.imp id fun ⟨v, t, a, b, _⟩ => (⟨v, t, a, b⟩ : ∃ v t, h = some v ∧ u = some t)
      have hread := readPart_header (hs := hs) hl hu' hne []
      rw [RespDe.de]
      simp only [hc, Res.ofOption, Res.bind_ok]
      rw [deVariant_lookup _ _ _ _ (lookup_of_mem (hty.variants _ (.enum _)) hm),
        RespDe.deContent, respDe_variant]
      constructor
      · intro hw
        obtain ⟨ws, hws, hw⟩ := Res.bind_ok_eq hw
        cases hw
        obtain ⟨a, ha, hws⟩ := Res.bind_ok_eq hws
        refine .variant ((statusCodeToStr_table _ _).1 hc) (hpart.1 (hread.1 (ha.trans ?_)))
        obtain ⟨h', rfl, hh'⟩ := readPart_ok ha
        rw [hl] at hh'
        rcases hu with ⟨rfl, rfl⟩ | ⟨v, t, rfl, rfl, -⟩
        · rcases hh' with ⟨-, rfl⟩ | ⟨_, _, hx, -⟩
          · rfl
          · cases hx
        · rcases hh' with ⟨hx, -⟩ | ⟨_, w, hx, rfl, -⟩
          · cases hx
          · cases hws; rfl
      · intro hi
        generalize hv : Val.structVariant n (optField "header".toList h) = v at hi
        cases hi with
        | @variant _ n' _ h' _ hi =>
          injection hv with h1 h2
          have : h = h' := optField_inj h2
          subst this
          subst h1
          have hr' := hread.2 (hpart.2 hi)
          show ((readPart _ _ (fun t => deHeaders t hs) (ignoreHeaders hs) []).bind _).bind _ = _
          rw [hr']
          rcases hu with ⟨rfl, rfl⟩ | ⟨v, t, rfl, rfl, -⟩ <;> rfl
        | _ => cases hv
  | @struct x s h own hx hown =>
    cases ht with
    | @struct _ ts ht =>
      cases ht with
      | @cons _ _ xt _ ts hxt ht =>
        obtain ⟨u, rfl, hu⟩ := header_field ht
        have hl : (("status".toList, xt) :: optField "header".toList u).lookup "header".toList = u := by
          cases u <;> rfl
        have hl' : (("status".toList, xt) :: optField "header".toList u).lookup "status".toList =
          some xt := rfl
        have hpart : (∀ v t, h = some v → u = some t → deHeaders t hs = .ok v) ↔
            ∀ v, h = some v → HeaderIntact v := by
          rcases hu with ⟨rfl, rfl⟩ | ⟨v, t, rfl, rfl, hvt⟩
          · simp
          · obtain ⟨k1, k2, k3⟩ := hty.header _ t (.struct _) rfl
            have := header_part_iff hvt k1 k2 k3
              (fun h => hnan (.struct (List.mem_cons_of_mem _ (List.mem_cons_self ..)) h)) body hown hr
              hn (ho _ t (.struct _) rfl)
            constructor
            · intro h _ h'; cases h'; exact this.1 (h v t rfl rfl)
            · intro h _ _ h1 h2; cases h1; cases h2; exact this.2 (h v rfl)
        have hu' := hu.imp id fun ⟨v, t, a, b, _⟩ =>
          (⟨v, t, a, b⟩ : ∃ v t, h = some v ∧ u = some t)
        rw [RespDe.de]
        cases inside with
        | false =>
          rw [startPhase, respDe_struct]
          constructor
          · intro hw
            obtain ⟨ws, hws, hw⟩ := Res.bind_ok_eq hw
            cases hw
            obtain ⟨a, ha, hws⟩ := Res.bind_ok_eq hws
            obtain ⟨b, hb, hws⟩ := Res.bind_ok_eq hws
            obtain ⟨x', rfl, hx'⟩ := readPart_ok ha
            rw [hl'] at hx'
            rcases hx' with ⟨hx', -⟩ | ⟨_, y, hx', rfl, hy⟩
            · cases hx'
            cases hx'
            have hhead := (readPart_header (h := h) hl hu' hne _).1 (hb.trans (by
              obtain ⟨h', rfl, hh'⟩ := readPart_ok hb
              rw [hl] at hh'
              rcases hu with ⟨rfl, rfl⟩ | ⟨v, t, rfl, rfl, -⟩
              · rcases hh' with ⟨-, rfl⟩ | ⟨_, _, hx, -⟩
                · rfl
                · cases hx
              · rcases hh' with ⟨hx, -⟩ | ⟨_, w, hx, rfl, -⟩
                · cases hx
                · cases hws; rfl))
            cases hx with
            | int it => exact .struct (hpart.1 hhead)
            | some => cases hxt; cases hy
            | newtype => cases hxt; cases hy
          · intro hi
            generalize hv : Val.struct (("status".toList, x) :: optField "header".toList h) = v at hi
            generalize hcode : s.code = c at hi
            cases hi with
            | @struct it _ h' hi =>
              injection hv with hv
              injection hv with h1 h2
              have : h = h' := optField_inj h2
              subst this
              injection h1 with _ h1
              subst h1
              subst hcode
              cases hxt with
              | int _ _ hf =>
                have h1 : readPart (("status".toList, .int it) :: optField "header".toList u)
                    "status".toList (fun t => deU16 s.code t) (.ok ()) [] =
                    .ok ([] ++ optField "status".toList (some (.int it (Int.ofNat s.code)))) :=
                  readPart_opt hl' (.inr ⟨_, _, rfl, rfl, by rw [deU16, if_pos hf]⟩)
                have h2 := (readPart_header (h := h) hl hu' hne
                  ([] ++ optField "status".toList (some (.int it (Int.ofNat s.code))))).2 (hpart.2 hi)
                dsimp only
                rw [h1, Res.bind_ok, h2, Res.bind_ok]
                rcases hu with ⟨rfl, rfl⟩ | ⟨v, t, rfl, rfl, -⟩ <;> rfl
            | _ => cases hv
        | true =>
          rw [startPhase, respDe_variant]
          refine iff_of_false ?_ (fun hi => nomatch hi)
          intro hw
          obtain ⟨ws, hws, hw⟩ := Res.bind_ok_eq hw
          injection hw with hw
          injection hw with hw
          obtain ⟨b, hb, hws⟩ := Res.bind_ok_eq hws
          obtain ⟨h', rfl, hh'⟩ := readPart_ok hb
          have hnone : ([] ++ optField "header".toList h').lookup "status".toList = none := by
            cases h' <;> rfl
          rw [assemble, hnone] at hws
          obtain ⟨y, hy, hws⟩ := Res.bind_ok_eq hws
          obtain ⟨zs, -, hws⟩ := Res.bind_ok_eq hws
          cases hws
          injection hw with hw
          injection hw with _ hw
          subst hw
          cases hx with
          | int it c => cases hxt; cases hy
          | some => cases hxt; cases hy
          | newtype => cases hxt; cases hy
  | @newtypeStruct v s own _ ih =>
    cases ht with
    | newtypeStruct ht =>
      have ih := ih ht ⟨fun _ h => hty.variants _ (.newtypeStruct h),
        fun _ h => hty.fields _ (.newtypeStruct h), fun _ _ h => hty.header _ _ (.newtypeStruct h)⟩
        (fun h => hnan (.newtypeStruct h)) hr (fun _ _ h => ho _ _ (.newtypeStruct h)) inside
      rw [RespDe.de]
      constructor
      · intro hw
        obtain ⟨x, hx, hw⟩ := Res.bind_ok_eq hw
        cases hw
        exact .newtypeStruct (ih.1 hx)
      · intro hi
        cases hi with
        | newtypeStruct hi => rw [ih.2 hi]; rfl
  | @newtypeVariant n v s own _ ih =>
    cases ht with
    | @newtypeVariant _ _ t vs hm ht =>
      have ih := ih ht ⟨fun _ h => hty.variants _ (.newtypeVariant hm h),
        fun _ h => hty.fields _ (.newtypeVariant hm h),
        fun _ _ h => hty.header _ _ (.newtypeVariant hm h)⟩ (fun h => hnan (.newtypeVariant h))
        hr (fun _ _ h => ho _ _ (.newtypeVariant hm h)) true
      constructor
      · intro hw
        obtain ⟨m, hmem, -, hname⟩ := C30_variant_is_status vs s.code hs (.newtypeVariant n v) hw
        cases hname
        have hc : statusCodeToStr s.code = some n := (statusCodeToStr_table _ _).2 hmem
        rw [RespDe.de] at hw
        simp only [hc, Res.ofOption, Res.bind_ok] at hw
        rw [deVariant_lookup _ _ _ _ (lookup_of_mem (hty.variants _ (.enum _)) hm),
          RespDe.deContent] at hw
        obtain ⟨x, hx, hw⟩ := Res.bind_ok_eq hw
        cases hw
        exact .newtypeVariant hmem (ih.1 hx)
      · intro hi
        cases hi with
        | newtypeVariant hmem hi =>
          have hc : statusCodeToStr s.code = some n := (statusCodeToStr_table _ _).2 hmem
          have := ih.2 hi
          rw [startPhase] at this
          rw [RespDe.de]
          simp only [hc, Res.ofOption, Res.bind_ok]
          rw [deVariant_lookup _ _ _ _ (lookup_of_mem (hty.variants _ (.enum _)) hm),
            RespDe.deContent, this]
          rfl

/-- **C109.** Let a response without NaN be sent, of a type with distinct names, and headers with
different names be added in any places, such that there is at least one. A client that expects this type
gets the response as it was sent exactly if the names of its variants (those of newtype variants too) are
the name of its status, its status is a plain integer outside of newtype variants, and its headers
arrive: they have texts and lower-case names. -/
theorem C109_response (v : Val) (t : Ty) (ht : HasTy v t) (hty : ResponseTy t) (hn : ¬ HasNaN v)
    (body : Bytes) (r : Response) (hs : serResponse v body = .ok r) (hr : AsciiNames r.headers)
    (hs' : List Header) (hne : hs' ≠ []) (ha : AsciiNames hs')
    (ho : ∀ ts u, FieldsOf t ts → ts.lookup "header".toList = some u →
      askedFor u hs' = askedFor u r.headers) :
    deResponse t r.status.code hs' = .ok v ↔ ResponseIntact false v r.status.code := by
  obtain ⟨own, h1, h2, -⟩ := serResponse_sent ht hty.fields hs
  rw [h2] at hr ho
  exact intact_sent h1 ht hty hn body (fun x hx => hr x (List.mem_append_left _ hx)) hne ha ho false

end

/-! ### Examples -/

namespace ExactResponseExamples

/-- A struct with nothing but a status. -/
def justStatus (n : Nat) : Val := .struct [("status".toList, .int .u16 (Int.ofNat n))]

theorem noNaN_status (n : Nat) : ¬ HasNaN (justStatus n) := by
  intro h
  generalize hv : justStatus n = v at h
  cases h with
  | here h => subst hv; cases h
  | struct hm h =>
    cases hv
    simp only [List.mem_cons, Prod.mk.injEq, List.not_mem_nil, or_false] at hm
    rw [hm.2] at h
    cases h with | here h => cases h
  | _ => cases hv

/-- Its type, or this in a variant. -/
def statusTy : Ty := .struct [("status".toList, .int .u16)]

theorem statusTy_ok : ResponseTy statusTy := by
  refine ⟨?_, ?_, ?_⟩
  · intro vs h; cases h
  · intro ts h; cases h; unfold DistinctNames; decide
  · intro ts u h; cases h; intro h; cases h

/-- `C109_response`: a struct with a status arrives, also with other headers. -/
example (body : Bytes) : letI := toyFloat
    deResponse statusTy 404 [(utf8 "x".toList, []), contentLength body] = .ok (justStatus 404) := by
  let := toyFloat
  have h1 : serResponse (justStatus 404) body = .ok ⟨.notFound, [contentLength body], body⟩ := rfl
  have hcl : ∀ b ∈ (contentLength body).1, b < 128 := by
    show ∀ b ∈ utf8 "Content-Length".toList, _
    decide
  refine (C109_response (justStatus 404) statusTy (.struct (.cons (.int _ _ (by decide)) .nil))
    statusTy_ok (noNaN_status _) body _ h1 ?_ _ (by simp) ?_ ?_).2
      (.struct (h := none) (fun _ h => nomatch h))
  · intro h hh
    rw [List.mem_singleton.1 hh]
    exact hcl
  · intro h hh
    rcases List.mem_cons.1 hh with rfl | hh
    · decide
    · rw [List.mem_singleton.1 hh]
      exact hcl
  · intro ts u h
    cases h
    intro h
    cases h

/-- Inside of a newtype variant it is sent too, but does not arrive. -/
example (body : Bytes) : letI := toyFloat
    (∃ r, serResponse (.newtypeVariant "NotFound".toList (justStatus 404)) body = .ok r ∧
      r.status.code = 404) ∧
      ¬ ResponseIntact false (.newtypeVariant "NotFound".toList (justStatus 404)) 404 := by
  let := toyFloat
  refine ⟨⟨_, rfl, rfl⟩, ?_⟩
  intro h
  cases h with
  | newtypeVariant _ h => nomatch h

/-- A newtype variant that has another name than the status does not arrive, one with its name does. -/
example : letI := toyFloat
    (ResponseIntact false (.newtypeVariant "NotFound".toList (.unitVariant "NotFound".toList)) 404) ∧
      ∀ n, n ≠ "NotFound".toList →
        ¬ ResponseIntact false (.newtypeVariant n (.unitVariant "NotFound".toList)) 404 := by
  let := toyFloat
  have hm : ("NotFound".toList, 404) ∈ statusTable :=
    (statusCodeToStr_table 404 "NotFound".toList).1 rfl
  refine ⟨.newtypeVariant hm (.unit hm), ?_⟩
  intro n hn h
  cases h with
  | newtypeVariant h => exact hn (table_name h hm)

end ExactResponseExamples

end Htrpc
